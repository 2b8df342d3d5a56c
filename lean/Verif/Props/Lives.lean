import Verif.Proofs.Lives
import Verif.Props.Language

/-!
# C92: When an expectation ends
-/

set_option autoImplicit false

namespace Mimic.Lives

open Language Finish

variable {α : Type} {tr : Trace α} {w : World α} {e : Nat} {d : Decl α} {mid : List (Op α)}

theorem Sound.of_reach (h : Reach tr w) : Sound (abs w) := by
  induction h with
  | init =>
    have : (abs (World.init : World α)).exps = [] := rfl
    exact ⟨⟨by intro i x hx; simp [this] at hx, by intro x hx; simp [this] at hx⟩, by intro x hx; simp [this] at hx⟩
  | step hr hs ih => exact ih.step (hr.spec_step hs)

/-- From the history to the state. -/
theorem ready (h : Reach tr w) (hl : tr.live e) (hd : tr.decl e = some d) (hc : CannotResolve tr e d mid) :
    viewExp tr e d ∈ (abs w).exps ∧ (viewExp tr e d).alive = true ∧ Idle (abs w) e mid := by
  have hv := h.view.2
  refine ⟨hv.mem hd, by simpa [viewExp] using hl.2, ?_⟩
  intro y hy he
  obtain rfl := (Sound.of_reach h).good.same hy (hv.mem hd) he
  rcases hc with hc | hc
  · exact Or.inl hc
  · right
    intro a ha
    obtain ⟨p, hp, hpa⟩ := hc a ha
    unfold Spec.Exp.accepts
    rw [List.all_eq_false]
    exact ⟨p, hp, by simpa using hpa⟩

/-- C92: an expectation that cannot resolve any of the calls in between may end after them as well as before. Whatever the test does
then, it reports the same, and all calls end in the same way. (It may report in another order; that expectation may be asked about
the calls in between, and throw, and it may be listed if they are not expected.) -/
theorem C92_later (h : Reach tr w) (hl : tr.live e) (hd : tr.decl e = some d) (hm : .destroy e ∉ mid) (hc : CannotResolve tr e d mid)
    (post : List (Op α)) {w' : World α} {evs : List Event} (hr : w.run (.destroy e :: (mid ++ post)) = .ok (w', evs)) :
    ∃ w'' evs', w.run (mid ++ .destroy e :: post) = .ok (w'', evs') ∧ Agree e evs evs' := by
  obtain ⟨hx, ha, hi⟩ := ready h hl hd hc
  obtain ⟨h1, -, h3⟩ := moves (Sound.of_reach h) hx rfl ha hm hi
  obtain ⟨⟨T, hT⟩, hf⟩ := (run_iff_spec h).mp ⟨w', hr⟩
  rw [← List.cons_append] at hT hf
  obtain ⟨S, ev, ev2, g1, g2, rfl⟩ := spec_run_append hT
  obtain ⟨f1, f2⟩ := (Merge.fits_append g1).mp hf
  obtain ⟨ev', g3, g4⟩ := h1 S ev g1
  have hj := spec_run_join g3 g2
  rw [List.append_assoc] at hj
  have hfj := (Merge.fits_append g3).mpr ⟨h3.mp f1, f2⟩
  rw [List.append_assoc] at hfj
  obtain ⟨w'', hw⟩ := (run_iff_spec h).mpr ⟨⟨T, hj⟩, hfj⟩
  exact ⟨w'', ev' ++ ev2, hw, g4.append (.refl e ev2)⟩

/-- C92: the other way round: it may end before the calls in between as well as after them. -/
theorem C92_earlier (h : Reach tr w) (hl : tr.live e) (hd : tr.decl e = some d) (hm : .destroy e ∉ mid) (hc : CannotResolve tr e d mid)
    (post : List (Op α)) {w' : World α} {evs : List Event} (hr : w.run (mid ++ .destroy e :: post) = .ok (w', evs)) :
    ∃ w'' evs', w.run (.destroy e :: (mid ++ post)) = .ok (w'', evs') ∧ Agree e evs' evs := by
  obtain ⟨hx, ha, hi⟩ := ready h hl hd hc
  obtain ⟨-, h2, h3⟩ := moves (Sound.of_reach h) hx rfl ha hm hi
  obtain ⟨⟨T, hT⟩, hf⟩ := (run_iff_spec h).mp ⟨w', hr⟩
  have hl' : mid ++ .destroy e :: post = (mid ++ [.destroy e]) ++ post := by simp
  rw [hl'] at hT hf
  obtain ⟨S, ev, ev2, g1, g2, rfl⟩ := spec_run_append hT
  obtain ⟨f1, f2⟩ := (Merge.fits_append g1).mp hf
  obtain ⟨ev', g3, g4⟩ := h2 S ev g1
  have hj := spec_run_join g3 g2
  have hfj := (Merge.fits_append g3).mpr ⟨h3.mpr f1, f2⟩
  obtain ⟨w'', hw⟩ := (run_iff_spec h).mpr ⟨⟨T, hj⟩, hfj⟩
  exact ⟨w'', ev' ++ ev2, hw, g4.append (.refl e ev2)⟩

theorem failure_blur (ev ev' : Event) (h : blur e ev = some ev') : Language.failure ev = Language.failure ev' := by
  cases ev <;> simp only [blur, Option.some.injEq] at h
  case unhandled k => split at h <;> simp at h; subst h; rfl
  all_goals subst h; rfl

theorem Agree.passes {evs evs' : List Event} (h : Agree e evs evs') (hp : passes evs) : passes evs' := by
  intro ev hev
  cases ho : blur e ev with
  | none => cases ev <;> simp_all [blur, Language.failure]
  | some ev' =>
    have h1 : ev' ∈ evs'.filterMap (blur e) := List.mem_filterMap.mpr ⟨ev, hev, ho⟩
    rw [← h.1.mem_iff] at h1
    obtain ⟨ev2, h2, h3⟩ := List.mem_filterMap.mp h1
    rw [failure_blur ev ev' ho, ← failure_blur ev2 ev' h3]
    exact hp ev2 h2

/-- C92: so the test passes either way or neither way. -/
theorem C92_passes (h : Reach tr w) (hl : tr.live e) (hd : tr.decl e = some d) (hm : .destroy e ∉ mid) (hc : CannotResolve tr e d mid)
    (post : List (Op α)) :
    (∃ w' evs, w.run (.destroy e :: (mid ++ post)) = .ok (w', evs) ∧ passes evs) ↔
      ∃ w' evs, w.run (mid ++ .destroy e :: post) = .ok (w', evs) ∧ passes evs := by
  constructor
  · rintro ⟨w', evs, h1, h2⟩
    obtain ⟨w'', evs', h3, h4⟩ := C92_later h hl hd hm hc post h1
    exact ⟨w'', evs', h3, h4.passes h2⟩
  · rintro ⟨w', evs, h1, h2⟩
    obtain ⟨w'', evs', h3, h4⟩ := C92_earlier h hl hd hm hc post h1
    exact ⟨w'', evs', h3, h4.symm.passes h2⟩

/-- C92: in particular an expectation that has resolved as many calls as it may can end at once: what the rest of the test does with
it still alive, whenever it ends, it does without it. -/
theorem C92_saturated (h : Reach tr w) (hl : tr.live e) (hd : tr.decl e = some d) (hs : d.max ≤ tr.matched e) (hm : .destroy e ∉ mid)
    (post : List (Op α)) :
    (∃ w' evs, w.run (.destroy e :: (mid ++ post)) = .ok (w', evs) ∧ passes evs) ↔
      ∃ w' evs, w.run (mid ++ .destroy e :: post) = .ok (w', evs) ∧ passes evs :=
  C92_passes h hl hd hm (Or.inl hs) post

/-! ### Examples -/

/-- The observations of a program, from a given state on. -/
def started {γ : Type} (w : World γ) (ops : List (Op γ)) : Option (List Event) := (w.run ops).toOption.map (·.2)

theorem run_of_from {γ : Type} {w : World γ} {ops : List (Op γ)} {evs : List Event} (h : started w ops = some evs) :
    ∃ w', w.run ops = .ok (w', evs) := by
  unfold started at h
  cases hr : w.run ops with
  | error x => rw [hr] at h; simp [Except.toOption] at h
  | ok r =>
    rw [hr] at h
    simp only [Except.toOption, Option.map_some, Option.some.injEq] at h
    exact ⟨r.1, by rw [← h]⟩

/-- Accepts the given number. -/
def equals (n : Nat) : Policy Nat := { accepts := fun a => some (a == n) }

/-- Expectation 0 wants one call with 1 and gets it; expectation 1 takes calls with 2; both belong to a sequence. -/
def setup : List (Op Nat) :=
  [.newMock, .newSequence .lazy, .expect 0 1 1 [0] [equals 1], .expect 0 0 2 [0] [equals 2], .call 0 1]

/-- What follows: more calls, one of them unexpected. -/
def rest : List (Op Nat) := [.call 0 2, .call 0 1, .newMock, .expect 1 0 1 [0] [], .call 0 2]

/-- C92: but an expectation that may still resolve a call in between must not end before. -/
theorem C92_needed :
    ∃ (tr : Trace Nat) (w : World Nat) (e : Nat) (d : Decl Nat) (mid : List (Op Nat)), Reach tr w ∧ tr.live e ∧ tr.decl e = some d ∧
      .destroy e ∉ mid ∧ (∃ w' evs, w.run (mid ++ [.destroy e]) = .ok (w', evs) ∧ passes evs) ∧
      ¬ ∃ w' evs, w.run (.destroy e :: mid) = .ok (w', evs) ∧ passes evs := by
  have hr := reach_final setup
  have hd : (World.final setup).2.decl 1 = some ⟨0, 0, 2, [0], [equals 2]⟩ := by rfl
  refine ⟨_, _, 1, _, [.call 0 2], hr, ⟨⟨_, hd⟩, by decide +kernel⟩, hd, by simp, ?_, ?_⟩
  · obtain ⟨w', h⟩ := run_of_from (w := (World.final setup).1) (ops := [.call 0 2] ++ [.destroy 1])
      (evs := [.fullMatch 1, .destroyed 1]) (by decide +kernel)
    exact ⟨w', _, h, by simp [passes, Language.failure]⟩
  · rintro ⟨w', evs, h, hp⟩
    obtain ⟨w'', h'⟩ := run_of_from (w := (World.final setup).1) (ops := .destroy 1 :: [.call 0 2])
      (evs := [.destroyed 1, .noMatch [0]]) (by decide +kernel)
    rw [h] at h'
    simp only [Except.ok.injEq, Prod.mk.injEq] at h'
    obtain ⟨rfl, rfl⟩ := h'
    exact absurd (hp (.noMatch [0]) (by simp)) (by simp [Language.failure])

/-- The theorems apply to expectation 0, which has resolved its only call: before and after `rest`. -/
example : Reach (World.final setup).2 (World.final setup).1 ∧ (World.final setup).2.live 0 ∧
    (World.final setup).2.decl 0 = some ⟨0, 1, 1, [0], [equals 1]⟩ ∧ .destroy 0 ∉ rest ∧
    CannotResolve (World.final setup).2 0 ⟨0, 1, 1, [0], [equals 1]⟩ rest ∧
    started (World.final setup).1 (.destroy 0 :: (rest ++ [.destroy 1])) =
      some [.destroyed 0, .fullMatch 1, .noMatch [1], .mockCreated 1, .created 2, .fullMatch 1, .destroyed 1] ∧
    started (World.final setup).1 (rest ++ .destroy 0 :: [.destroy 1]) =
      some [.fullMatch 1, .inapplicable [0], .mockCreated 1, .created 2, .fullMatch 1, .destroyed 0, .destroyed 1] := by
  have hd : (World.final setup).2.decl 0 = some ⟨0, 1, 1, [0], [equals 1]⟩ := by rfl
  refine ⟨reach_final setup, ⟨⟨_, hd⟩, by decide +kernel⟩, hd, by simp [rest], Or.inl (by decide +kernel), by decide +kernel,
    by decide +kernel⟩

/-- And to expectation 1, which is not asked for in between. -/
example : CannotResolve (World.final setup).2 1 ⟨0, 0, 2, [0], [equals 2]⟩ [.call 0 1, .call 0 5] ∧
    started (World.final setup).1 [.call 0 1, .call 0 5, .destroy 1] = some [.inapplicable [0], .noMatch [1, 0], .destroyed 1] ∧
    started (World.final setup).1 [.destroy 1, .call 0 1, .call 0 5] = some [.destroyed 1, .inapplicable [0], .noMatch [0]] := by
  refine ⟨Or.inr ?_, by decide +kernel, by decide +kernel⟩
  intro a ha
  simp only [List.mem_cons, Op.call.injEq, true_and, List.not_mem_nil, or_false] at ha
  rcases ha with rfl | rfl
  · exact ⟨equals 2, by simp, by decide⟩
  · exact ⟨equals 2, by simp, by decide⟩

end Mimic.Lives
