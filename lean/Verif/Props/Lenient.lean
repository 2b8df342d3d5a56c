import Verif.Proofs.Lenient
import Verif.Props.Loosen

/-!
# C96: asking for less
-/

set_option autoImplicit false

namespace Mimic.Lenient

variable {α : Type}

theorem clear_of_unambiguous {tr : Trace α} {w : World α} (h : Reach tr w) {o : Op α} {ev : List Event}
    (hu : Loosen.Unambiguous (tr ++ [(o, ev)])) : Clear (abs w) o := by
  cases o with
  | call m a => exact Loosen.one_accepts h (hu tr m a ev [] rfl)
  | _ => trivial

/-- C96: a passing test with expectations that ask for less is possible as well, and it passes, with each call resolved by the same expectation
as before, unless now some call fits two expectations. -/
theorem C96_less {ops ops' : List (Op α)} {w : World α} {evs : List Event} (h : runProgram ops = .ok (w, evs)) (hl : Program ops ops')
    (ha : Event.rejected ∉ evs) (hp : Language.passes evs) :
    ∃ tr' w', Reach tr' w' ∧ tr'.map (·.1) = ops' ∧ runProgram ops' = .ok (w', tr'.events) ∧ Event.rejected ∉ tr'.events ∧
      (Loosen.Unambiguous tr' → Language.passes tr'.events ∧ taken tr'.events = taken evs) := by
  obtain ⟨tr, hr, rfl, rfl⟩ := (runProgram_iff _ _ _).mp h
  suffices key : ∃ tr' w', Reach tr' w' ∧ tr'.map (·.1) = ops' ∧ Rel (Loosen.Unambiguous tr') (abs w) (abs w') ∧ Event.rejected ∉ tr'.events ∧
      (Loosen.Unambiguous tr' → Language.passes tr'.events ∧ taken tr'.events = taken tr.events) by
    obtain ⟨tr', w', h1, h2, -, h3, h4⟩ := key
    exact ⟨tr', w', h1, h2, (runProgram_iff _ _ _).mpr ⟨tr', h1, h2, rfl⟩, h3, h4⟩
  clear h
  induction hr generalizing ops' with
  | init =>
    have : ops' = [] := List.eq_nil_of_length_eq_zero hl.1
    subst this
    exact ⟨[], _, Reach.init, rfl, ⟨rfl, rfl, [], rfl, rfl, by simp⟩, by simp [Trace.events], fun _ => ⟨by simp [Language.passes, Trace.events], rfl⟩⟩
  | @step tr w w1 o ev hr hs ih =>
    obtain ⟨hlen, hpt⟩ := hl
    rcases List.eq_nil_or_concat ops' with rfl | ⟨pre', o', rfl⟩
    · simp at hlen
    rw [List.concat_eq_append] at *
    have hlen' : pre'.length = (tr.map (·.1)).length := by simpa using hlen
    have hpre : Program (tr.map (·.1)) pre' := by
      refine ⟨hlen', fun i x x' h1 h2 => hpt i x x' ?_ ?_⟩
      · rw [List.map_append, List.getElem?_append_left (List.getElem?_eq_some_iff.mp h1).1]; exact h1
      · rw [List.getElem?_append_left (List.getElem?_eq_some_iff.mp h2).1]; exact h2
    have hlast : Less o o' := by
      refine hpt pre'.length o o' ?_ (by simp)
      rw [hlen', List.map_append]; simp
    rw [events_snoc] at ha hp
    obtain ⟨hp1, hp2⟩ := Language.passes_append.mp hp
    simp only [List.mem_append, not_or] at ha
    obtain ⟨tr', w', g1, g2, g3, g4, g5⟩ := ih hpre ha.1 hp1
    obtain ⟨T', ev', k1, k2, k3, k4, k5⟩ := g3.step hlast (hr.spec_step hs) (fun x hx y hy he => by
      obtain ⟨d, d1, d2⟩ := hr.view.2.get hx
      obtain ⟨d', d3, d4⟩ := hr.view.2.get hy
      rw [d2, d4, he]
      rw [he, d3] at d1
      rw [Option.some.inj d1]) (hr.not_full hs) ha.2 hp2
    obtain ⟨w1', l1, l2⟩ := g1.step_of_spec k1 k2
    have hmono : Loosen.Unambiguous (tr' ++ [(o', ev')]) → Loosen.Unambiguous tr' ∧ Clear (abs w') o' := by
      intro hu
      exact ⟨fun pre m a e post he => hu pre m a e (post ++ [(o', ev')]) (by rw [he]; simp), clear_of_unambiguous g1 hu⟩
    refine ⟨tr' ++ [(o', ev')], w1', g1.step l1, by simp [g2], by rw [l2]; exact k4.weaken hmono, ?_, ?_⟩
    · rw [events_snoc]
      simp only [List.mem_append, not_or]
      exact ⟨g4, k3⟩
    · intro hu
      obtain ⟨h1, h2⟩ := hmono hu
      obtain ⟨m1, m2⟩ := g5 h1
      obtain ⟨n1, n2⟩ := k5 h1 h2
      rw [events_snoc, events_snoc]
      refine ⟨Language.passes_append.mpr ⟨m1, n1⟩, ?_⟩
      unfold taken at m2 n2 ⊢
      rw [List.filter_append, List.filter_append, m2, n2]

/-- C96: it is needed that no call fits two expectations. The younger one of two expectations may now take both calls, so that the other one
lacks a call. -/
theorem C96_needed : ∃ (ops ops' : List (Op Nat)) (w w' : World Nat) (evs evs' : List Event), Program ops ops' ∧
    runProgram ops = .ok (w, evs) ∧ Event.rejected ∉ evs ∧ Language.passes evs ∧
    runProgram ops' = .ok (w', evs') ∧ Event.unfulfilled 0 ∈ evs' := by
  refine ⟨[.newMock, .expect 0 1 1 [] [], .expect 0 1 1 [] [], .call 0 5, .call 0 5, .destroy 0, .destroy 1],
    [.newMock, .expect 0 1 1 [] [], .expect 0 1 2 [] [], .call 0 5, .call 0 5, .destroy 0, .destroy 1], _, _,
    [.mockCreated 0, .created 0, .created 1, .fullMatch 1, .fullMatch 0, .destroyed 0, .destroyed 1],
    [.mockCreated 0, .created 0, .created 1, .fullMatch 1, .fullMatch 1, .destroyed 0, .unfulfilled 0, .destroyed 1],
    ⟨rfl, ?_⟩, rfl, by decide, by unfold Language.passes; decide, rfl, by decide⟩
  intro i o o' h1 h2
  match i with
  | 0 | 3 | 4 | 5 | 6 =>
    cases h1
    cases h2
    exact .other (by intros; simp)
  | 1 | 2 =>
    cases h1
    cases h2
    exact .expect (by decide) (by decide) (List.Sublist.refl _) (fun _ h => h) (fun h => h)
  | n + 7 => cases h1

/-! ## Examples -/

/-- The test of C87, with a lower and a higher limit, without the second sequence, and with a weaker requirement for the last call. -/
def relaxed : List (Op Nat) :=
  [.newMock, .newSequence .lazy, .newSequence .greedy,
    .expect 0 0 1 [0] [Loosen.wants 1], .expect 0 1 7 [0] [Loosen.wants 2], .expect 0 1 1 [] [{ accepts := fun a => some (decide (3 ≤ a)) }],
    .call 0 1, .call 0 2, .destroy 0, .call 0 3, .destroy 1, .destroy 2, .dropSequence 0, .dropSequence 1]

example : Program (Loosen.ordered.map (·.1)) relaxed := by
  refine ⟨rfl, ?_⟩
  intro i o o' h1 h2
  match i with
  | 0 | 1 | 2 | 6 | 7 | 8 | 9 | 10 | 11 | 12 | 13 =>
    cases h1
    cases h2
    exact .other (by intros; simp)
  | 3 =>
    cases h1
    cases h2
    exact .expect (by decide) (by decide) (List.Sublist.refl _) (fun _ h => h) (fun h => h)
  | 4 =>
    cases h1
    cases h2
    exact .expect (by decide) (by decide) (by decide) (fun _ h => h) (fun h => h)
  | 5 =>
    cases h1
    cases h2
    refine .expect (by decide) (by decide) (by decide) ?_ (by simp)
    intro a h p hp
    rw [List.mem_singleton.mp hp]
    have := h _ (List.mem_singleton.mpr rfl)
    simp only [Loosen.wants, Option.some.injEq, beq_iff_eq] at this
    simp [this]
  | n + 14 => cases h1

example : Language.passes Loosen.ordered.events ∧ Event.rejected ∉ Loosen.ordered.events := by
  unfold Language.passes; decide

/-- What happens, where no call fits two expectations. -/
def relaxedTrace : Trace Nat := relaxed.zip
  [[.mockCreated 0], [.sequenceCreated 0 .lazy], [.sequenceCreated 1 .greedy], [.created 0], [.created 1], [.created 2], [.fullMatch 0],
    [.fullMatch 1], [.destroyed 0], [.fullMatch 2], [.destroyed 1], [.destroyed 2], [.sequenceDestroyed 0], [.sequenceDestroyed 1]]

theorem relaxed_decl (e : Nat) : relaxedTrace.decl e = if e = 0 then some ⟨0, 0, 1, [0], [Loosen.wants 1]⟩ else
    if e = 1 then some ⟨0, 1, 7, [0], [Loosen.wants 2]⟩ else
    if e = 2 then some ⟨0, 1, 1, [], [{ accepts := fun a => some (decide (3 ≤ a)) }]⟩ else none := by
  by_cases h0 : e = 0
  · subst h0; rfl
  · by_cases h1 : e = 1
    · subst h1; rfl
    · by_cases h2 : e = 2
      · subst h2; rfl
      · simp [relaxedTrace, relaxed, Trace.decl, h0, h1, h2]

example : (∃ w, Reach relaxedTrace w) ∧ Loosen.Unambiguous relaxedTrace := by
  refine ⟨⟨_, reach_final relaxed⟩, ?_⟩
  have key : ∀ pre m a ev post, relaxedTrace = pre ++ (Op.call m a, ev) :: post → ∀ e, Trace.accepts pre m a e →
      (e = 0 ∧ a = 1) ∨ (e = 1 ∧ a = 2) ∨ (e = 2 ∧ 3 ≤ a) := by
    rintro pre m a ev post hp e ⟨-, d, hd, -, hpol⟩
    have hd' := decl_mono (tr' := (Op.call m a, ev) :: post) hd
    rw [← hp, relaxed_decl] at hd'
    by_cases h0 : e = 0
    · subst h0
      simp only [if_true, Option.some.injEq] at hd'
      subst hd'
      simpa [Loosen.wants] using hpol
    · by_cases h1 : e = 1
      · subst h1
        simp only [Nat.one_ne_zero, if_false, if_true, Option.some.injEq] at hd'
        subst hd'
        simpa [Loosen.wants] using hpol
      · by_cases h2 : e = 2
        · subst h2
          simp only [h0, h1, if_false, if_true, Option.some.injEq] at hd'
          subst hd'
          simpa using hpol
        · simp [h0, h1, h2] at hd'
  intro pre m a ev post hp e e' h1 h2
  have := key pre m a ev post hp e h1
  have := key pre m a ev post hp e' h2
  omega

/-- It passes. -/
example : ((runProgram relaxed).toOption.map fun r => (taken r.2, decide (∀ ev ∈ r.2, Language.failure ev = false))) =
    some ([.fullMatch 0, .fullMatch 1, .fullMatch 2], true) := by decide +kernel

end Mimic.Lenient
