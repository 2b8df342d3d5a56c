import Verif.Proofs.Merge
import Verif.Props.Language

/-!
# C77: Exact counts add up

Two expectations that are created one right after the other, for the same mock, with the same policies and sequences and exact
counts, do the same as one with the sum of the counts.
-/

set_option autoImplicit false

namespace Mimic.Merge

open Language

variable {α : Type}

/-- The first test: `pre`, then two expectations with the counts `a` and `b`, then `rest`. -/
def split (m : Nat) (a b : Int) (tags : List Nat) (ps : List (Policy α)) (pre rest : List (Op α)) : List (Op α) :=
  pre ++ .expect m a a tags ps :: .expect m b b tags ps :: rest

/-- The second test: `pre`, then one expectation with the count `a + b`, then `rest`. -/
def joined (m : Nat) (a b : Int) (tags : List Nat) (ps : List (Policy α)) (pre rest : List (Op α)) : List (Op α) :=
  pre ++ .expect m (a + b) (a + b) tags ps :: rest

/-- C77: if the first test runs, so does the second, and they report the same. The two expectations get the numbers `e` and
`e + 1`, if `pre` creates `e` expectations. -/
theorem C77_same {m : Nat} {a b : Int} {tags : List Nat} {ps : List (Policy α)} {pre rest rest' : List (Op α)}
    (ha : 0 ≤ a) (hb : 0 ≤ b) (hab : isInt (a + b) = true) (ht : tags.Nodup) {w₀ : World α} {evs₀ : List Event}
    (h₀ : runProgram pre = .ok (w₀, evs₀)) (hr : Rest (creations evs₀) rest rest') {w : World α} {evs : List Event}
    (h : runProgram (split m a b tags ps pre rest) = .ok (w, evs)) :
    ∃ w' evs' after after', runProgram (joined m a b tags ps pre rest') = .ok (w', evs') ∧
      evs = evs₀ ++ .created (creations evs₀) :: .created (creations evs₀ + 1) :: after ∧
      evs' = evs₀ ++ .created (creations evs₀) :: after' ∧ Corr (creations evs₀) after after' := by
  obtain ⟨⟨S₀, p1⟩, p2⟩ := program_iff_spec.mp ⟨w₀, h₀⟩
  obtain ⟨⟨T, q1⟩, q2⟩ := program_iff_spec.mp ⟨w, h⟩
  unfold split at q1 q2
  obtain ⟨S₁, ev, ev', r1, r2, rfl⟩ := spec_run_append q1
  rw [p1] at r1
  simp only [Option.some.injEq, Prod.mk.injEq] at r1
  obtain ⟨rfl, rfl⟩ := r1
  have q3 := ((fits_append p1).mp q2).2
  obtain ⟨hlen, hids⟩ := run_created p1 (by simp [Spec.State.init])
  have hlen : S₀.exps.length = creations evs₀ := by simpa [Spec.State.init] using hlen
  generalize creations evs₀ = e at *
  -- the first expectation
  rw [Spec.State.run] at r2
  have hin : ∀ n : Int, 0 ≤ n → (n ≤ a + b) → isInt n = true := by
    intro n h1 h2
    unfold isInt intMin intMax at *
    grind
  have hval : ∀ n : Int, 0 ≤ n → (Spec.validTimes n n ∧ tags.Nodup) := fun n hn => ⟨⟨hn, by omega⟩, ht⟩
  by_cases hc : m < S₀.mocks ∧ tags.all S₀.hasHandle = true
  · have s1 : S₀.step (.expect m a a tags ps) = some ({ S₀ with exps := S₀.exps ++ [fresh e m a a tags ps] }, [.created e]) := by
      simp only [Spec.State.step]
      rw [if_pos ⟨hc.1, hc.2, hin a ha (by omega), hin a ha (by omega)⟩, if_pos (hval a ha)]
      simp only [hlen]
      rfl
    have s2 : ({ S₀ with exps := S₀.exps ++ [fresh e m a a tags ps] } : Spec.State α).step (.expect m b b tags ps) =
        some ({ S₀ with exps := S₀.exps ++ [fresh e m a a tags ps] ++ [fresh (e + 1) m b b tags ps] }, [.created (e + 1)]) := by
      simp only [Spec.State.step]
      rw [if_pos ⟨hc.1, hc.2, hin b hb (by omega), hin b hb (by omega)⟩, if_pos (hval b hb)]
      simp only [List.length_append, hlen, List.length_cons, List.length_nil]
      rfl
    have s3 : S₀.step (.expect m (a + b) (a + b) tags ps) =
        some ({ S₀ with exps := S₀.exps ++ [fresh e m (a + b) (a + b) tags ps] }, [.created e]) := by
      simp only [Spec.State.step]
      rw [if_pos ⟨hc.1, hc.2, hab, hab⟩, if_pos (hval _ (by omega))]
      simp only [hlen]
      rfl
    rw [s1] at r2
    simp only [Spec.State.run, s2] at r2
    have q4 := (q3.2 _ _ s1).2 _ _ s2
    have hrels : Rels e a b ⟨m, tags, ps⟩
        { S₀ with exps := S₀.exps ++ [fresh e m a a tags ps] ++ [fresh (e + 1) m b b tags ps] }
        { S₀ with exps := S₀.exps ++ [fresh e m (a + b) (a + b) tags ps] } := by
      refine ⟨S₀.exps, [], 0, 0, true, by simp [fresh, Shape.mk'], by simp [fresh, Shape.mk'], hlen, ?_, by simp, rfl, rfl,
        by simpa using ha, by simpa using hb, fun _ => Or.inl rfl⟩
      intro u hu
      rw [← hlen]
      exact hids u hu
    cases hrun : (Spec.State.run { S₀ with exps := S₀.exps ++ [fresh e m a a tags ps] ++ [fresh (e + 1) m b b tags ps] } rest) with
    | none => rw [hrun] at r2; cases r2
    | some x =>
      obtain ⟨T₁, after⟩ := x
      rw [hrun] at r2
      simp only [Option.some.injEq, Prod.mk.injEq] at r2
      obtain ⟨rfl, rfl⟩ := r2
      obtain ⟨⟨T', after', u1, u2⟩, u3⟩ := hrels.run hr hrun q4
      have v1 : S₀.run (.expect m (a + b) (a + b) tags ps :: rest') = some (T', .created e :: after') := by
        simp [Spec.State.run, s3, u1]
      have v2 : S₀.fits (.expect m (a + b) (a + b) tags ps :: rest') := by
        refine ⟨?_, fun S' ev' hs => ?_⟩
        · have := q3.1
          unfold Spec.State.full at *
          rintro ⟨-, h2, h3⟩
          exact this ⟨(hval a ha).1, h2, h3⟩
        · rw [s3] at hs
          simp only [Option.some.injEq, Prod.mk.injEq] at hs
          rw [← hs.1]; exact u3
      obtain ⟨w', hw⟩ := program_iff_spec.mpr ⟨⟨T', spec_run_join p1 v1⟩, (fits_append p1).mpr ⟨p2, v2⟩⟩
      exact ⟨w', _, after, after', hw, by simp, rfl, u2⟩
  · exfalso
    simp only [Spec.State.step] at r2
    rw [if_neg (fun hx => hc ⟨hx.1, hx.2.1⟩)] at r2
    cases r2

theorem corr_failure {e : Nat} {evs evs' : List Event} (h : Corr e evs evs') :
    (∃ ev ∈ evs, failure ev = true) ↔ ∃ ev ∈ evs', failure ev = true := by
  have h1 : ∀ {ev ev₂ : Event}, report e ev = some ev₂ → failure ev₂ = failure ev := by
    intro ev ev₂ h
    cases ev <;> simp only [report] at h <;> grind [Language.failure]
  have h2 : ∀ {ev ev₂ : Event}, merged e ev = some ev₂ → failure ev₂ = failure ev := by
    intro ev ev₂ h
    cases ev <;> simp only [merged] at h <;> grind [Language.failure]
  have h3 : ∀ {ev : Event}, report e ev = none → failure ev = true → ev = .unfulfilled e ∨ ev = .unfulfilled (e + 1) := by
    intro ev h
    cases ev <;> simp only [report] at h <;> grind [Language.failure]
  have h4 : ∀ {ev : Event}, merged e ev = none → ev = .unfulfilled e := by
    intro ev h
    cases ev <;> simp only [merged] at h <;> grind
  constructor
  · rintro ⟨ev, hev, hf⟩
    cases hr : report e ev with
    | none =>
      have : Event.unfulfilled e ∈ evs' := by
        rcases h3 hr hf with rfl | rfl
        · exact h.2.mpr (Or.inl hev)
        · exact h.2.mpr (Or.inr hev)
      exact ⟨_, this, rfl⟩
    | some ev₂ =>
      have : ev₂ ∈ evs.filterMap (report e) := List.mem_filterMap.mpr ⟨ev, hev, hr⟩
      rw [h.1] at this
      obtain ⟨ev₃, hev₃, hm⟩ := List.mem_filterMap.mp this
      exact ⟨ev₃, hev₃, by rw [← h2 hm, h1 hr, hf]⟩
  · rintro ⟨ev, hev, hf⟩
    cases hr : merged e ev with
    | none =>
      rw [h4 hr] at hev
      rcases h.2.mp hev with hx | hx
      · exact ⟨_, hx, rfl⟩
      · exact ⟨_, hx, rfl⟩
    | some ev₂ =>
      have : ev₂ ∈ evs'.filterMap (merged e) := List.mem_filterMap.mpr ⟨ev, hev, hr⟩
      rw [← h.1] at this
      obtain ⟨ev₃, hev₃, hm⟩ := List.mem_filterMap.mp this
      exact ⟨ev₃, hev₃, by rw [← h1 hm, h2 hr, hf]⟩

theorem passes_iff {evs : List Event} : passes evs ↔ ¬ ∃ ev ∈ evs, failure ev = true := by
  unfold passes
  grind

/-- C77: the first test passes iff the second does. -/
theorem C77_passes {m : Nat} {a b : Int} {tags : List Nat} {ps : List (Policy α)} {pre rest rest' : List (Op α)}
    (ha : 0 ≤ a) (hb : 0 ≤ b) (hab : isInt (a + b) = true) (ht : tags.Nodup) {w₀ : World α} {evs₀ : List Event}
    (h₀ : runProgram pre = .ok (w₀, evs₀)) (hr : Rest (creations evs₀) rest rest') {w : World α} {evs : List Event}
    (h : runProgram (split m a b tags ps pre rest) = .ok (w, evs)) :
    ∃ w' evs', runProgram (joined m a b tags ps pre rest') = .ok (w', evs') ∧ (passes evs ↔ passes evs') := by
  obtain ⟨w', evs', after, after', h1, rfl, rfl, h2⟩ := C77_same ha hb hab ht h₀ hr h
  refine ⟨w', _, h1, ?_⟩
  have := corr_failure h2
  rw [passes_iff, passes_iff]
  simp only [List.mem_append, List.mem_cons]
  have hc : ∀ k, failure (.created k) = false := fun _ => rfl
  grind

/-- The counts have to be exact: two expectations for one or two calls are not one for two to four calls, in a sequence or not. -/
theorem C77_ranges : ∃ evs evs' : List Event,
    reports [.newMock, .expect 0 1 2 [] [], .expect 0 1 2 [] [], .call 0 7, .call 0 7, .destroy 1, .destroy 0] = some evs ∧
    reports [.newMock, .expect 0 2 4 [] [], .call 0 7, .call 0 7, .destroy 0] = some evs' ∧ ¬ passes evs ∧ passes evs' := by
  refine ⟨[.mockCreated 0, .created 0, .created 1, .fullMatch 1, .fullMatch 1, .destroyed 1, .destroyed 0, .unfulfilled 0],
    [.mockCreated 0, .created 0, .fullMatch 0, .fullMatch 0, .destroyed 0], by decide +kernel, by decide +kernel, ?_, ?_⟩
  · intro h
    exact absurd (h (.unfulfilled 0) (by decide)) (by decide)
  · unfold passes
    decide

/-- Nothing may come in between: an expectation that is created between the two can be needed between them. -/
theorem C77_between : ∃ evs evs' : List Event,
    reports [.newSequence .lazy, .newMock, .newMock, .expect 0 1 1 [0] [], .expect 1 1 1 [0] [], .expect 0 1 1 [0] [],
      .call 0 7, .call 1 7, .call 0 7, .destroy 2, .destroy 1, .destroy 0, .dropSequence 0] = some evs ∧
    reports [.newSequence .lazy, .newMock, .newMock, .expect 0 2 2 [0] [], .expect 1 1 1 [0] [],
      .call 0 7, .call 1 7, .call 0 7, .destroy 1, .destroy 0, .dropSequence 0] = some evs' ∧ passes evs ∧ ¬ passes evs' := by
  refine ⟨[.sequenceCreated 0 .lazy, .mockCreated 0, .mockCreated 1, .created 0, .created 1, .created 2, .fullMatch 0, .fullMatch 1,
      .fullMatch 2, .destroyed 2, .destroyed 1, .destroyed 0, .sequenceDestroyed 0],
    [.sequenceCreated 0 .lazy, .mockCreated 0, .mockCreated 1, .created 0, .created 1, .fullMatch 0, .inapplicable [1], .fullMatch 0,
      .destroyed 1, .unfulfilled 1, .destroyed 0, .sequenceError 0 1 2, .sequenceDestroyed 0], by decide +kernel, by decide +kernel, ?_, ?_⟩
  · unfold passes
    decide
  · intro h
    exact absurd (h (.inapplicable [1]) (by decide)) (by decide)

/-- Non-vacuity: expectations before and after the two, in a sequence, with calls that fit several of them. -/
example : Rest (α := Nat) 1 [.expect 0 0 9 [] [], .call 0 7, .call 0 7, .destroy 3, .destroy 2, .destroy 1, .destroy 0, .dropSequence 0]
    [.expect 0 0 9 [] [], .call 0 7, .call 0 7, .destroy 2, .destroy 1, .destroy 0, .dropSequence 0] :=
  .same (by simp) (.same (by simp) (.same (by simp) (.other (k := 3) (by simp) (by simp) (.younger (.other (k := 0) (by simp) (by simp)
    (.same (by simp) .nil))))))

example : reports [.newSequence .lazy, .newMock, .expect 0 1 1 [0] []] = some [.sequenceCreated 0 .lazy, .mockCreated 0, .created 0] ∧
    creations [.sequenceCreated 0 .lazy, .mockCreated 0, .created 0] = 1 ∧
    reports (split 0 1 2 [0] [] [.newSequence .lazy, .newMock, .expect 0 1 1 [0] []]
      [.expect 0 0 9 [] [], .call 0 7, .call 0 7, .call 0 7, .destroy 3, .destroy 2, .destroy 1, .destroy 0, .dropSequence 0]) =
      some [.sequenceCreated 0 .lazy, .mockCreated 0, .created 0, .created 1, .created 2, .created 3, .fullMatch 3, .fullMatch 3, .fullMatch 3,
        .destroyed 3, .destroyed 2, .unfulfilled 2, .destroyed 1, .unfulfilled 1, .destroyed 0, .unfulfilled 0, .sequenceError 0 0 3,
        .sequenceDestroyed 0] ∧
    reports (joined 0 1 2 [0] [] [.newSequence .lazy, .newMock, .expect 0 1 1 [0] []]
      [.expect 0 0 9 [] [], .call 0 7, .call 0 7, .call 0 7, .destroy 2, .destroy 1, .destroy 0, .dropSequence 0]) =
      some [.sequenceCreated 0 .lazy, .mockCreated 0, .created 0, .created 1, .created 2, .fullMatch 2, .fullMatch 2, .fullMatch 2,
        .destroyed 2, .destroyed 1, .unfulfilled 1, .destroyed 0, .unfulfilled 0, .sequenceError 0 0 2,
        .sequenceDestroyed 0] := by
  decide +kernel

/-- The same tests without the expectation that comes last: the calls are resolved in order. -/
example :
    reports (split 0 1 2 [0] [] [.newSequence .lazy, .newMock, .expect 0 1 1 [0] []]
      [.call 0 7, .call 0 7, .call 0 7, .call 0 7]) =
      some [.sequenceCreated 0 .lazy, .mockCreated 0, .created 0, .created 1, .created 2, .fullMatch 0, .fullMatch 1, .fullMatch 2,
        .fullMatch 2] ∧
    reports (joined 0 1 2 [0] [] [.newSequence .lazy, .newMock, .expect 0 1 1 [0] []]
      [.call 0 7, .call 0 7, .call 0 7, .call 0 7]) =
      some [.sequenceCreated 0 .lazy, .mockCreated 0, .created 0, .created 1, .fullMatch 0, .fullMatch 1, .fullMatch 1,
        .fullMatch 1] := by
  decide +kernel

end Mimic.Merge
