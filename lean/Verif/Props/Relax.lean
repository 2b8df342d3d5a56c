import Verif.Proofs.Relax
import Verif.Props.Language

/-!
# C76: Asking for fewer calls

A test that passes still passes after lower limits of expectations are lowered, if these expectations belong to no
sequence, or if all expectations of the test are in one lazy sequence. In general it does not.
-/

set_option autoImplicit false

namespace Mimic.Relax

open Language

variable {α : Type}

/-- C76: lowering the lower limits of expectations that belong to no sequence changes nothing, except that fewer of them
are reported as unfulfilled. -/
theorem C76_same {ops ops' : List (Op α)} (hl : LessAll ops ops') {w : World α} {evs : List Event}
    (h : runProgram ops = .ok (w, evs)) :
    ∃ w' evs', runProgram ops' = .ok (w', evs') ∧ evs'.Sublist evs ∧
      evs'.filter (fun ev => !isUnfulfilled ev) = evs.filter (fun ev => !isUnfulfilled ev) := by
  obtain ⟨⟨S, h1⟩, h2⟩ := program_iff_spec.mp ⟨w, h⟩
  obtain ⟨⟨T, evs', h3, h4⟩, h5⟩ := Rel.init.run hl h1 h2
  obtain ⟨w', h6⟩ := program_iff_spec.mpr ⟨⟨T, h3⟩, h5⟩
  exact ⟨w', evs', h6, h4.1, h4.2⟩

/-- C76: so a test that passes still passes. -/
theorem C76_passes {ops ops' : List (Op α)} (hl : LessAll ops ops') {w : World α} {evs : List Event}
    (h : runProgram ops = .ok (w, evs)) (hp : passes evs) :
    ∃ w' evs', runProgram ops' = .ok (w', evs') ∧ passes evs' := by
  obtain ⟨w', evs', h1, h2, -⟩ := C76_same hl h
  exact ⟨w', evs', h1, fun ev hev => hp ev (h2.mem hev)⟩

/-- C76: the same holds for the lower limits of expectations in a lazy sequence that is the only one of the test. -/
theorem C76_lazy {mocks : Nat} {parts parts' : List (Part α)} {calls : List (Nat × α)} {ends : List (Op α)}
    (hl : LessParts parts parts') (hp : Proper parts ends) (hp' : Proper parts' ends) {w w' : World α} {evs evs' : List Event}
    (h : runProgram (test .lazy mocks parts calls ends) = .ok (w, evs))
    (h' : runProgram (test .lazy mocks parts' calls ends) = .ok (w', evs')) (ht : passes evs) : passes evs' :=
  (C75_lazy hp' h').mpr (possessive_less hl calls ((C75_lazy hp h).mp ht))

/-- C76 is not true in general. In a greedy sequence, `x{1,2} x{0,1}` accepts `x x`, but `x{0,2} x{0,1}` does not. -/
theorem C76_greedy :
    ∃ (parts parts' : List (Part Nat)) (calls : List (Nat × Nat)) (ends : List (Op Nat)) (w w' : World Nat) (evs evs' : List Event),
      LessParts parts parts' ∧ Proper parts ends ∧ Proper parts' ends ∧
      runProgram (test .greedy 1 parts calls ends) = .ok (w, evs) ∧
      runProgram (test .greedy 1 parts' calls ends) = .ok (w', evs') ∧ passes evs ∧ ¬ passes evs' := by
  have hp : Proper [between 0 1 2 1 1, between 0 0 1 1 1] (allEnds [between 0 1 2 1 1, between 0 0 1 1 1]) :=
    ⟨by decide, by simp [between], .refl _⟩
  have hp' : Proper [between 0 0 2 1 1, between 0 0 1 1 1] (allEnds [between 0 1 2 1 1, between 0 0 1 1 1]) :=
    ⟨by decide, by simp [between], .refl _⟩
  obtain ⟨w, evs, h⟩ := C75_runs (st := .greedy) (mocks := 1) (calls := [(0, 1), (0, 1)]) hp (by decide) (by decide) (by decide)
    (by decide)
  obtain ⟨w', evs', h'⟩ := C75_runs (st := .greedy) (mocks := 1) (calls := [(0, 1), (0, 1)]) hp' (by decide) (by decide)
    (by decide) (by decide)
  refine ⟨_, _, _, _, w, w', evs, evs', ?_, hp, hp', h, h', (C75_accepted hp h).mpr (by decide), ?_⟩
  · exact .cons (min' := 0) (by decide) (by decide) (.cons (min' := 0) (by decide) (by decide) .nil)
  · intro ht
    have := (C75_accepted hp' h').mp ht
    exact absurd this (by decide)

/-- C76 is not true in general. Here a lazy sequence with the expectations `0` and `2` meets an expectation `1` without
sequences: if expectation `0` need not be fulfilled, expectation `2` takes the call from expectation `1`. -/
theorem C76_competing :
    ∃ (min' : Int) (evs evs' : List Event) (w w' : World Nat), min' ≤ 1 ∧
      runProgram ([.newSequence .lazy, .newMock, .newMock, .expect 0 1 1 [0] [], .expect 1 1 1 [] [], .expect 1 1 1 [0] [],
        .call 1 7, .call 0 7, .call 1 7, .destroy 2, .destroy 1, .destroy 0, .dropSequence 0]) = .ok (w, evs) ∧
      runProgram ([.newSequence .lazy, .newMock, .newMock, .expect 0 min' 1 [0] [], .expect 1 1 1 [] [], .expect 1 1 1 [0] [],
        .call 1 7, .call 0 7, .call 1 7, .destroy 2, .destroy 1, .destroy 0, .dropSequence 0]) = .ok (w', evs') ∧
      passes evs ∧ ¬ passes evs' := by
  obtain ⟨w, h⟩ := reports_run (p := [.newSequence .lazy, .newMock, .newMock, .expect 0 1 1 [0] [], .expect 1 1 1 [] [],
    .expect 1 1 1 [0] [], .call 1 7, .call 0 7, .call 1 7, .destroy 2, .destroy 1, .destroy 0, .dropSequence 0])
    (evs := [.sequenceCreated 0 .lazy, .mockCreated 0, .mockCreated 1, .created 0, .created 1, .created 2, .fullMatch 1,
      .fullMatch 0, .fullMatch 2, .destroyed 2, .destroyed 1, .destroyed 0, .sequenceDestroyed 0]) (by decide +kernel)
  obtain ⟨w', h'⟩ := reports_run (p := [.newSequence .lazy, .newMock, .newMock, .expect 0 0 1 [0] [], .expect 1 1 1 [] [],
    .expect 1 1 1 [0] [], .call 1 7, .call 0 7, .call 1 7, .destroy 2, .destroy 1, .destroy 0, .dropSequence 0])
    (evs := [.sequenceCreated 0 .lazy, .mockCreated 0, .mockCreated 1, .created 0, .created 1, .created 2, .fullMatch 2,
      .inapplicable [0], .fullMatch 1, .destroyed 2, .destroyed 1, .destroyed 0, .sequenceDestroyed 0]) (by decide +kernel)
  refine ⟨0, _, _, w, w', by decide, h, h', by unfold passes; decide, fun hp => ?_⟩
  have := hp (.inapplicable [0]) (by decide)
  exact absurd this (by decide)

/-- Non-vacuity of C76_same: expectation `0` is unfulfilled, and with a smaller limit it is not. -/
example : LessAll [.newMock, .expect 0 2 3 [] [], .call 0 (7 : Nat), .destroy 0]
      [.newMock, .expect 0 1 3 [] [], .call 0 7, .destroy 0] ∧
    reports [.newMock, .expect 0 2 3 [] [], .call 0 7, .destroy 0] =
      some [.mockCreated 0, .created 0, .fullMatch 0, .destroyed 0, .unfulfilled 0] ∧
    reports [.newMock, .expect 0 1 3 [] [], .call 0 7, .destroy 0] =
      some [.mockCreated 0, .created 0, .fullMatch 0, .destroyed 0] :=
  ⟨.cons (.same _) (.cons (.expect _ _ _ _ _ (by decide) (by decide) (by decide)) (.cons (.same _) (.cons (.same _) .nil))),
    by decide +kernel, by decide +kernel⟩

/-- Non-vacuity of C76_lazy: expectations that overlap. -/
example : LessParts [between 0 1 2 1 9, between 0 1 3 5 9] [between 0 0 2 1 9, between 0 1 3 5 9] ∧
    possessive [between 0 1 2 1 9, between 0 1 3 5 9] [(0, 6), (0, 7), (0, 8)] = true :=
  ⟨.cons (by decide) (by decide) (.cons (min' := 1) (by decide) (by decide) .nil), by decide⟩

end Mimic.Relax
