import Verif.Proofs.Ends
import Verif.Props.Language

/-!
# C79: The order in which things end does not matter
-/

set_option autoImplicit false

namespace Mimic.Finish

open Language

variable {α : Type}

/-- C79: expectations and sequences that end one after the other may end in any order. The reports made meanwhile are the same in another
order, and all reports made before and afterwards are the same. -/
theorem C79_order {p ds ds' r : List (Op α)} (hd : ∀ op ∈ ds, ends op = true) (hp : ds.Perm ds') {w : World α} {evs : List Event}
    (h : runProgram (p ++ ds ++ r) = .ok (w, evs)) :
    ∃ (w1 w2 w3 w4 : World α) (e1 e2 e2' e3 : List Event), evs = e1 ++ e2 ++ e3 ∧ e2.Perm e2' ∧
      runProgram p = .ok (w1, e1) ∧ runProgram (p ++ ds) = .ok (w2, e1 ++ e2) ∧
      runProgram (p ++ ds') = .ok (w3, e1 ++ e2') ∧ runProgram (p ++ ds' ++ r) = .ok (w4, e1 ++ e2' ++ e3) := by
  obtain ⟨⟨T, hT⟩, hf⟩ := program_iff_spec.mp ⟨w, h⟩
  obtain ⟨S2, e12, e3, h12, h3, rfl⟩ := spec_run_append hT
  obtain ⟨S1, e1, e2, h1, h2, rfl⟩ := spec_run_append h12
  rw [Merge.fits_append h12, Merge.fits_append h1] at hf
  obtain ⟨⟨hf1, hf2⟩, hf3⟩ := hf
  obtain ⟨w1, hw1⟩ := program_iff_spec.mpr ⟨⟨S1, h1⟩, hf1⟩
  obtain ⟨tr1, hr1, hp1, -⟩ := (runProgram_iff p w1 e1).mp hw1
  have hg : Good S1 := by
    have := reach_spec_run hr1
    rw [hp1, h1] at this
    simp only [Option.some.injEq, Prod.mk.injEq] at this
    rw [this.1]
    exact Good.of_reach hr1
  obtain ⟨e2', h2', hq⟩ := run_perm hp hd hg h2
  have hd' : ∀ op ∈ ds', ends op = true := fun o ho => hd o (hp.mem_iff.mpr ho)
  have h12' := spec_run_join h1 h2'
  have h123' := spec_run_join h12' h3
  obtain ⟨w2, hw2⟩ := program_iff_spec.mpr ⟨⟨S2, h12⟩, (Merge.fits_append h1).mpr ⟨hf1, fits_ends hd⟩⟩
  obtain ⟨w3, hw3⟩ := program_iff_spec.mpr ⟨⟨S2, h12'⟩, (Merge.fits_append h1).mpr ⟨hf1, fits_ends hd'⟩⟩
  obtain ⟨w4, hw4⟩ := program_iff_spec.mpr ⟨⟨T, h123'⟩, (Merge.fits_append h12').mpr ⟨(Merge.fits_append h1).mpr ⟨hf1, fits_ends hd'⟩, hf3⟩⟩
  exact ⟨w1, w2, w3, w4, e1, e2, e2', e3, rfl, hq, hw1, hw2, hw3, hw4⟩

/-- A test with two expectations in two sequences, one of which is unfulfilled. -/
def unfinished : List (Op Nat) :=
  [.newSequence .lazy, .newSequence .greedy, .newMock, .expect 0 1 1 [0, 1] [], .expect 0 2 2 [1] [], .call 0 7]

/-- Both sequences may end before, between or after the expectations. -/
example : ∃ (e2 e2' : List Event), e2.Perm e2' ∧ e2 ≠ e2' ∧
    Language.reports (unfinished ++ [.destroy 0, .destroy 1, .dropSequence 1, .dropSequence 0] ++ [.newMock]) =
      some ([.sequenceCreated 0 .lazy, .sequenceCreated 1 .greedy, .mockCreated 0, .created 0, .created 1, .fullMatch 0] ++ e2 ++ [.mockCreated 1]) ∧
    Language.reports (unfinished ++ [.dropSequence 1, .destroy 1, .dropSequence 0, .destroy 0] ++ [.newMock]) =
      some ([.sequenceCreated 0 .lazy, .sequenceCreated 1 .greedy, .mockCreated 0, .created 0, .created 1, .fullMatch 0] ++ e2' ++ [.mockCreated 1]) :=
  ⟨[.destroyed 0, .destroyed 1, .unfulfilled 1, .sequenceError 1 1 2, .sequenceDestroyed 1, .sequenceDestroyed 0],
    [.destroyed 1, .unfulfilled 1, .destroyed 0, .sequenceDestroyed 0, .sequenceError 1 1 2, .sequenceDestroyed 1],
    by decide, by decide, by decide +kernel, by decide +kernel⟩

/-- C79 applies to it. -/
example : ∃ w e1 e2 e2' e3, runProgram (unfinished ++ [.destroy 0, .destroy 1, .dropSequence 1, .dropSequence 0].reverse ++ [.newMock]) =
      .ok (w, e1 ++ e2' ++ e3) ∧ e2.Perm e2' ∧ e1 ++ e2 ++ e3 =
      [.sequenceCreated 0 .lazy, .sequenceCreated 1 .greedy, .mockCreated 0, .created 0, .created 1, .fullMatch 0, .destroyed 0, .destroyed 1,
        .unfulfilled 1, .sequenceError 1 1 2, .sequenceDestroyed 1, .sequenceDestroyed 0, .mockCreated 1] := by
  obtain ⟨w, hw⟩ := Language.reports_run (p := unfinished ++ [.destroy 0, .destroy 1, .dropSequence 1, .dropSequence 0] ++ [.newMock])
    (evs := [.sequenceCreated 0 .lazy, .sequenceCreated 1 .greedy, .mockCreated 0, .created 0, .created 1, .fullMatch 0, .destroyed 0, .destroyed 1,
      .unfulfilled 1, .sequenceError 1 1 2, .sequenceDestroyed 1, .sequenceDestroyed 0, .mockCreated 1]) (by decide +kernel)
  obtain ⟨w1, w2, w3, w4, e1, e2, e2', e3, h1, hq, hw1, hw2, hw3, hw4⟩ := C79_order (by simp [ends]) (List.reverse_perm _).symm hw
  exact ⟨w4, e1, e2, e2', e3, hw4, hq, h1.symm⟩

end Mimic.Finish
