import Verif.Proofs.Address
import Verif.Proofs.Demo
import Verif.Props.Safety

/-!
# C103: where the objects are in memory
-/

set_option autoImplicit false

namespace Mimic.Address

variable {α : Type}

/-- C103: however the allocator places sequences and expectations, and whatever addresses it uses again, a test has the same result as in the
model that compares numbers. -/
theorem C103_same {pl : Place} {ops : List (Op α)} (h : Honest pl ops) : run pl World.init ops = runProgram ops :=
  run_eq .init h

/-- C103: so it is the same for any two allocators. -/
theorem C103_any {pl pl' : Place} {ops : List (Op α)} (h : Honest pl ops) (h' : Honest pl' ops) :
    run pl World.init ops = run pl' World.init ops := by
  rw [C103_same h, C103_same h']

/-- C103: in particular no assertion about addresses fails and nothing undefined happens. -/
theorem C103_defined {pl : Place} {ops : List (Op α)} (h : Honest pl ops) (why : String) : run pl World.init ops ≠ .error (.ub why) := by
  rw [C103_same h]
  exact C17_program_no_ub ops why

/-- The objects of a world that exist have different addresses. -/
def apart (pl : Place) (w : World α) : Bool :=
  (List.range w.seqs.length).all (fun s => (List.range w.seqs.length).all fun t =>
    !((w.seqs[s]?.any (·.alive)) && (w.seqs[t]?.any (·.alive)) && pl.seq s == pl.seq t) || s == t) &&
  (List.range w.exps.length).all (fun e => (List.range w.exps.length).all fun f =>
    !((w.exps[e]?.any (·.alive)) && (w.exps[f]?.any (·.alive)) && pl.exp e == pl.exp f) || e == f)

/-- This can be checked for a given program. -/
theorem honest_of_apart {pl : Place} {ops : List (Op α)}
    (h : (List.range (ops.length + 1)).all (fun k => (runProgram (ops.take k)).toOption.all fun r => apart pl r.1) = true) : Honest pl ops := by
  intro tr w hr hp
  have hrun := (runProgram_iff (tr.map (·.1)) w tr.events).mpr ⟨tr, hr, rfl, rfl⟩
  have hk : ops.take tr.length = tr.map (·.1) := by
    obtain ⟨t, ht⟩ := hp
    rw [← ht, List.take_left' (by simp)]
  have hlen : tr.length ≤ ops.length := by simpa using hp.length_le
  have := List.all_eq_true.mp h tr.length (by simp; omega)
  rw [hk, hrun] at this
  simp only [Except.toOption, Option.all_some, apart, Bool.and_eq_true, List.all_eq_true, List.mem_range, Bool.or_eq_true,
    Bool.not_eq_true', Bool.and_eq_false_iff, beq_iff_eq, beq_eq_false_iff_ne] at this
  obtain ⟨h1, h2⟩ := this
  have hv := hr.view
  constructor
  · have key : ∀ s, Exists tr s → ∃ c, w.seqs[s]? = some c ∧ c.alive = true := by
      rintro s ⟨⟨st, hst⟩, hn⟩
      have hs : s < w.seqs.length := by
        by_cases hs : s < w.seqs.length
        · exact hs
        · exact absurd hst ((hv.2.freshSeq s (by simp [abs]; omega)).1 st)
      refine ⟨w.seqs[s], List.getElem?_eq_getElem hs, ?_⟩
      rw [hv.1.alive s _ (List.getElem?_eq_getElem hs), hv.2.owned_iff]
      exact Classical.byContradiction fun hc => hn ((C16_ended_iff hr s).mpr ⟨⟨st, hst⟩, hc⟩)
    intro s t hs ht he
    obtain ⟨c, hc, ha⟩ := key s hs
    obtain ⟨c', hc', ha'⟩ := key t ht
    have := h1 s (getElem?_lt hc) t (getElem?_lt hc')
    simpa [hc, hc', ha, ha', he] using this
  · have key : ∀ e, tr.live e → ∃ x, w.exps[e]? = some x ∧ x.alive = true := by
      intro e he
      obtain ⟨y, hy, rfl, ha⟩ := (hv.2.live_iff e).mp he
      obtain ⟨x, hx, hyx⟩ := (abs_mem_iff w y).mp hy
      exact ⟨x, hx, by rw [hyx] at ha; exact ha⟩
    intro s t hs ht he
    obtain ⟨c, hc, ha⟩ := key s hs
    obtain ⟨c', hc', ha'⟩ := key t ht
    have := h2 s (getElem?_lt hc) t (getElem?_lt hc')
    simpa [hc, hc', ha, ha', he] using this

/-- C103: addresses that are never used again are fine. -/
theorem C103_never_again {pl : Place} (hs : ∀ s t, pl.seq s = pl.seq t → s = t) (he : ∀ e f, pl.exp e = pl.exp f → e = f) (ops : List (Op α)) :
    Honest pl ops :=
  fun _ _ _ _ => ⟨fun s t _ _ => hs s t, fun e f _ _ => he e f⟩

/-- Two sequences and two expectations, one after the other. -/
def twice : List (Op Nat) :=
  [.newMock, .newSequence .lazy, .expect 0 1 1 [0] [], .call 0 1, .destroy 0, .dropSequence 0,
    .newSequence .greedy, .expect 0 1 2 [1] [], .call 0 2, .call 0 2, .call 0 2, .destroy 1, .dropSequence 1]

/-- An allocator that has space for just one sequence and one expectation. -/
def tight : Place := { seq := fun _ => 4096, exp := fun _ => 8192 }

/-- Non-vacuity of C103_same, C103_any and C103_defined: the second sequence and the second expectation are where the first ones were. -/
example : Honest tight twice := honest_of_apart (by decide +kernel)
example : ((run tight World.init twice).toOption.map (·.2)) = some [.mockCreated 0, .sequenceCreated 0 .lazy, .created 0, .fullMatch 0,
    .destroyed 0, .sequenceDestroyed 0, .sequenceCreated 1 .greedy, .created 1, .fullMatch 1, .fullMatch 1, .inapplicable [1],
    .destroyed 1, .sequenceDestroyed 1] := by decide +kernel

/-- C103: the promise of the allocator is needed. If it gave two sequences that exist the same address, then a test that uses both for one
expectation would be rejected; with one address for two expectations an assertion would fail. -/
theorem C103_needed :
    ((run tight World.init [.newMock, .newSequence .lazy, .newSequence .lazy, .expect 0 1 1 [0, 1] []] : M (World Nat × _)).toOption.map (·.2)) =
      some [.mockCreated 0, .sequenceCreated 0 .lazy, .sequenceCreated 1 .lazy, .rejected] ∧
    ((runProgram [.newMock, .newSequence .lazy, .newSequence .lazy, .expect 0 1 1 [0, 1] []] : M (World Nat × _)).toOption.map (·.2)) =
      some [.mockCreated 0, .sequenceCreated 0 .lazy, .sequenceCreated 1 .lazy, .created 0] ∧
    (run tight World.init [.newMock, .expect 0 1 1 [] [], .expect 0 1 1 [] []] : M (World Nat × _)) =
      .error (.ub "push: assert(find == end)") := by
  refine ⟨by decide +kernel, by decide +kernel, rfl⟩

end Mimic.Address
