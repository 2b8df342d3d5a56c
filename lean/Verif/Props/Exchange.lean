import Verif.Proofs.Exchange
import Verif.Props.Outcome

/-!
# C86: sequences that are used again
-/

set_option autoImplicit false

namespace Mimic.Exchange

variable {α : Type}

/-- C86: sequences all of whose expectations have ended after enough calls have no memory. If a part of a test uses other such sequences of the
same kind instead, it observes the same; only the names of the sequences and the numbers in the text of the error about an unfulfilled
sequence differ, the latter by the number of expectations that were attached before. -/
theorem C86_exchange {tr : Trace α} {w : World α} (h : Reach tr w) {f p : Nat → Nat} (he : Exchanges tr f) (hp : Counts tr p)
    {ops : List (Op α)} (hroom : ∀ t, p t + ops.length ≤ 2147483648) (log : List Event) :
    (∃ w', w.run (ops.map (op f)) = .ok (w', log)) ↔ ∃ w' log', w.run ops = .ok (w', log') ∧ log = log'.map (event f p) := by
  have hv := h.view.2
  have hr : ∀ t, ((abs w).attached t).length + ops.length ≤ 2147483648 := fun t => by rw [counts_eq hv hp]; exact hroom t
  have hf := fits_of_room ops hr
  have hf' := fits_of_room (ops.map (op f)) (S := abs w) (fun t => by rw [List.length_map]; exact hr t)
  have key := (start hv he hp).run ops
  rw [run_iff_spec h]
  constructor
  · rintro ⟨⟨T', h1⟩, -⟩
    rcases key with ⟨-, h2⟩ | ⟨T, T'', ev, h2, h3, -⟩
    · rw [h1] at h2; cases h2
    · rw [h1] at h3
      simp only [Option.some.injEq, Prod.mk.injEq] at h3
      obtain ⟨w', hw⟩ := (run_iff_spec h).mpr ⟨⟨T, h2⟩, hf⟩
      exact ⟨w', ev, hw, h3.2⟩
  · rintro ⟨w', log', hw, rfl⟩
    obtain ⟨⟨T, h1⟩, -⟩ := (run_iff_spec h).mp ⟨w', hw⟩
    rcases key with ⟨h2, -⟩ | ⟨T1, T', ev, h2, h3, -⟩
    · rw [h1] at h2; cases h2
    · rw [h1] at h2
      simp only [Option.some.injEq, Prod.mk.injEq] at h2
      obtain ⟨-, rfl⟩ := h2
      exact ⟨⟨T', h3⟩, hf'⟩

theorem filter_event (f p : Nat → Nat) (l : List Event) :
    (l.map (event f p)).filter (fun ev => !aboutSequence ev) = l.filter (fun ev => !aboutSequence ev) := by
  induction l with
  | nil => rfl
  | cons ev l ih =>
    have : aboutSequence (event f p ev) = aboutSequence ev := by cases ev <;> rfl
    simp only [List.map_cons, List.filter_cons, this, ih]
    cases hq : aboutSequence ev with
    | true => rfl
    | false => rw [event_quiet hq]

/-- C86: in particular all calls have the same outcomes, and the same expectations are reported at their ends. -/
theorem C86_same_outcomes {tr : Trace α} {w w1 w2 : World α} (h : Reach tr w) {f p : Nat → Nat} (he : Exchanges tr f) (hp : Counts tr p)
    {ops : List (Op α)} (hroom : ∀ t, p t + ops.length ≤ 2147483648) {log1 log2 : List Event} (h1 : w.run ops = .ok (w1, log1))
    (h2 : w.run (ops.map (op f)) = .ok (w2, log2)) :
    log2.filter (fun ev => !aboutSequence ev) = log1.filter (fun ev => !aboutSequence ev) := by
  obtain ⟨w', log', hw, rfl⟩ := (C86_exchange h he hp hroom log2).mp ⟨w2, h2⟩
  rw [h1] at hw
  simp only [Except.ok.injEq, Prod.mk.injEq] at hw
  rw [hw.2]
  exact filter_event f p log'

theorem swap_exchanges {tr : Trace α} {s q : Nat} (hs : Settled tr s) (hq : Settled tr q) (hk : ∀ st, tr.kind s st ↔ tr.kind q st) :
    Exchanges tr (swap s q) where
  injective := by intro t u; unfold swap; grind
  settled := by
    intro t ht
    unfold swap at ht
    by_cases h1 : t = s
    · rw [h1]; exact hs
    · by_cases h2 : t = q
      · rw [h2]; exact hq
      · simp [h1, h2] at ht
  kinds := by
    intro t st ht
    unfold swap at ht ⊢
    by_cases h1 : t = s
    · simp only [h1, if_true]; exact hk st
    · by_cases h2 : t = q
      · simp only [h1, h2, if_true, if_false]
        by_cases h3 : q = s
        · simp [h3]
        · simp only [h3, if_false]; exact (hk st).symm
      · simp [h1, h2] at ht

/-- C86: so a sequence with nothing left to do is as good as one that was never used. -/
theorem C86_as_good_as_new {tr : Trace α} {w w1 w2 : World α} (h : Reach tr w) {s q : Nat} {st : Strategy} (hs : Settled tr s)
    (hq : tr.handle q) (hnew : ∀ e, ¬ tr.attached e q) (ks : tr.kind s st) (kq : tr.kind q st) {p : Nat → Nat} (hp : Counts tr p)
    {ops : List (Op α)} (hroom : ∀ t, p t + ops.length ≤ 2147483648) {log1 log2 : List Event} (h1 : w.run ops = .ok (w1, log1))
    (h2 : w.run (ops.map (op (swap s q))) = .ok (w2, log2)) :
    log2.filter (fun ev => !aboutSequence ev) = log1.filter (fun ev => !aboutSequence ev) := by
  refine C86_same_outcomes h (swap_exchanges hs ⟨hq, fun e he => absurd he (hnew e)⟩ fun st' => ?_) hp hroom h1 h2
  have one : ∀ {t st1 st2}, tr.kind t st1 → tr.kind t st2 → st1 = st2 := by
    intro t st1 st2 k1 k2
    cases q1 : (abs w).seqs[t]? with
    | none => exact absurd k1 ((h.view.2.freshSeq t (List.getElem?_eq_none_iff.mp q1)).1 st1)
    | some a =>
      have := (h.view.2.seqs t a q1).1
      rw [(this st1).mp k1, (this st2).mp k2]
  constructor
  · intro k; rw [one k ks]; exact kq
  · intro k; rw [one k kq]; exact ks

theorem destroyed_matched {tr : Trace α} (l : Trace α) : ∀ {w : World α}, Reach (tr ++ l) w → ∀ {e : Nat}, Event.destroyed e ∈ tr.events →
    Trace.matched (tr ++ l) e = tr.matched e := by
  induction h : l.length generalizing l with
  | zero => intro w _ e _; rw [List.length_eq_zero_iff.mp h, List.append_nil]
  | succ k ih =>
    intro w hr e he
    rcases List.eq_nil_or_concat l with rfl | ⟨l', ⟨o, ev⟩, rfl⟩
    · cases h
    · rw [List.concat_eq_append, ← List.append_assoc] at hr
      obtain ⟨w0, h0, hs⟩ := hr.snoc_inv
      rw [List.concat_eq_append, ← List.append_assoc, matched_snoc, ih l' (by simpa using h) h0 he, List.count_eq_zero_of_not_mem, Nat.add_zero]
      intro hm
      obtain ⟨m, a, -, hc⟩ := fullMatch_source h0 hs hm
      refine hc.1.1.2 ?_
      unfold Trace.events at he ⊢
      rw [List.flatMap_append]
      exact List.mem_append_left _ he

/-- C86: if, however, an attached expectation ended after too few calls, the sequence is of no use any more: whatever is attached later can
never resolve a call. -/
theorem C86_stuck {tr tr' : Trace α} {w : World α} (h : Reach (tr ++ tr') w) {e s : Nat} (ha : tr.attached e s)
    (hd : Event.destroyed e ∈ tr.events) (hf : tr.tooFew e) {e' : Nat} (ha' : Trace.attached (tr ++ tr') e' s) (hlt : e < e') (m : Nat) (a : α) :
    ¬ Trace.candidate (tr ++ tr') m a e' := by
  intro hc
  refine (hc.2.2 s ha').1 e hlt (attached_mono ha) ?_
  obtain ⟨d, h1, h2⟩ := hf
  exact ⟨d, decl_mono h1, by rw [destroyed_matched tr' h hd]; exact h2⟩

/-! ## Examples -/

def wants (n : Nat) : Policy Nat := { accepts := fun a => some (a == n) }

/-- A part of a test with sequence `s`: calls in the wrong order, and the second call never arrives. -/
def part (s : Nat) : List (Op Nat) :=
  [.expect 0 1 1 [s] [wants 1], .expect 0 1 1 [s] [wants 2], .call 0 2, .call 0 1, .destroy 2, .destroy 3, .dropSequence s]

/-- Before: two lazy sequences. Two expectations were attached to the first one, were fulfilled and have ended. -/
def before : List (Op Nat) :=
  [.newMock, .newSequence .lazy, .newSequence .lazy, .expect 0 1 1 [0] [wants 1], .expect 0 0 1 [0] [wants 2], .call 0 1, .destroy 0, .destroy 1]

example : (part 0).map (op (swap 0 1)) = part 1 := rfl

/-- Expectation number 3 is unfulfilled; it is the second one attached to the new sequence, the fourth one attached to the other one. -/
example : ((runProgram before).toOption.map fun r => ((r.1.run (part 1)).toOption.map (·.2), (r.1.run (part 0)).toOption.map (·.2))) =
    some (some [.created 2, .created 3, .inapplicable [3], .fullMatch 2, .destroyed 2, .destroyed 3, .unfulfilled 3,
        .sequenceError 1 1 2, .sequenceDestroyed 1],
      some [.created 2, .created 3, .inapplicable [3], .fullMatch 2, .destroyed 2, .destroyed 3, .unfulfilled 3,
        .sequenceError 0 3 4, .sequenceDestroyed 0]) := by decide +kernel

/-- The history of `before`. -/
def past : Trace Nat :=
  [(.newMock, [.mockCreated 0]), (.newSequence .lazy, [.sequenceCreated 0 .lazy]), (.newSequence .lazy, [.sequenceCreated 1 .lazy]),
    (.expect 0 1 1 [0] [wants 1], [.created 0]), (.expect 0 0 1 [0] [wants 2], [.created 1]), (.call 0 1, [.fullMatch 0]),
    (.destroy 0, [.destroyed 0]), (.destroy 1, [.destroyed 1])]

theorem past_decl (e : Nat) : past.decl e = if e = 0 then some ⟨0, 1, 1, [0], [wants 1]⟩ else if e = 1 then some ⟨0, 0, 1, [0], [wants 2]⟩ else none := by
  by_cases h0 : e = 0
  · subst h0; rfl
  · by_cases h1 : e = 1
    · subst h1; rfl
    · simp [past, Trace.decl, h0, h1]

/-- The hypotheses are met after `before`. -/
example : (∃ w, Reach past w) ∧ Settled past 0 ∧ past.handle 1 ∧ (∀ e, ¬ past.attached e 1) ∧ past.kind 0 .lazy ∧ past.kind 1 .lazy ∧
    Counts past (fun t => if t = 0 then 2 else 0) := by
  refine ⟨⟨_, reach_final before⟩, ⟨⟨⟨.lazy, by unfold Trace.kind; decide⟩, ?_⟩, ?_⟩, ⟨⟨.lazy, by unfold Trace.kind; decide⟩, ?_⟩, ?_, by unfold Trace.kind; decide, by unfold Trace.kind; decide, ?_⟩
  · intro ev; simp [past]
  · rintro e ⟨d, hd, -⟩
    rw [past_decl] at hd
    by_cases h0 : e = 0
    · subst h0
      refine ⟨by decide, ?_⟩
      rintro ⟨d', h1, h2⟩
      rw [past_decl] at h1
      simp only [if_true, Option.some.injEq] at h1
      subst h1
      exact absurd h2 (by decide)
    · by_cases h1 : e = 1
      · subst h1
        refine ⟨by decide, ?_⟩
        rintro ⟨d', h1, h2⟩
        rw [past_decl] at h1
        simp only [Nat.one_ne_zero, if_false, if_true, Option.some.injEq] at h1
        subst h1
        exact absurd h2 (by decide)
      · simp [h0, h1] at hd
  · intro ev; simp [past]
  · rintro e ⟨d, hd, hm⟩
    rw [past_decl] at hd
    grind
  · intro t
    by_cases ht : t = 0
    · subst ht
      refine ⟨[0, 1], ⟨by decide, fun e => ?_⟩, rfl⟩
      simp only [Trace.attached, past_decl]
      by_cases h0 : e = 0
      · simp [h0]
      · by_cases h1 : e = 1
        · simp [h1]
        · simp [h0, h1]
    · refine ⟨[], ⟨by decide, fun e => ?_⟩, by simp [ht]⟩
      simp only [Trace.attached, past_decl]
      grind

/-- Without the call, the first sequence is stuck. -/
example : ((runProgram [.newMock, .newSequence .lazy, .expect 0 1 1 [0] [wants 1], .destroy 0, .expect 0 1 1 [0] [wants 1],
    .call 0 1]).toOption.map (·.2)) =
    some [.mockCreated 0, .sequenceCreated 0 .lazy, .created 0, .destroyed 0, .unfulfilled 0, .created 1, .inapplicable [1]] := by
  decide +kernel

end Mimic.Exchange
