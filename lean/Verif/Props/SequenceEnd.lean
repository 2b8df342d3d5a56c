import Verif.Proofs.SeqEnd
import Verif.Proofs.Demo

/-!
# C14-C16: the end of a sequence
-/

set_option autoImplicit false

namespace Mimic

variable {α : Type}

/-! ### C14 -/

theorem attached_oldestFirst {tr : Trace α} {S : Spec.State α} (h : View tr S) (s : Nat) :
    OldestFirst (fun e => tr.attached e s) ((S.attached s).map (·.id)) := by
  refine ⟨?_, fun e => ?_⟩
  · rw [List.pairwise_map]
    exact List.Pairwise.filter _ h.sorted
  · show _ ↔ tr.attached e s
    rw [h.mem_attached, List.mem_map]

theorem oldestFirst_unique {P : Nat → Prop} {a b : List Nat} (ha : OldestFirst P a)
    (hb : OldestFirst P b) : a = b := by
  have hirr : ∀ l : List Nat, l.Pairwise (· < ·) → l.Nodup := fun l hl =>
    hl.imp (fun h => Nat.ne_of_lt h)
  have hp : a.Perm b := by
    rw [List.perm_ext_iff_of_nodup (hirr _ ha.1) (hirr _ hb.1)]
    intro e; rw [ha.2, hb.2]
  exact hp.eq_of_pairwise (le := (· < ·)) (fun x y _ _ h1 h2 => by omega) ha.1 hb.1

theorem unfulfilled_attached {tr : Trace α} {S : Spec.State α} (h : View tr S) {s : Nat}
    {x : Spec.Exp α} (hx : x ∈ S.attached s) : x.unfulfilled = true ↔ tr.tooFew x.id := by
  obtain ⟨d, hd, hxd⟩ := h.get (List.mem_filter.mp hx).1
  rw [tooFew_iff hd, ← hxd]

/-- C14: an end-of-sequence error is reported only when the sequence ends, and the two printed numbers
are the attachment position of the first attached expectation with too few calls and the number of
attached expectations. -/
theorem C14_sequence_error {tr : Trace α} {w w' : World α} (h : Reach tr w) {op : Op α}
    {ev : List Event} (hs : w.step op = .ok (w', ev)) (s k n : Nat) :
    Event.sequenceError s k n ∈ ev ↔
      Event.sequenceDestroyed s ∈ ev ∧
      ∃ es e, OldestFirst (fun e => (tr ++ [(op, ev)]).attached e s) es ∧ n = es.length ∧
        es[k]? = some e ∧ (tr ++ [(op, ev)]).tooFew e ∧
        ∀ (j : Nat) (e' : Nat), j < k → es[j]? = some e' → ¬ (tr ++ [(op, ev)]).tooFew e' := by
  have hv' := (h.step hs).view.2
  have hf := (ends_filter h hs s).1
  have hidx : ∀ (i : Nat) (e : Nat), ((abs w').attached s |>.map (·.id))[i]? = some e ↔
      ∃ x, ((abs w').attached s)[i]? = some x ∧ x.id = e := by
    intro i e; rw [List.getElem?_map]; simp
  rw [mem_ends (s := s) (x := .sequenceError s k n) (by simp [Event.ends]),
    mem_ends (s := s) (x := .sequenceDestroyed s) (by simp [Event.ends]), hf]
  split
  · rw [sequenceEnd_error]
    constructor
    · rintro ⟨h1, h2⟩
      refine ⟨(sequenceEnd_destroyed _ _).1, ((abs w').attached s).map (·.id), ?_⟩
      rw [List.findIdx?_eq_some_iff_getElem] at h1
      obtain ⟨hk, h3, h4⟩ := h1
      refine ⟨((abs w').attached s)[k].id, attached_oldestFirst hv' s, by simpa using h2,
        (hidx _ _).mpr ⟨_, List.getElem?_eq_getElem hk, rfl⟩, ?_, ?_⟩
      · exact (unfulfilled_attached hv' (List.getElem_mem hk)).mp h3
      · intro j e' hj he' htf
        obtain ⟨x, hx, rfl⟩ := (hidx _ _).mp he'
        have hjl : j < ((abs w').attached s).length := by omega
        rw [List.getElem?_eq_getElem hjl] at hx
        injection hx with hx
        subst hx
        have := h4 j hj
        have h5 := (unfulfilled_attached hv' (List.getElem_mem hjl)).mpr htf
        simp only [h5] at this
        exact absurd trivial this
    · rintro ⟨_, es, e, he, hn, hk, htf, hmin⟩
      have := oldestFirst_unique he (attached_oldestFirst hv' s)
      subst this
      refine ⟨?_, by simpa using hn⟩
      rw [List.findIdx?_eq_some_iff_getElem]
      obtain ⟨x, hx, rfl⟩ := (hidx _ _).mp hk
      obtain ⟨hlt, hxe⟩ := List.getElem?_eq_some_iff.mp hx
      refine ⟨hlt, ?_, ?_⟩
      · rw [unfulfilled_attached hv' (List.getElem_mem hlt), hxe]; exact htf
      · intro j hj hc
        have hjl : j < ((abs w').attached s).length := by omega
        exact hmin j _ hj ((hidx _ _).mpr ⟨_, List.getElem?_eq_getElem hjl, rfl⟩)
          ((unfulfilled_attached hv' (List.getElem_mem hjl)).mp hc)
  · simp

/-- C14: when a sequence ends, an error is reported if and only if some attached expectation has resolved fewer
calls than its lower limit. -/
theorem C14_error_iff {tr : Trace α} {w w' : World α} (h : Reach tr w) {op : Op α}
    {ev : List Event} (hs : w.step op = .ok (w', ev)) {s : Nat} (hd : Event.sequenceDestroyed s ∈ ev) :
    (∃ k n, Event.sequenceError s k n ∈ ev) ↔
      ∃ e, (tr ++ [(op, ev)]).attached e s ∧ (tr ++ [(op, ev)]).tooFew e := by
  constructor
  · rintro ⟨k, n, hkn⟩
    obtain ⟨_, es, e, he, _, hk, htf, _⟩ := (C14_sequence_error h hs s k n).mp hkn
    exact ⟨e, (he.2 e).mp (List.mem_of_getElem? hk), htf⟩
  · rintro ⟨e, hatt, htf⟩
    have hv' := (h.step hs).view.2
    have hf := (ends_filter h hs s).1
    obtain ⟨x, hx, rfl⟩ := (hv'.mem_attached e s).mp hatt
    have hu := (unfulfilled_attached hv' hx).mpr htf
    cases hi : ((abs w').attached s).findIdx? (·.unfulfilled) with
    | none =>
      rw [List.findIdx?_eq_none_iff] at hi
      simp [hi x hx] at hu
    | some k =>
      refine ⟨k, ((abs w').attached s).length, ?_⟩
      rw [mem_ends (s := s) (by simp [Event.ends]), hf] at hd ⊢
      split at hd
      · rename_i hc
        rw [if_pos hc, sequenceEnd_error]
        exact ⟨hi, rfl⟩
      · simp at hd

/-- Two attached expectations, the second one never called; the sequence object goes first, then both
expectations: the error names position 1 of 2. -/
example : ∃ (tr : Trace Nat) (w w' : World Nat) (ev : List Event), Reach tr w ∧
    w.step (.destroy 0) = .ok (w', ev) ∧ Event.sequenceDestroyed 0 ∈ ev ∧
    Event.sequenceError 0 1 2 ∈ ev := by
  have hr := reach_final (α := Nat) [.newMock, .newSequence .lazy, .expect 0 1 1 [0] [],
    .expect 0 2 3 [0] [], .call 0 5, .dropSequence 0, .destroy 1]
  exact ⟨_, _, _, _, hr, rfl, by decide, by decide⟩

/-! ### C15 -/

/-- C15: the number of satisfied expectations is never overstated: at least `k` attached expectations are satisfied
whenever "k out of n" is printed, and `n` is the number of attached ones. -/
theorem C15_never_overstated {tr : Trace α} {w w' : World α} (h : Reach tr w) {op : Op α}
    {ev : List Event} (hs : w.step op = .ok (w', ev)) {s k n : Nat}
    (he : Event.sequenceError s k n ∈ ev) :
    ∃ es sat, OldestFirst (fun e => (tr ++ [(op, ev)]).attached e s) es ∧ n = es.length ∧
      OldestFirst (fun e => (tr ++ [(op, ev)]).attached e s ∧ ¬ (tr ++ [(op, ev)]).tooFew e) sat ∧
      k ≤ sat.length ∧ sat.length < n := by
  classical
  obtain ⟨_, es, e, hes, hn, hk, htf, hmin⟩ := (C14_sequence_error h hs s k n).mp he
  refine ⟨es, es.filter (fun e => decide (¬ (tr ++ [(op, ev)]).tooFew e)), hes, hn, ⟨?_, ?_⟩, ?_, ?_⟩
  · exact List.Pairwise.filter _ hes.1
  · intro e
    rw [List.mem_filter, hes.2, decide_eq_true_eq]
  · have hkl : k < es.length := (List.getElem?_eq_some_iff.mp hk).1
    have h1 : (es.take k).filter (fun e => decide (¬ (tr ++ [(op, ev)]).tooFew e)) = es.take k := by
      rw [List.filter_eq_self]
      intro a ha
      obtain ⟨j, hj⟩ := List.mem_iff_getElem?.mp ha
      rw [List.getElem?_take] at hj
      split at hj
      · rename_i hjk
        exact decide_eq_true (hmin j a hjk hj)
      · simp at hj
    have h2 := List.filter_append (p := fun e => decide (¬ (tr ++ [(op, ev)]).tooFew e))
      (es.take k) (es.drop k)
    rw [List.take_append_drop, h1] at h2
    rw [h2, List.length_append, List.length_take]
    omega
  · rw [hn, ← List.countP_eq_length_filter]
    refine Nat.lt_of_le_of_ne List.countP_le_length ?_
    intro hc
    rw [List.countP_eq_length] at hc
    have := hc e (List.mem_of_getElem? hk)
    rw [decide_eq_true_eq] at this
    exact this htf

/-- C15: the text may undercount: there is a history where "0 out of 2 expectation(s) are satisfied" is reported
although one of the two attached expectations is satisfied. -/
theorem C15_undercounts : ∃ (tr : Trace Nat) (w w' : World Nat) (op : Op Nat) (ev : List Event),
    Reach tr w ∧ w.step op = .ok (w', ev) ∧ Event.sequenceError 0 0 2 ∈ ev ∧
    (tr ++ [(op, ev)]).attached 1 0 ∧ ¬ (tr ++ [(op, ev)]).tooFew 1 := by
  have hr := reach_final (α := Nat) [.newMock, .newSequence .lazy, .expect 0 1 1 [0] [],
    .expect 0 0 3 [0] [], .dropSequence 0, .destroy 1]
  refine ⟨_, _, _, .destroy 0, _, hr, rfl, by decide, ⟨_, rfl, .head _⟩, ?_⟩
  rintro ⟨d, hd, hlt⟩
  have h2 : d.min = 0 := by
    have : some d = some (⟨0, 0, 3, [0], []⟩ : Decl Nat) := by rw [← hd]; rfl
    injection this with this; rw [this]
  omega

/-! ### C16 -/

/-- C16: a sequence has ended if and only if it was defined and neither its object nor a living attached expectation
is left. -/
theorem C16_ended_iff {tr : Trace α} {w : World α} (h : Reach tr w) (s : Nat) :
    Event.sequenceDestroyed s ∈ tr.events ↔ (∃ st, tr.kind s st) ∧ ¬ tr.referenced s := by
  have key : ∀ {tr : Trace α} {w : World α}, Reach tr w → (Event.sequenceDestroyed s ∈ tr.events ↔
      s < (abs w).seqs.length ∧ (abs w).owned s = false) := by
    intro tr w h
    induction h with
    | init => simp [Trace.events, World.init, abs]
    | @step tr w w' op ev hr hs ih =>
      obtain ⟨hf, hnew⟩ := ends_filter hr hs s
      have hgrow : (abs w).seqs.length ≤ (abs w').seqs.length := by
        have hspec := hr.spec_step hs
        generalize abs w' = S' at hspec ⊢
        cases op <;> simp only [Spec.State.step] at hspec
        case newSequence => simp at hspec; rw [← hspec.1]; simp
        case newMock => simp at hspec; rw [← hspec.1]; exact Nat.le_refl _
        case dropSequence =>
          split at hspec
          · simp at hspec; rw [← hspec.1]; simp
          · simp at hspec
        case call m a =>
          split at hspec
          · simp at hspec
            obtain ⟨_, _, _, _, hcase⟩ := call_events (abs w) m a
            rw [← hspec.1]
            rcases hcase with ⟨x, older, _, _, hc⟩ | ⟨_, _, _, hc⟩ | ⟨_, _, _, hc⟩ <;> rw [hc] <;>
              exact Nat.le_refl _
          · simp at hspec
        case expect =>
          split at hspec
          · split at hspec <;> simp at hspec <;> rw [← hspec.1] <;> exact Nat.le_refl _
          · simp at hspec
        case destroy =>
          split at hspec
          · simp at hspec
          · simp at hspec; rw [← hspec.1]; exact Nat.le_refl _
      have hlt : (abs w).owned s = true → s < (abs w).seqs.length := by
        intro ho
        rw [owned_eq, Bool.or_eq_true] at ho
        rcases ho with ho | ho
        · unfold Spec.State.hasHandle at ho
          split at ho
          · rename_i q hq
            exact (List.getElem?_eq_some_iff.mp hq).1
          · simp at ho
        · rw [List.any_eq_true] at ho
          obtain ⟨x, hx, hp⟩ := ho
          rw [Bool.and_eq_true, List.contains_iff_mem] at hp
          have := hr.view.1.seq_lt x hx s hp.2
          simpa [abs] using this
      have hnewown : (abs w).seqs.length ≤ s → s < (abs w').seqs.length → (abs w').owned s = true := by
        intro h1 h2
        have hspec := hr.spec_step hs
        generalize abs w' = S' at hspec h2 ⊢
        cases op <;> simp only [Spec.State.step] at hspec
        case newSequence =>
          simp at hspec
          rw [← hspec.1] at h2 ⊢
          simp at h2
          have : s = (abs w).seqs.length := by omega
          subst this
          simp [Spec.State.owned]
        case newMock => simp at hspec; rw [← hspec.1] at h2; exact absurd h2 (by simpa using h1)
        case dropSequence =>
          split at hspec
          · simp at hspec; rw [← hspec.1] at h2; exact absurd h2 (by simpa using h1)
          · simp at hspec
        case call m a =>
          split at hspec
          · simp at hspec
            obtain ⟨_, _, _, _, hcase⟩ := call_events (abs w) m a
            rw [← hspec.1] at h2
            rcases hcase with ⟨x, older, _, _, hc⟩ | ⟨_, _, _, hc⟩ | ⟨_, _, _, hc⟩ <;> rw [hc] at h2 <;>
              exact absurd h2 (by simpa [Spec.State.countMatch] using h1)
          · simp at hspec
        case expect =>
          split at hspec
          · split at hspec <;> simp at hspec <;> rw [← hspec.1] at h2 <;>
              exact absurd h2 (by simpa using h1)
          · simp at hspec
        case destroy =>
          split at hspec
          · simp at hspec
          · simp at hspec; rw [← hspec.1] at h2
            exact absurd h2 (by simpa [Spec.State.withdraw] using h1)
      rw [events_snoc, List.mem_append, ih,
        mem_ends (s := s) (x := .sequenceDestroyed s) (ev := ev) (by simp [Event.ends]), hf]
      cases ho : (abs w).owned s with
      | true =>
        have := hlt ho
        cases ho' : (abs w').owned s with
        | true => simp
        | false =>
          simp only [Bool.true_eq_false, and_false, and_self, if_true, and_true, false_or]
          exact ⟨fun _ => by omega, fun _ => (sequenceEnd_destroyed _ _).1⟩
      | false =>
        simp only [Bool.false_eq_true, false_and, if_false, List.not_mem_nil, or_false, and_true]
        constructor
        · intro hl
          refine ⟨by omega, ?_⟩
          cases ho' : (abs w').owned s with
          | false => rfl
          | true => have := hnew ho ho'; omega
        · rintro ⟨hl, ho'⟩
          by_cases hc : s < (abs w).seqs.length
          · exact hc
          · have := hnewown (by omega) hl
            rw [this] at ho'; simp at ho'
  have hv := h.view.2
  rw [key h, ← hv.owned_iff, Bool.not_eq_true]
  apply and_congr_left
  intro _
  constructor
  · intro hl
    exact ⟨_, ((hv.seqs s _ (List.getElem?_eq_getElem hl)).1 _).mpr rfl⟩
  · rintro ⟨st, hst⟩
    by_cases hc : s < (abs w).seqs.length
    · exact hc
    · exact absurd hst ((hv.freshSeq s (by omega)).1 st)

/-- C16: a sequence ends at most once. -/
theorem C16_ended_once {tr : Trace α} {w : World α} (h : Reach tr w) (s : Nat) :
    tr.events.count (.sequenceDestroyed s) ≤ 1 := by
  induction h with
  | init => simp [Trace.events]
  | @step tr w w' op ev hr hs ih =>
    rw [events_snoc, List.count_append, count_filter_ends ev, (ends_filter hr hs s).1]
    split
    · rename_i ho
      have hn : Event.sequenceDestroyed s ∉ tr.events := by
        rw [C16_ended_iff hr]
        rintro ⟨_, hne⟩
        exact hne ((hr.view.2.owned_iff s).mp ho.1)
      rw [List.count_eq_zero_of_not_mem hn, (sequenceEnd_destroyed _ _).2]
      omega
    · simpa using ih

/-- The object goes first, the expectation last: the sequence ends with the expectation. -/
example : ∃ (tr : Trace Nat) (w : World Nat), Reach tr w ∧
    (Op.dropSequence 0, []) ∈ tr ∧ (Op.destroy 0, [.destroyed 0, .sequenceDestroyed 0]) ∈ tr := by
  have hr := reach_final (α := Nat) [.newMock, .newSequence .greedy, .expect 0 0 1 [0] [],
    .dropSequence 0, .call 0 3, .destroy 0]
  have h : (World.final (α := Nat) [.newMock, .newSequence .greedy, .expect 0 0 1 [0] [],
    .dropSequence 0, .call 0 3, .destroy 0]).2 = [(.newMock, [.mockCreated 0]),
      (.newSequence .greedy, [.sequenceCreated 0 .greedy]), (.expect 0 0 1 [0] [], [.created 0]),
      (.dropSequence 0, []), (.call 0 3, [.fullMatch 0]),
      (.destroy 0, [.destroyed 0, .sequenceDestroyed 0])] := rfl
  refine ⟨_, _, hr, ?_, ?_⟩ <;> rw [h] <;> simp

/-- C16: dropping the sequence object changes neither applicability nor acceptance of any expectation. -/
theorem C16_order_survives {tr : Trace α} {w w' : World α} (h : Reach tr w) {s : Nat}
    {ev : List Event} (hs : w.step (.dropSequence s) = .ok (w', ev)) (m : Nat) (a : α) (e : Nat) :
    (tr ++ [(Op.dropSequence s, ev)]).candidate m a e ↔ tr.candidate m a e := by
  have hspec := h.spec_step hs
  have hv := h.view.2
  have hv' := (h.step hs).view.2
  simp only [Spec.State.step] at hspec
  split at hspec
  · simp only [Option.some.injEq, Prod.mk.injEq] at hspec
    rw [hv.candidate_iff, hv'.candidate_iff, ← hspec.1]
    exact Iff.rfl
  · simp at hspec

/-- A sequence object that is dropped while its expectations are waiting for their turn. -/
example : ∃ (tr : Trace Nat) (w w' : World Nat) (ev : List Event), Reach tr w ∧
    w.step (.dropSequence 0) = .ok (w', ev) ∧ tr.candidate 0 7 0 ∧ ¬ tr.candidate 0 7 1 := by
  have hr := reach_final (α := Nat) [.newMock, .newSequence .lazy, .expect 0 1 1 [0] [],
    .expect 0 1 1 [0] []]
  refine ⟨_, _, _, _, hr, rfl, (hr.view.2.candidate_iff _ _ _).mpr ⟨_, .head _, rfl⟩, ?_⟩
  rw [hr.view.2.candidate_iff]
  rintro ⟨x, hx, hid⟩
  have : x.id = 0 := by
    have hl : List.map (·.id) (List.filter (abs (World.final (α := Nat) [.newMock, .newSequence .lazy,
      .expect 0 1 1 [0] [], .expect 0 1 1 [0] []]).1).applicable (List.filter (·.accepts 7)
        ((abs (World.final (α := Nat) [.newMock, .newSequence .lazy, .expect 0 1 1 [0] [],
    .expect 0 1 1 [0] []]).1).candidates 0))) = [0] := rfl
    have := List.mem_map_of_mem (f := (·.id)) hx
    rw [hl] at this
    simpa using this
  omega

end Mimic
