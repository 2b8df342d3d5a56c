import Verif.Proofs.Steady

/-!
# C109: which numbers of calls make a difference
-/

set_option autoImplicit false

namespace Mimic.Steady

open Mimic.Whole

variable {α : Type}

/-- C109: of the numbers of calls that the expectations have resolved, only this has an influence on what happens next: whether they are zero, below the
lower limit and below the upper limit. -/
theorem C109_next {tr tr' : Trace α} {w w' : World α} (h : Reach tr w) (h' : Reach tr' w') (hs : Akin tr tr') (op : Op α) (ev : List Event) :
    (∃ v, Reach (tr ++ [(op, ev)]) v) ↔ ∃ v, Reach (tr' ++ [(op, ev)]) v :=
  ⟨fun ⟨_, hv⟩ => lawful_reach (hs.next (reach_lawful h') (reach_lawful hv)),
   fun ⟨_, hv⟩ => lawful_reach (hs.symm.next (reach_lawful h) (reach_lawful hv))⟩

/-- C109: how often an expectation has been used that has all the calls it asks for has no influence on anything, as long as it does not get to its upper
limit. -/
theorem C109_future {tr tr' : Trace α} {w w' : World α} (h : Reach tr w) (h' : Reach tr' w') {rest : Trace α} (hs : Enough tr tr' rest) :
    (∃ v, Reach (tr ++ rest) v) ↔ ∃ v, Reach (tr' ++ rest) v :=
  ⟨fun ⟨_, hv⟩ => lawful_reach (future rest h' hs (reach_lawful hv)),
   fun ⟨_, hv⟩ => lawful_reach (future rest h hs.symm (reach_lawful hv))⟩

/-- C109: a call that is resolved by an expectation that has been used before and has all the calls it asks for can be left out (`n = 0`) or repeated any
number of times, as long as that expectation does not get to its upper limit; everything else happens as before. -/
theorem C109_any_number {pre post : Trace α} {m : Nat} {a : α} {ev : List Event} {w : World α}
    (h : Reach (pre ++ (Op.call m a, ev) :: post) w) {e : Nat} (he : Event.fullMatch e ∈ ev) {d : Decl α} (hd : pre.decl e = some d)
    (h1 : 1 ≤ pre.matched e) (h2 : d.min ≤ (pre.matched e : Int)) (h3 : (pre.matched e : Int) + 1 + post.matched e < d.max)
    {n : Nat} (h4 : (pre.matched e : Int) + n + post.matched e < d.max) :
    ∃ w', Reach (pre ++ List.replicate n (Op.call m a, ev) ++ post) w' := by
  have e1 : pre ++ (Op.call m a, ev) :: post = (pre ++ [(Op.call m a, ev)]) ++ post := by simp
  rw [e1] at h
  have hl := reach_lawful h
  have hone := lawful_prefix hl
  obtain ⟨w0, hpre⟩ := lawful_reach (lawful_prefix hone)
  -- the calls themselves
  have calls : ∀ k, k ≤ n → ∃ v, Reach (pre ++ List.replicate k (Op.call m a, ev)) v := by
    intro k
    induction k with
    | zero => intro _; exact ⟨w0, by simpa using hpre⟩
    | succ k ih =>
      intro hk
      obtain ⟨v, hv⟩ := ih (by omega)
      obtain ⟨i1, i2, i3, i4, i5, i6⟩ := calls_same hone he k
      have ha : Akin pre (pre ++ List.replicate k (Op.call m a, ev)) := by
        refine ⟨fun x => (i1 x).symm, fun x => (i2 x).symm, fun x => (i3 x).symm, fun s st => (i4 s st).symm, fun s => (i5 s).symm,
          fun x => ?_, fun x => ?_, fun x d' hd' => ?_⟩
        · rw [i6 x]
          by_cases hx : x = e
          · subst hx
            simp only [if_true]
            omega
          · simp [hx]
        · unfold Trace.tooFew
          rw [i1 x, i6 x]
          by_cases hx : x = e
          · subst hx
            simp only [hd, if_true, Option.some.injEq, exists_eq_left']
            omega
          · simp [hx]
        · rw [i6 x]
          by_cases hx : x = e
          · subst hx
            rw [hd] at hd'
            cases hd'
            simp only [if_true]
            omega
          · simp [hx]
      rw [List.replicate_succ', ← List.append_assoc]
      exact (C109_next hpre hv ha _ _).1 (lawful_reach hone)
  obtain ⟨v, hv⟩ := calls n (Nat.le_refl _)
  obtain ⟨v1, hv1⟩ := lawful_reach hone
  obtain ⟨i1, i2, i3, i4, i5, i6⟩ := calls_same hone he n
  obtain ⟨j1, j2, j3, j4, j5, j6⟩ := calls_same hone he 1
  simp only [List.replicate_one] at j1 j2 j3 j4 j5 j6
  refine (C109_future hv1 hv ?_).1 ⟨w, h⟩
  refine ⟨fun x => by rw [i1, j1], fun x => by rw [i2, j2], fun x => by rw [i3, j3], fun s st => by rw [i4, j4], fun s => by rw [i5, j5], fun x => ?_⟩
  by_cases hx : x = e
  · subst hx
    refine .inr ⟨⟨?_, d, by rw [j1]; exact hd, ?_, ?_⟩, ⟨?_, d, by rw [i1]; exact hd, ?_, ?_⟩⟩ <;> simp only [j6, i6, if_true] <;> omega
  · left
    rw [j6, i6]
    simp [hx]

/-- C109: in particular, such a call can be left out. -/
theorem C109_leave_out {pre post : Trace α} {m : Nat} {a : α} {ev : List Event} {w : World α}
    (h : Reach (pre ++ (Op.call m a, ev) :: post) w) {e : Nat} (he : Event.fullMatch e ∈ ev) {d : Decl α} (hd : pre.decl e = some d)
    (h1 : 1 ≤ pre.matched e) (h2 : d.min ≤ (pre.matched e : Int)) (h3 : (pre.matched e : Int) + 1 + post.matched e < d.max) :
    ∃ w', Reach (pre ++ post) w' := by
  have := C109_any_number h he hd h1 h2 h3 (n := 0) (by simp; omega)
  simpa using this

/-! ### What is needed -/

/-- The first call of an expectation matters: afterwards, it is not the turn of the older ones in its sequence any more. -/
def first : Trace Unit :=
  [(.newMock, [.mockCreated 0]), (.newMock, [.mockCreated 1]), (.newSequence .greedy, [.sequenceCreated 0 .greedy]),
   (.expect 0 0 5 [0] [], [.created 0]), (.expect 1 0 5 [0] [], [.created 1])]

/-- The calls that are asked for matter. -/
def asked : Trace Unit :=
  [(.newMock, [.mockCreated 0]), (.newMock, [.mockCreated 1]), (.newSequence .greedy, [.sequenceCreated 0 .greedy]),
   (.expect 0 2 5 [0] [], [.created 0]), (.expect 1 0 5 [0] [], [.created 1]), (.call 0 (), [.fullMatch 0])]

/-- The last call that an expectation can take matters: afterwards, calls are up to others. -/
def last : Trace Unit :=
  [(.newMock, [.mockCreated 0]), (.expect 0 0 5 [] [], [.created 0]), (.expect 0 0 2 [] [], [.created 1]), (.call 0 (), [.fullMatch 1])]

theorem not_reach {tr tr' : Trace Unit} {w' : World Unit} (h' : Reach tr' w') (ho : tr.map (·.1) = tr'.map (·.1)) (hne : tr.events ≠ tr'.events) :
    ¬ ∃ w, Reach tr w := by
  rintro ⟨w, h⟩
  exact hne (congrArg Trace.events (lawful_unique (reach_lawful h) (reach_lawful h') ho))

theorem recorded (tr : Trace Unit) (h : ∃ w, World.init.record (tr.map (·.1)) = .ok (w, tr)) : ∃ w, Reach tr w :=
  h.elim fun w hw => ⟨w, record_reach (tr := []) (tr' := tr) _ Reach.init hw⟩

/-- C109: none of the three conditions of `C109_leave_out` can be left out: in each of these cases the other two are met. -/
theorem C109_needed :
    (first.decl 1 = some ⟨1, 0, 5, [0], []⟩ ∧ first.matched 1 = 0 ∧
      (∃ w, Reach (first ++ (Op.call 1 (), [Event.fullMatch 1]) :: [(.call 0 (), [.inapplicable [0]])]) w) ∧
      ¬ ∃ w, Reach (first ++ [(.call 0 (), [.inapplicable [0]])]) w) ∧
    (asked.decl 0 = some ⟨0, 2, 5, [0], []⟩ ∧ asked.matched 0 = 1 ∧
      (∃ w, Reach (asked ++ (Op.call 0 (), [Event.fullMatch 0]) :: [(.call 1 (), [.fullMatch 1])]) w) ∧
      ¬ ∃ w, Reach (asked ++ [(.call 1 (), [.fullMatch 1])]) w) ∧
    (last.decl 1 = some ⟨0, 0, 2, [], []⟩ ∧ last.matched 1 = 1 ∧
      (∃ w, Reach (last ++ (Op.call 0 (), [Event.fullMatch 1]) :: [(.call 0 (), [.fullMatch 0])]) w) ∧
      ¬ ∃ w, Reach (last ++ [(.call 0 (), [.fullMatch 0])]) w) := by
  obtain ⟨_, r1⟩ := recorded (first ++ [(.call 0 (), [.fullMatch 0])]) ⟨_, rfl⟩
  obtain ⟨_, r2⟩ := recorded (asked ++ [(.call 1 (), [.inapplicable [1]])]) ⟨_, rfl⟩
  obtain ⟨_, r3⟩ := recorded (last ++ [(.call 0 (), [.fullMatch 1])]) ⟨_, rfl⟩
  exact ⟨⟨rfl, by decide +kernel, recorded _ ⟨_, rfl⟩, not_reach r1 rfl (by decide +kernel)⟩,
    ⟨rfl, by decide +kernel, recorded _ ⟨_, rfl⟩, not_reach r2 rfl (by decide +kernel)⟩,
    ⟨rfl, by decide +kernel, recorded _ ⟨_, rfl⟩, not_reach r3 rfl (by decide +kernel)⟩⟩

/-! ### Example -/

/-- An expectation for at least one call, in a sequence, which has been used. -/
def settled : Trace Unit :=
  [(.newMock, [.mockCreated 0]), (.newMock, [.mockCreated 1]), (.newSequence .lazy, [.sequenceCreated 0 .lazy]),
   (.expect 0 1 2147483647 [0] [], [.created 0]), (.expect 1 1 1 [0] [], [.created 1]), (.call 0 (), [.fullMatch 0])]

def rest : Trace Unit :=
  [(.call 0 (), [.fullMatch 0]), (.call 1 (), [.fullMatch 1]), (.call 0 (), [.inapplicable [0]]), (.destroy 0, [.destroyed 0]),
   (.destroy 1, [.destroyed 1]), (.dropSequence 0, [.sequenceDestroyed 0])]

/-- All that is asked for in `C109_any_number`; so a thousand calls make no difference. -/
example : ∃ w, Reach (settled ++ List.replicate 1000 (Op.call 0 (), [Event.fullMatch 0]) ++ rest) w := by
  obtain ⟨_, h⟩ := recorded (settled ++ (Op.call 0 (), [Event.fullMatch 0]) :: rest) ⟨_, rfl⟩
  have h1 : settled.matched 0 = 1 := by decide +kernel
  have h2 : rest.matched 0 = 1 := by decide +kernel
  exact C109_any_number h (e := 0) (d := ⟨0, 1, 2147483647, [0], []⟩) (by simp) rfl (by omega) (by simp [h1]) (by simp [h1, h2])
    (by simp [h1, h2])

/-- Two different situations in the sense of C95 that are akin. -/
example : Akin settled (settled ++ [(Op.call 0 (), [Event.fullMatch 0])]) ∧
    settled.matched 0 ≠ Trace.matched (settled ++ [(Op.call 0 (), [Event.fullMatch 0])]) 0 := by
  refine ⟨?_, by decide +kernel⟩
  have hd : ∀ x, Trace.decl (settled ++ [(Op.call 0 (), [Event.fullMatch 0])]) x = settled.decl x := fun x => decl_snoc_none rfl
  have hm : ∀ x, Trace.matched (settled ++ [(Op.call 0 (), [Event.fullMatch 0])]) x = settled.matched x + if x = 0 then 1 else 0 := by
    intro x
    rw [matched_snoc]
    by_cases hx : x = 0
    · simp [hx]
    · simp [hx, List.count_singleton, Ne.symm hx]
  have h1 : settled.matched 0 = 1 := by decide +kernel
  have hk : ∀ s st, settled.kind s st ↔ Trace.kind (settled ++ [(Op.call 0 (), [Event.fullMatch 0])]) s st := by
    intro s st
    unfold Trace.kind
    rw [events_snoc, List.mem_append]
    simp
  refine ⟨fun x => (hd x).symm, fun x => ?_, fun x => ?_, hk, fun s => ?_, fun x => ?_, fun x => ?_, fun x d hx => ?_⟩
  · unfold Trace.live
    rw [hd, events_snoc, List.mem_append]
    simp
  · rw [events_snoc, List.mem_append]
    simp
  · unfold Trace.handle
    simp only [hk, List.mem_append, List.mem_singleton, Prod.mk.injEq, reduceCtorEq, false_and, or_false]
  · rw [hm]
    by_cases hx : x = 0
    · simp [hx, h1]
    · simp [hx]
  · unfold Trace.tooFew
    rw [hd, hm]
    by_cases hx : x = 0
    · subst hx
      have : settled.decl 0 = some ⟨0, 1, 2147483647, [0], []⟩ := rfl
      simp [this, h1]
    · simp [hx]
  · rw [hm]
    by_cases hx0 : x = 0
    · subst hx0
      have : settled.decl 0 = some ⟨0, 1, 2147483647, [0], []⟩ := rfl
      rw [this] at hx
      cases hx
      simp [h1]
    · simp [hx0]

end Mimic.Steady
