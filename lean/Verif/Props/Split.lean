import Verif.Proofs.Split
import Verif.Props.Loosen

/-!
# C97: one expectation for exactly so many calls, or several ones for exact parts of this number
-/

set_option autoImplicit false

namespace Mimic.Split

variable {α : Type}

theorem op_one (e : Nat) (rest : List (Op α)) : rest.flatMap (op e 1) = rest := by
  have : rest.flatMap (op e 1) = rest.flatMap fun o => [o] := flatMap_congr' fun o _ => by
    cases o with
    | destroy k =>
      simp only [op]
      by_cases hk : k < e
      · rw [if_pos hk]
      · by_cases hk' : k = e
        · rw [if_neg hk, if_pos hk', hk']; rfl
        · rw [if_neg hk, if_neg hk']; rfl
    | _ => rfl
  rw [this, List.flatMap_singleton']

/-- C97: wherever a test creates several expectations one after the other, for exactly `n₁`, `n₂`, … calls and otherwise the same, one for exactly
`n₁ + n₂ + …` calls does as well: the test passes in both cases or in none, and all its calls end alike. -/
theorem C97_split {tr : Trace α} {w w' : World α} (hr : Reach tr w) {e : Nat} (he : Created tr e) {ns : List Int} (hne : ns ≠ [])
    (hpos : ∀ n ∈ ns, 0 ≤ n) (hi : isInt ns.sum = true) (m : Nat) {tags : List Nat} (hn : tags.Nodup) (ps : List (Policy α)) (rest : List (Op α))
    {log' : List Event} (h : w.run (ns.map (fun n => .expect m n n tags ps) ++ rest.flatMap (op e ns.length)) = .ok (w', log')) :
    ∃ w'' log, w.run (.expect m ns.sum ns.sum tags ps :: rest) = .ok (w'', log) ∧ (Language.passes log ↔ Language.passes log') ∧
      log.filterMap (outcome id) = log'.filterMap (outcome (origin e ns.length)) := by
  induction ns generalizing tr w e rest log' with
  | nil => exact absurd rfl hne
  | cons a ns ih =>
    rcases ns with _ | ⟨b, ns⟩
    · have h1 : rest.flatMap (op e 1) = rest := op_one e rest
      have h2 : origin e 1 = id := by
        funext k
        unfold origin
        simp only [id]
        grind
      simp only [List.length_singleton, List.map_cons, List.map_nil, List.singleton_append, h1, List.sum_cons, List.sum_nil, Int.add_zero, h2] at h ⊢
      exact ⟨w', log', h, Iff.rfl, rfl⟩
    · have ha : 0 ≤ a := hpos a (by simp)
      have hrest : ∀ n ∈ b :: ns, 0 ≤ n := fun n hh => hpos n (by simp only [List.mem_cons] at hh ⊢; exact .inr hh)
      have hs : 0 ≤ (b :: ns).sum := sum_nonneg hrest
      rw [List.sum_cons] at hi ⊢
      rw [List.map_cons, List.cons_append] at h
      obtain ⟨w1, ev, more, h1, h2, rfl⟩ := run_cons_ok h
      obtain ⟨rfl, hc⟩ := head hr he ha hn h1
      rw [List.length_cons, ← ops_op e _ (by simp)] at h2
      obtain ⟨w2, log2, k1, k2, k3⟩ := ih (hr.step h1) hc (by simp) hrest (isInt_add ha hs hi).2 _ h2
      obtain ⟨w3, log3, l1, l2, l3⟩ := two_split hr he ha hs hi m hn ps rest (run_cons_of h1 k1)
      refine ⟨w3, log3, l1, ?_, ?_⟩
      · rw [l2, Language.passes_append, Language.passes_append, k2]
      · rw [l3, List.filterMap_append, List.filterMap_append]
        congr 1
        have := outcomes_comp (g := origin2 e) k3
        rw [List.length_cons]
        simpa only [id, origin_origin e _ (show 0 < (b :: ns).length by simp)] using this

/-- C97: and the other way round, an expectation for exactly so many calls can be replaced by several ones for exact parts of this number, as
long as there are not too many expectations. -/
theorem C97_possible {tr : Trace α} {w w'' : World α} (hr : Reach tr w) {e : Nat} (he : Created tr e) {ns : List Int} (hne : ns ≠ [])
    (hpos : ∀ n ∈ ns, 0 ≤ n) (hi : isInt ns.sum = true) (m : Nat) {tags : List Nat} (hn : tags.Nodup) (ps : List (Policy α)) (rest : List (Op α))
    {log : List Event} (h : w.run (.expect m ns.sum ns.sum tags ps :: rest) = .ok (w'', log))
    (hroom : e + ns.length + (rest.flatMap (op e ns.length)).length ≤ 2147483648) :
    ∃ w' log', w.run (ns.map (fun n => .expect m n n tags ps) ++ rest.flatMap (op e ns.length)) = .ok (w', log') ∧
      (Language.passes log ↔ Language.passes log') ∧ log.filterMap (outcome id) = log'.filterMap (outcome (origin e ns.length)) := by
  have key : ∃ w' log', w.run (ns.map (fun n => .expect m n n tags ps) ++ rest.flatMap (op e ns.length)) = .ok (w', log') := by
    induction ns generalizing tr w w'' e rest log with
    | nil => exact absurd rfl hne
    | cons a ns ih =>
      rcases ns with _ | ⟨b, ns⟩
      · rw [List.length_singleton, List.map_cons, List.map_nil, List.singleton_append, op_one]
        rw [List.sum_cons, List.sum_nil, Int.add_zero] at h
        exact ⟨w'', log, h⟩
      · have ha : 0 ≤ a := hpos a (by simp)
        have hrest : ∀ n ∈ b :: ns, 0 ≤ n := fun n hh => hpos n (by simp only [List.mem_cons] at hh ⊢; exact .inr hh)
        have hs : 0 ≤ (b :: ns).sum := sum_nonneg hrest
        have hl : 0 < (b :: ns).length := by simp
        generalize b :: ns = cs at *
        rw [List.sum_cons] at hi h
        rw [List.length_cons, ← ops_op e _ hl] at hroom
        have hlen := length_ops (e + 1) _ hl (rest.flatMap (op2 e))
        obtain ⟨w1, log1, h1, -⟩ := two_possible hr he ha hs hi m hn ps rest h (by omega)
        obtain ⟨w2, ev, more, h2, h3, rfl⟩ := run_cons_ok h1
        obtain ⟨rfl, hc⟩ := head hr he ha hn h2
        obtain ⟨w3, log3, k1⟩ := ih (hr.step h2) hc (by rintro rfl; simp at hl) hrest (isInt_add ha hs hi).2 (rest.flatMap (op2 e)) h3 (by omega)
        refine ⟨w3, [.created e] ++ log3, ?_⟩
        rw [List.map_cons, List.cons_append, List.length_cons, ← ops_op e _ hl]
        exact run_cons_of h2 k1
  obtain ⟨w', log', hw⟩ := key
  obtain ⟨w3, log3, h3, h4⟩ := C97_split hr he hne hpos hi m hn ps rest hw
  rw [h] at h3
  simp only [Except.ok.injEq, Prod.mk.injEq] at h3
  obtain ⟨rfl, rfl⟩ := h3
  exact ⟨w', log', hw, h4⟩

/-- C97: this is about exact numbers of calls. Instead of one expectation for one or two calls, one for exactly one call and another one for at
most one call are something else: the younger one takes the only call, so that the older one lacks it. -/
theorem C97_exact : ∃ (w w' w'' : World Nat) (log log' : List Event), Reach [(.newMock, [.mockCreated 0])] w ∧
    w.run [.expect 0 1 2 [] [], .call 0 5, .destroy 0] = .ok (w'', log) ∧ Language.passes log ∧
    w.run [.expect 0 1 1 [] [], .expect 0 0 1 [] [], .call 0 5, .destroy 0, .destroy 1] = .ok (w', log') ∧ Event.unfulfilled 0 ∈ log' := by
  have hr := reach_final ([.newMock] : List (Op Nat))
  exact ⟨_, _, _, [.created 0, .fullMatch 0, .destroyed 0], [.created 0, .created 1, .fullMatch 1, .destroyed 0, .unfulfilled 0, .destroyed 1],
    hr, rfl, by unfold Language.passes; decide, rfl, by decide⟩

/-! ## Examples -/

/-- An optional call is expected before, and another one afterwards, in sequence. -/
def before : List (Op Nat) := [.newMock, .newSequence .lazy, .newSequence .greedy, .expect 0 0 1 [0] []]

def rest : List (Op Nat) :=
  [.expect 0 1 1 [0] [Loosen.wants 7], .call 0 5, .call 0 5, .call 0 5, .call 0 7, .call 0 5, .destroy 0, .destroy 1, .destroy 2, .dropSequence 0,
    .dropSequence 1]

example : Created (World.final before).2 1 := created_of (reach_final before)

/-- With one expectation for three calls, in sequence: the test fails only because of its last call. -/
example : ((World.final before).1.run (.expect 0 3 3 [0, 1] [] :: rest)).toOption.map (·.2) = some
    [.created 1, .created 2, .fullMatch 1, .fullMatch 1, .fullMatch 1, .fullMatch 2, .inapplicable [1, 0], .destroyed 0, .destroyed 1,
      .destroyed 2, .sequenceDestroyed 0, .sequenceDestroyed 1] := by decide +kernel

/-- With one for one call and one for two calls: it does the same. -/
example : ((World.final before).1.run (.expect 0 1 1 [0, 1] [] :: .expect 0 2 2 [0, 1] [] :: rest.flatMap (op 1 2))).toOption.map (·.2) = some
    [.created 1, .created 2, .created 3, .fullMatch 1, .fullMatch 2, .fullMatch 2, .fullMatch 3, .inapplicable [2, 1, 0], .destroyed 0, .destroyed 1,
      .destroyed 2, .destroyed 3, .sequenceDestroyed 0, .sequenceDestroyed 1] := by decide +kernel

/-- Without sequences the younger one takes its calls first; the outcomes are the same. -/
example : ((World.final before).1.run (.expect 0 2 2 [] [] :: .expect 0 1 1 [] [] :: rest.flatMap (op 1 2))).toOption.map (·.2.filterMap
    (outcome (origin 1 2))) = ((World.final before).1.run (.expect 0 3 3 [] [] :: rest)).toOption.map (·.2.filterMap (outcome id)) := by
  decide +kernel

/-- Three times `once()` instead of `times(3)`. -/
example : ((World.final before).1.run ([1, 1, 1].map (fun n => .expect 0 n n [1, 0] []) ++ rest.flatMap (op 1 3))).toOption.map (·.2) = some
    [.created 1, .created 2, .created 3, .created 4, .fullMatch 1, .fullMatch 2, .fullMatch 3, .fullMatch 4, .inapplicable [3, 2, 1, 0],
      .destroyed 0, .destroyed 1, .destroyed 2, .destroyed 3, .destroyed 4, .sequenceDestroyed 0, .sequenceDestroyed 1] := by decide +kernel

end Mimic.Split
