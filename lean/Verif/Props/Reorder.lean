import Verif.Proofs.Reorder
import Verif.Proofs.Demo

/-!
# C71: the order in which an expectation names its sequences does not matter
-/

set_option autoImplicit false

namespace Mimic.Reorder

open Mimic.Parts

variable {α : Type}

/-- C71: a history remains possible if expectations name their sequences in other orders: the same operations succeed, and the same is
observed at each of them, except for the order in which sequences end together with an expectation. -/
theorem C71_order {tr : Trace α} {w : World α} (h : Reach tr w) {ops' : List (Op α)} (hp : SameProgram (tr.map (·.1)) ops') :
    ∃ (tr' : Trace α) (w' : World α), Reach tr' w' ∧ tr'.map (·.1) = ops' ∧ SameTrace tr tr' := by
  have key : ∀ {tr : Trace α} {w : World α}, Reach tr w → ∀ ops', SameProgram (tr.map (·.1)) ops' →
      ∃ (tr' : Trace α) (w' : World α), Reach tr' w' ∧ tr'.map (·.1) = ops' ∧ SameTrace tr tr' ∧ WorldRel w w' := by
    intro tr w h
    induction h with
    | init =>
      intro ops' hp
      cases hp
      exact ⟨[], .init, .init, rfl, .init, ⟨rfl, rfl, .nil⟩⟩
    | @step tr w w' op ev _ hs ih =>
      intro ops' hp
      have hsplit : ∀ (as : List (Op α)) (ops' : List (Op α)), SameProgram (as ++ [op]) ops' →
          ∃ bs op', ops' = bs ++ [op'] ∧ SameProgram as bs ∧ SameOp op op' := by
        intro as
        induction as with
        | nil =>
          intro ops' h
          cases h with
          | cons h1 h2 => cases h2; exact ⟨[], _, rfl, .nil, h1⟩
        | cons a as ih =>
          intro ops' h
          cases h with
          | @cons _ b _ bs h1 h2 =>
            obtain ⟨cs, op', rfl, h3, h4⟩ := ih _ h2
            exact ⟨b :: cs, op', rfl, .cons h1 h3, h4⟩
      rw [List.map_append] at hp
      obtain ⟨bs, op', rfl, h1, h2⟩ := hsplit _ _ hp
      obtain ⟨tr', v, h3, h4, h5, h6⟩ := ih bs h1
      obtain ⟨v', ev', h7, h8, h9⟩ := step_perm h6 h2 hs
      exact ⟨tr' ++ [(op', ev')], v', h3.step h7, by simp [h4], h5.step h2 h9, h8⟩
  obtain ⟨tr', w', h1, h2, h3, _⟩ := key h ops' hp
  exact ⟨tr', w', h1, h2, h3⟩

/-- C71: in particular, each call is resolved by the same expectation or reported in the same way; and only the end of an
expectation's life can look different, as the sequences that end with it may do so in another order. -/
theorem C71_step {tr tr' : Trace α} (h : SameTrace tr tr') (n : Nat) {op : Op α} {ev : List Event} (hn : tr[n]? = some (op, ev)) :
    ∃ op' ev', tr'[n]? = some (op', ev') ∧ SameOp op op' ∧ ev.Perm ev' ∧ ((∀ e, op ≠ .destroy e) → ev' = ev) := by
  have hl : ∀ {tr tr' : Trace α}, SameTrace tr tr' → tr.length = tr'.length := by
    intro tr tr' h
    induction h with
    | init => rfl
    | step _ _ _ ih => simp [ih]
  induction h with
  | init => simp at hn
  | @step tr tr' op1 op1' ev1 ev1' h1 h2 h3 ih =>
    by_cases hlt : n < tr.length
    · rw [List.getElem?_append_left hlt] at hn
      obtain ⟨op', ev', h4, h5⟩ := ih hn
      rw [List.getElem?_append_left (by rw [← hl h1]; exact hlt)]
      exact ⟨op', ev', h4, h5⟩
    · rw [List.getElem?_append_right (by omega)] at hn
      rw [List.getElem?_append_right (by rw [← hl h1]; omega), ← hl h1]
      rcases hk : n - tr.length with _ | k
      · rw [hk] at hn
        simp only [List.length_cons, List.length_nil, Nat.zero_add, Nat.lt_add_one, List.getElem?_eq_getElem, List.getElem_cons_zero,
          Option.some.injEq, Prod.mk.injEq] at hn ⊢
        obtain ⟨rfl, rfl⟩ := hn
        refine ⟨op1', ev1', ⟨rfl, rfl⟩, h2, ?_, ?_⟩
        · cases h3 with
          | same => exact .refl _
          | destroy e head ends hp _ => exact (hp.flatMap_right _).append_left _
        · intro hne
          cases h3 with
          | same => rfl
          | destroy e => exact absurd rfl (hne e)
      · rw [hk] at hn
        simp at hn

/-- C71: whether a test can be carried out does not depend on the order either. -/
theorem C71_possible {ops ops' : List (Op α)} (h : SameProgram ops ops') :
    (∃ (tr : Trace α) (w : World α), Reach tr w ∧ tr.map (·.1) = ops) ↔
      ∃ (tr : Trace α) (w : World α), Reach tr w ∧ tr.map (·.1) = ops' := by
  have hs : ∀ {ops ops' : List (Op α)}, SameProgram ops ops' → SameProgram ops' ops := by
    intro ops ops' h
    induction h with
    | nil => exact .nil
    | cons h1 _ ih => exact .cons h1.symm ih
  constructor
  · rintro ⟨tr, w, h1, rfl⟩
    obtain ⟨tr', w', h2, h3, _⟩ := C71_order h1 h
    exact ⟨tr', w', h2, h3⟩
  · rintro ⟨tr, w, h1, rfl⟩
    obtain ⟨tr', w', h2, h3, _⟩ := C71_order h1 (hs h)
    exact ⟨tr', w', h2, h3⟩

/-! ## A concrete case: an expectation in two sequences, preferred because of its priority, which are left to it alone -/

/-- Accepts calls with the number `n`. -/
def is (n : Nat) : Policy Nat := { accepts := fun a => some (a == n) }

/-- Expectation 2 competes with expectation 1 in the lazy sequence 0; sequence 1 is greedy. -/
def program (tags : List Nat) : List (Op Nat) :=
  [.newSequence .lazy, .newSequence .greedy, .newMock, .expect 0 0 1 [0] [is 1], .expect 0 1 2 tags [is 1],
    .call 0 1, .call 0 1, .call 0 2, .call 0 1, .destroy 0, .dropSequence 0, .dropSequence 1, .destroy 1]

example : SameProgram (program [0, 1]) (program [1, 0]) :=
  .cons (.same _) (.cons (.same _) (.cons (.same _) (.cons (.same _) (.cons (.expect _ _ _ _ (.swap ..))
    (.cons (.same _) (.cons (.same _) (.cons (.same _) (.cons (.same _) (.cons (.same _) (.cons (.same _) (.cons (.same _)
      (.cons (.same _) .nil))))))))))))

example : ((World.final (program [0, 1])).2.map (·.2)) = [[.sequenceCreated 0 .lazy], [.sequenceCreated 1 .greedy], [.mockCreated 0],
    [.created 0], [.created 1], [.fullMatch 1], [.fullMatch 1], [.noMatch [1, 0]], [.inapplicable [1, 0]], [.destroyed 0], [], [],
    [.destroyed 1, .sequenceDestroyed 0, .sequenceDestroyed 1]] := by decide +kernel

example : ((World.final (program [1, 0])).2.map (·.2)) = [[.sequenceCreated 0 .lazy], [.sequenceCreated 1 .greedy], [.mockCreated 0],
    [.created 0], [.created 1], [.fullMatch 1], [.fullMatch 1], [.noMatch [1, 0]], [.inapplicable [1, 0]], [.destroyed 0], [], [],
    [.destroyed 1, .sequenceDestroyed 1, .sequenceDestroyed 0]] := by decide +kernel

end Mimic.Reorder
