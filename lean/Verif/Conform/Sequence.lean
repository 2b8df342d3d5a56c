import Verif.Model.Control

/-!
# The repository's own tests of sequences, carried out by the model

Transcribes the test cases of `/repo/test/unit-tests/Sequence.cpp`. These are tests of the model, not claims about the code: where
the repository says what its code does, the model does the same. `GENERATE` becomes a quantifier over the list of alternatives.
-/

set_option autoImplicit false

namespace Mimic.Conform

/-- The value of a computation that neither fails nor throws. -/
def value {β : Type} : M β → Option β
  | .ok b => some b
  | .error _ => none

/-- `sequence->is_consumable(id)` and whether `sequence->priority_of(id)` has a value. -/
def consumable (s : M Sequence) (id : Int) : Option (Bool × Bool) :=
  value do
    let q ← s
    return (← q.isConsumable id, (← q.priorityOf id).isSome)

/-- `sequence.reset()`, and what is reported. -/
def reset (s : M Sequence) : Option (Option (Nat × Nat)) :=
  value do (← s).destruct

/-- A sequence with `n` entries. -/
def sequenceOf (st : Strategy) : Nat → M Sequence
  | 0 => .ok (Sequence.new st)
  | n + 1 => do
    match (← sequenceOf st n).add with
    | some (q, _) => return q
    | none => .error (.terminate "add")

abbrev Action := Sequence → Int → M Sequence

/-- `consumeStateActions` (97-101). -/
def consumeActions : List Action := [fun s _ => .ok s, Sequence.consume]

/-- `alterStateActions` (147-152). -/
def alterActions : List Action := [fun s _ => .ok s, Sequence.setSatisfied, Sequence.setSaturated]

def strategies : List Strategy := [.lazy, .greedy]

/-- 91-94: zero elements. -/
example : ∀ st ∈ strategies, reset (sequenceOf st 0) = some none := by decide

/-- 103-142: one element. -/
example : ∀ st ∈ strategies, consumable (sequenceOf st 1) 0 = some (true, true) := by decide

example : ∀ st ∈ strategies, ∀ act ∈ consumeActions,
    reset (do act (← sequenceOf st 1) 0) = some (some (0, 1)) := by decide

example : ∀ st ∈ strategies, ∀ act ∈ consumeActions,
    let s := do (← act (← sequenceOf st 1) 0).setSatisfied 0
    consumable s 0 = some (true, true) ∧ reset s = some none := by decide

example : ∀ st ∈ strategies, ∀ act ∈ consumeActions,
    let s := do (← act (← sequenceOf st 1) 0).setSaturated 0
    consumable s 0 = some (false, false) ∧ reset s = some none := by decide

/-- 160-186: in the initial state, only the first of three is consumable. -/
example : ∀ st ∈ strategies, ∀ a₁ ∈ alterActions, ∀ a₂ ∈ alterActions,
    let s₀ := sequenceOf st 3
    let s₁ := do a₁ (← s₀) 1
    let s₂ := do a₂ (← s₁) 2
    consumable s₀ 0 = some (true, true) ∧ consumable s₁ 1 = some (false, false) ∧ consumable s₂ 2 = some (false, false) ∧
      reset (do (← s₂).consume 0) = some (some (0, 3)) := by decide

/-- 188-230: if the first is satisfied or saturated, the second becomes consumable. -/
example : ∀ st ∈ strategies, ∀ c ∈ consumeActions, ∀ a ∈ alterActions,
    let s₁ := do (← c (← sequenceOf st 3) 0).setSatisfied 0
    let s₂ := do a (← s₁) 2
    consumable s₁ 0 = some (true, true) ∧ consumable s₁ 1 = some (true, true) ∧ consumable s₂ 2 = some (false, false) ∧
      reset s₂ = some (some (1, 3)) := by decide

example : ∀ st ∈ strategies, ∀ c ∈ consumeActions, ∀ a ∈ alterActions,
    let s₁ := do (← c (← sequenceOf st 3) 0).setSaturated 0
    let s₂ := do a (← s₁) 2
    consumable s₁ 0 = some (false, false) ∧ consumable s₁ 1 = some (true, true) ∧ consumable s₂ 2 = some (false, false) ∧
      reset s₂ = some (some (1, 3)) := by decide

/-- 232-268: if first and second are satisfied or saturated, the last one becomes consumable. -/
example : ∀ st ∈ strategies, ∀ a₀ ∈ alterActions.drop 1, ∀ a₁ ∈ alterActions.drop 1, ∀ a₂ ∈ alterActions.drop 1,
    let s₁ := do a₁ (← a₀ (← sequenceOf st 3) 0) 1
    let s₂ := do (← s₁).consume 2
    consumable s₁ 2 = some (true, true) ∧ reset s₂ = some (some (2, 3)) ∧ reset (do a₂ (← s₂) 2) = some none := by decide

/-- 285-300: `LazyStrategy`. -/
example : ∀ t ∈ [(intMax, 0, 0), (intMax, 1, 1), (intMax - 1, 1, 0), (intMax - 2, 2, 0), (intMax - 1, 2, 1)],
    value (Strategy.lazy.priority t.2.1 t.2.2) = some t.1 := by decide

/-- 302-317: `GreedyStrategy`. -/
example : ∀ t ∈ [((0 : Int), (0 : Int), (0 : Int)), (0, 1, 1), (1, 1, 0), (2, 2, 0), (1, 2, 1)],
    value (Strategy.greedy.priority t.2.1 t.2.2) = some t.1 := by decide

/-- 319-438: `has_better_rating`. -/
example : hasBetterRating [] [] ∧ hasBetterRating [] [⟨intMax, 1⟩] ∧ hasBetterRating [] [⟨intMax, 1⟩, ⟨0, 2⟩] := by decide

example : hasBetterRating [⟨42, 2⟩] [] ∧ hasBetterRating [⟨42, 2⟩] [⟨42, 2⟩] ∧
    hasBetterRating [⟨42, 2⟩] [⟨41, 2⟩] ∧ ¬ hasBetterRating [⟨41, 2⟩] [⟨42, 2⟩] ∧
    ¬ hasBetterRating [⟨42, 2⟩] [⟨43, 2⟩] ∧ hasBetterRating [⟨43, 2⟩] [⟨42, 2⟩] ∧
    ¬ hasBetterRating [⟨42, 2⟩] [⟨intMax, 1⟩, ⟨43, 2⟩] := by decide

example :
    let lhs : List Rating := [⟨42, 2⟩, ⟨1337, 1⟩]
    (∀ rhs ∈ [lhs, [⟨43, 2⟩, ⟨1337, 1⟩], [⟨42, 2⟩, ⟨1338, 1⟩]], hasBetterRating lhs rhs ∧ hasBetterRating rhs lhs) ∧
    (∀ rhs ∈ ([[⟨43, 2⟩, ⟨1338, 1⟩], [⟨43, 2⟩, ⟨0, 3⟩, ⟨1338, 1⟩]] : List (List Rating)),
      ¬ hasBetterRating lhs rhs ∧ hasBetterRating rhs lhs) := by decide

example :
    let lhs : List Rating := [⟨42, 2⟩, ⟨25, 3⟩, ⟨1337, 1⟩]
    hasBetterRating lhs [] ∧
    (∀ rhs ∈ ([[⟨1338, 1⟩], [⟨1338, 1⟩, ⟨43, 2⟩]] : List (List Rating)), hasBetterRating lhs rhs ∧ hasBetterRating rhs lhs) ∧
    (∀ rhs ∈ ([[⟨1338, 1⟩, ⟨43, 2⟩, ⟨26, 3⟩], [⟨1336, 1⟩, ⟨43, 2⟩, ⟨26, 3⟩]] : List (List Rating)),
      ¬ hasBetterRating lhs rhs ∧ hasBetterRating rhs lhs) ∧
    (hasBetterRating lhs [⟨1336, 1⟩, ⟨43, 2⟩, ⟨24, 3⟩] ∧ ¬ hasBetterRating [⟨1336, 1⟩, ⟨43, 2⟩, ⟨24, 3⟩] lhs) := by decide

/-- 440-495: `in_sequence`, `in_sequences`. -/
example : seqConfig [0] = some [0] ∧ seqConfig [0, 0] = none ∧ seqConfig [0, 1, 0] = none ∧ seqConfig [0, 1] = some [0, 1] ∧
    seqConfig [0, 2, 1] = some [0, 2, 1] := by decide

/-- 497-542: `concat`. -/
example : seqConfigConcat [] [] = some [] ∧ seqConfigConcat [] [0] = some [0] ∧ seqConfigConcat [0] [1] = some [0, 1] ∧
    seqConfigConcat [0, 1] [0] = none ∧ seqConfigConcat [0, 1] [1] = none ∧ seqConfigConcat [0, 1] [2] = some [0, 1, 2] := by decide

end Mimic.Conform
