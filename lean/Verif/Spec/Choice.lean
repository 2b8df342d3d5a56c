import Verif.Spec.Language

/-!
# Specification: sequences that find a way whenever there is one
-/

set_option autoImplicit false

namespace Mimic.Choice

open Mimic.Language

variable {α : Type}

/-- There is a call that fits both. -/
def Shared (p q : Part α) : Prop := ∃ c, p.takes c = true ∧ q.takes c = true

/-- `p` has a choice how many calls it takes, and all expectations after it up to `q` can be left out. -/
structure Before (parts : List (Part α)) (p q : Part α) : Prop where
  between : ∃ l mid r, parts = l ++ p :: mid ++ q :: r ∧ ∀ x ∈ mid, x.min = 0
  choice : p.min < p.max

/-- The condition for lazy sequences: no expectation that has a choice shares calls with the next one that insists on calls. -/
def LazySafe (parts : List (Part α)) : Prop := ∀ p q, Before parts p q → 0 < q.min → ¬ Shared p q

/-- The condition for greedy sequences: no expectation that has a choice shares calls with any of those that may come next. -/
def GreedySafe (parts : List (Part α)) : Prop := ∀ p q, Before parts p q → 0 < q.max → ¬ Shared p q

/-- The condition for a sequence of the given kind. -/
def Safe : Strategy → List (Part α) → Prop
  | .lazy, parts => LazySafe parts
  | .greedy, parts => GreedySafe parts

/-- Every test with these expectations passes whenever its calls are a word of the regular expression. -/
def Complete (st : Strategy) (mocks : Nat) (parts : List (Part α)) : Prop :=
  ∀ (calls : List (Nat × α)) (ends : List (Op α)) (w : World α) (evs : List Event), ends.Perm (allEnds parts) →
    runProgram (test st mocks parts calls ends) = .ok (w, evs) → Word parts calls → passes evs

end Mimic.Choice
