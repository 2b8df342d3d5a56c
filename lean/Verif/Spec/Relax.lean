import Verif.Spec.Language

/-!
# Specification: tests that ask for fewer calls
-/

set_option autoImplicit false

namespace Mimic.Relax

variable {α : Type}

/-- The second operation is the first one, or creates the same expectation with a smaller lower limit. The expectation
belongs to no sequence. -/
inductive Less : Op α → Op α → Prop where
  | same (op : Op α) : Less op op
  | expect (m : Nat) (min min' max : Int) (ps : List (Policy α)) : 0 ≤ min' → min' ≤ min → min ≤ max →
    Less (.expect m min max [] ps) (.expect m min' max [] ps)

/-- The second test is the first one, with any number of smaller lower limits. -/
inductive LessAll : List (Op α) → List (Op α) → Prop where
  | nil : LessAll [] []
  | cons {op op' : Op α} {ops ops' : List (Op α)} : Less op op' → LessAll ops ops' → LessAll (op :: ops) (op' :: ops')

/-- The report is that an expectation was not fulfilled. -/
def isUnfulfilled : Event → Bool
  | .unfulfilled _ => true
  | _ => false

/-- The parts of the second list are those of the first, with smaller lower limits. -/
inductive LessParts : List (Language.Part α) → List (Language.Part α) → Prop where
  | nil : LessParts [] []
  | cons {p : Language.Part α} {min' : Int} {ps ps' : List (Language.Part α)} : 0 ≤ min' → min' ≤ p.min → LessParts ps ps' →
    LessParts (p :: ps) ({ p with min := min' } :: ps')

end Mimic.Relax
