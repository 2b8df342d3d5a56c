import Verif.Model.Descriptions
import Verif.Spec.Trace

/-!
# Specification vocabulary for descriptions that throw
-/

set_option autoImplicit false

namespace Mimic

variable {α : Type}

/-- The history without descriptions. -/
def DTrace.base (tr : DTrace α) : Trace α := tr.map (fun t => (t.1.base, t.2.ev))

/-- Expectation `e` was created with the policies `ps`. -/
def DTrace.created (tr : DTrace α) (e : Nat) (ps : List (DPolicy α)) : Prop :=
  ∃ c min max tags l, (DOp.expect c min max tags ps, l) ∈ tr ∧ Event.created e ∈ l.ev

/-- Expectation `e` has a policy whose description throws. -/
def DTrace.broken (tr : DTrace α) (e : Nat) : Prop := ∃ ps, tr.created e ps ∧ ∃ p ∈ ps, p.describe = none

/-- Texts in which all braces are doubled. -/
inductive Escaped : List Char → Prop where
  | nil : Escaped []
  | char {c : Char} {l : List Char} : c ≠ '{' → c ≠ '}' → Escaped l → Escaped (c :: l)
  | opened {l : List Char} : Escaped l → Escaped ('{' :: '{' :: l)
  | closed {l : List Char} : Escaped l → Escaped ('}' :: '}' :: l)

end Mimic
