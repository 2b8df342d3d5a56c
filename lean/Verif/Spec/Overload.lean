import Verif.Model.Signature

/-!
# Which signatures may be overloads of each other (C++ rule)

[over.load] of the C++ standard: member functions with the same parameter-type-list can be overloaded only if they
differ in cv-qualification or ref-qualification, and not if some, but not all of them have a ref-qualifier.
-/

set_option autoImplicit false

namespace Mimic

variable {τ : Type}

/-- The signature has a ref-qualifier. -/
def Sig.refQualified (f : Sig τ) : Prop := f.ref ≠ .none

/-- `f` and `g` can be overloads of each other. -/
def Overloadable (f g : Sig τ) : Prop :=
  f.params ≠ g.params ∨ ((f.refQualified ↔ g.refQualified) ∧ (f.isConst ≠ g.isConst ∨ f.ref ≠ g.ref))

end Mimic
