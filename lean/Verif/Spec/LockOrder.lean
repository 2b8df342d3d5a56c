import Verif.Model.LockOrder
import Verif.Spec.Nested

/-!
# Specification: several threads whose matchers call mocks
-/

set_option autoImplicit false

namespace Mimic.Nested

variable {α : Type}

/-- All calls of a thread have returned. -/
def Thread.finished (t : Thread α) : Prop := t.stack = [] ∧ t.todo = []

/-- Matchers only call mocks of lower layers. -/
def Ordered (rank : Nat → Nat) (Asks : Nat → α → List (Ask α) → Prop) : Prop :=
  ∀ m a ps, Asks m a ps → ∀ p ∈ ps, Ask.Below rank (rank m) p

/-- Every call asks some list of matchers (perhaps an empty one). -/
def Answered (Asks : Nat → α → List (Ask α) → Prop) : Prop := ∀ m a, ∃ ps, Asks m a ps

end Mimic.Nested
