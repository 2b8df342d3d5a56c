import Verif.Spec.Trace

/-!
# Specification: tests without one of their expectations
-/

set_option autoImplicit false

namespace Mimic.Unused

variable {α : Type}

/-- The number of expectation `n` if expectation `e` is not there. -/
def down (e n : Nat) : Nat := if e < n then n - 1 else n

/-- The operation in a test that lacks expectation `e`; `none` if there is nothing left to do. -/
def op (e : Nat) : Op α → Option (Op α)
  | .destroy n => if n = e then none else some (.destroy (down e n))
  | .newSequence st => some (.newSequence st)
  | .dropSequence s => some (.dropSequence s)
  | .newMock => some .newMock
  | .expect c min max tags ps => some (.expect c min max tags ps)
  | .call c a => some (.call c a)

/-- What is observed, apart from expectation `e`. -/
def event (e : Nat) : Event → Option Event
  | .created n => if n = e then none else some (.created (down e n))
  | .destroyed n => if n = e then none else some (.destroyed (down e n))
  | .unfulfilled n => if n = e then none else some (.unfulfilled (down e n))
  | .unhandled n => if n = e then none else some (.unhandled (down e n))
  | .fullMatch n => if n = e then none else some (.fullMatch (down e n))
  | .inapplicable ns => some (.inapplicable ((ns.filter (· ≠ e)).map (down e)))
  | .noMatch ns => some (.noMatch ((ns.filter (· ≠ e)).map (down e)))
  | .rejected => some .rejected
  | .mockCreated c => some (.mockCreated c)
  | .sequenceCreated s st => some (.sequenceCreated s st)
  | .sequenceDestroyed s => some (.sequenceDestroyed s)
  | .sequenceError s k n => some (.sequenceError s k n)

/-- The history in which expectation `e` is neither created nor destroyed, and everything else is as it was. -/
def without (e : Nat) (tr : Trace α) : Trace α :=
  tr.filterMap fun st =>
    if Event.created e ∈ st.2 then none
    else (op e st.1).map fun o => (o, st.2.filterMap (event e))

end Mimic.Unused
