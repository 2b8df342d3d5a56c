import Verif.Spec.Trace

/-!
# Specification: when an expectation ends
-/

set_option autoImplicit false

namespace Mimic.Lives

variable {α : Type}

/-- What is compared: not whether expectation `e` throws, and not which expectations are listed when a call is not expected. -/
def blur (e : Nat) : Event → Option Event
  | .unhandled k => if k = e then none else some (.unhandled k)
  | .noMatch _ => some (.noMatch [])
  | .inapplicable _ => some (.noMatch [])
  | ev => some ev

/-- How a call ended. -/
def outcome : Event → Option Event
  | .fullMatch k => some (.fullMatch k)
  | .noMatch _ => some (.noMatch [])
  | .inapplicable _ => some (.noMatch [])
  | _ => none

/-- Two tests report the same, possibly in another order; but the calls end in the same way in the same order. -/
def Agree (e : Nat) (evs evs' : List Event) : Prop :=
  (evs.filterMap (blur e)).Perm (evs'.filterMap (blur e)) ∧ evs.filterMap outcome = evs'.filterMap outcome

/-- Expectation `e`, which was declared as `d`, cannot resolve any of the calls among `ops`: it has resolved as many as it may
before, or none of the calls is accepted by all its requirements. -/
def CannotResolve (tr : Trace α) (e : Nat) (d : Decl α) (ops : List (Op α)) : Prop :=
  d.max ≤ tr.matched e ∨ ∀ a, .call d.mock a ∈ ops → ∃ p ∈ d.policies, p.accepts a ≠ some true

end Mimic.Lives
