import Verif.Spec.Unused

/-!
# Specification: what a test reports, apart from how

Used to compare a test with the test without one of its forbidding expectations (`expect::never()`).
-/

set_option autoImplicit false

namespace Mimic.Forbid

variable {α : Type}

/-- What an event means for the test: which expectation resolved a call, that a call was not resolved (whatever the report says about
the reasons), which expectation was unfulfilled. The ends of sequences are left out. -/
def verdict : Event → Option Event
  | .inapplicable _ => some (.noMatch [])
  | .noMatch _ => some (.noMatch [])
  | .sequenceError _ _ _ => none
  | .sequenceDestroyed _ => none
  | x => some x

/-- The operations with their verdicts. -/
def verdicts (tr : Trace α) : List (Op α × List Event) := tr.map (fun st => (st.1, st.2.filterMap verdict))

end Mimic.Forbid
