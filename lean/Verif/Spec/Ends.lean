import Verif.Spec.History

/-!
# Specification: ends of expectations and sequences
-/

set_option autoImplicit false

namespace Mimic.Finish

variable {α : Type}

/-- The operation ends an expectation, or the client's sequence object. -/
def ends : Op α → Bool
  | .destroy _ => true
  | .dropSequence _ => true
  | _ => false

end Mimic.Finish
