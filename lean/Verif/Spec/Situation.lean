import Verif.Spec.Trace

/-!
# Specification: what of the past matters

Two histories leave the test in the same situation if the same expectations were declared, are in force and have resolved as many calls each,
and the same mocks and sequences exist. When, in which order and with which arguments the calls were made is not compared.
-/

set_option autoImplicit false

namespace Mimic.Situation

variable {α : Type}

/-- The two histories lead to the same situation. -/
structure Same (tr tr' : Trace α) : Prop where
  declared : ∀ e, tr.decl e = tr'.decl e
  inForce : ∀ e, tr.live e ↔ tr'.live e
  counts : ∀ e, tr.matched e = tr'.matched e
  mocks : ∀ m, Event.mockCreated m ∈ tr.events ↔ Event.mockCreated m ∈ tr'.events
  kinds : ∀ s st, tr.kind s st ↔ tr'.kind s st
  handles : ∀ s, tr.handle s ↔ tr'.handle s

/-- The step is not a call, or a call that an expectation resolved. -/
def effective (st : Op α × List Event) : Bool :=
  match st.1 with
  | .call _ _ => st.2.any (fun ev => match ev with | .fullMatch _ => true | _ => false)
  | _ => true

end Mimic.Situation
