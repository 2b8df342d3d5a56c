import Verif.Spec.Trace

/-!
# Specification: which numbers of calls make a difference
-/

set_option autoImplicit false

namespace Mimic.Steady

variable {α : Type}

/-- The two histories lead to situations that differ at most in the numbers of calls the expectations have resolved, and not in whether these are zero,
below the lower limit or below the upper limit. -/
structure Akin (tr tr' : Trace α) : Prop where
  declared : ∀ e, tr.decl e = tr'.decl e
  inForce : ∀ e, tr.live e ↔ tr'.live e
  mocks : ∀ m, Event.mockCreated m ∈ tr.events ↔ Event.mockCreated m ∈ tr'.events
  kinds : ∀ s st, tr.kind s st ↔ tr'.kind s st
  handles : ∀ s, tr.handle s ↔ tr'.handle s
  unused : ∀ e, tr.matched e = 0 ↔ tr'.matched e = 0
  tooFew : ∀ e, tr.tooFew e ↔ tr'.tooFew e
  room : ∀ e d, tr.decl e = some d → ((tr.matched e : Int) < d.max ↔ (tr'.matched e : Int) < d.max)

/-- Expectation `e` has been used, has all the calls it asks for, and would not be at its upper limit after `k` more calls. -/
def Settled (tr : Trace α) (e k : Nat) : Prop :=
  1 ≤ tr.matched e ∧ ∃ d, tr.decl e = some d ∧ d.min ≤ (tr.matched e : Int) ∧ (tr.matched e : Int) + k < d.max

/-- The two histories lead to situations that differ at most in the numbers of calls of expectations that have been used, have all the calls they ask
for, and do not get to their upper limit in `rest`. -/
structure Enough (tr tr' rest : Trace α) : Prop where
  declared : ∀ e, tr.decl e = tr'.decl e
  inForce : ∀ e, tr.live e ↔ tr'.live e
  mocks : ∀ m, Event.mockCreated m ∈ tr.events ↔ Event.mockCreated m ∈ tr'.events
  kinds : ∀ s st, tr.kind s st ↔ tr'.kind s st
  handles : ∀ s, tr.handle s ↔ tr'.handle s
  counts : ∀ e, tr.matched e = tr'.matched e ∨ Settled tr e (rest.matched e) ∧ Settled tr' e (rest.matched e)

end Mimic.Steady
