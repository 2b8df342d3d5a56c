import Verif.Spec.Own
import Verif.Spec.Touch
import Verif.Spec.Nested

/-!
# Specification: special kinds of requirements and the plain ones

`Model/Own.lean`, `Model/Touch.lean` and `Model/Nested.lean` treat requirements that keep a state, change the arguments or call mocks.
Here are the histories of `Model/World.lean` that correspond to theirs if the requirements do nothing of that kind.
-/

set_option autoImplicit false

namespace Mimic.Own

variable {σ α ρ : Type}

/-- A policy that keeps no state, as one of `Model/World.lean`. -/
def Policy.lower (p : Policy σ α) : Mimic.Policy α := { accepts := p.accepts p.state }

/-- An operation in terms of `Model/World.lean`; there is none for `is_satisfied`. -/
def OOp.lower : OOp σ α ρ → Option (Op α)
  | .newSequence st => some (.newSequence st)
  | .dropSequence q => some (.dropSequence q)
  | .newMock => some .newMock
  | .expect m min max tags inner => some (.expect m min max tags (inner.policies.map Policy.lower))
  | .call m a => some (.call m a)
  | .ask _ => none
  | .destroy e => some (.destroy e)

def OTrace.lower (th : OTrace σ α ρ) : Trace α := th.filterMap (fun st => st.1.lower.map (fun op => (op, st.2.events)))

/-- All policies are like those of the library. -/
def OTrace.plain (th : OTrace σ α ρ) : Prop :=
  ∀ m min max tags inner c, (OOp.expect m min max tags inner, c) ∈ th → ∀ p ∈ inner.policies, Plain p

end Mimic.Own

namespace Mimic.Touch

variable {α : Type}

/-- A matcher that does not change its target, as a policy of `Model/World.lean`. -/
def Matcher.lower (p : Matcher α) : Policy α := { accepts := fun a => (p a).2 }

def TOp.lower : TOp α → Op α
  | .newSequence st => .newSequence st
  | .dropSequence q => .dropSequence q
  | .newMock => .newMock
  | .expect m min max tags asks => .expect m min max tags (asks.map Matcher.lower)
  | .call m a => .call m a
  | .destroy e => .destroy e

def TTrace.lower (th : TTrace α) : Trace α := th.map (fun st => (st.1.lower, st.2.events))

/-- All matchers obey the documentation. -/
def TTrace.gentle (th : TTrace α) : Prop := ∀ m min max tags asks c, (TOp.expect m min max tags asks, c) ∈ th → ∀ p ∈ asks, Gentle p

end Mimic.Touch

namespace Mimic.Nested

variable {α : Type}

/-- What a matcher says that makes no calls. -/
def Ask.said : Ask α → Option Bool
  | .answer b => some b
  | .throws => none
  | .call .. => none

/-- The matcher makes no calls. -/
def Quiet (p : α → Ask α) : Prop := ∀ a m a' next, p a ≠ .call m a' next

/-- A matcher that makes no calls, as a policy of `Model/World.lean`. -/
def lower (p : α → Ask α) : Policy α := { accepts := fun a => (p a).said }

def NOp.lower : NOp α → Op α
  | .newSequence st => .newSequence st
  | .dropSequence q => .dropSequence q
  | .newMock => .newMock
  | .expect m min max tags asks => .expect m min max tags (asks.map Nested.lower)
  | .call m a => .call m a
  | .destroy e => .destroy e

def NTrace.lower (nh : NTrace α) : Trace α := nh.map (fun st => (st.1.lower, st.2.events))

/-- No matcher makes calls. -/
def NTrace.quiet (nh : NTrace α) : Prop := ∀ m min max tags asks tr, (NOp.expect m min max tags asks, tr) ∈ nh → ∀ p ∈ asks, Quiet p

end Mimic.Nested
