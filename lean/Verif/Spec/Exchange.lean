import Verif.Spec.Trace

/-!
# Specification: sequences that are used again

A part of a test uses other sequences than it did: wherever it used sequence `t`, it now uses sequence `f t`.
-/

set_option autoImplicit false

namespace Mimic.Exchange

variable {α : Type}

/-- Sequence `t` has nothing left to do: every expectation that was attached to it has ended and had resolved enough calls. -/
def Settled (tr : Trace α) (t : Nat) : Prop :=
  tr.handle t ∧ ∀ e, tr.attached e t → Event.destroyed e ∈ tr.events ∧ ¬ tr.tooFew e

/-- `f` exchanges sequences that have nothing left to do (new ones, for instance) for others of the same kind. -/
structure Exchanges (tr : Trace α) (f : Nat → Nat) : Prop where
  injective : ∀ t u, f t = f u → t = u
  settled : ∀ t, f t ≠ t → Settled tr t
  kinds : ∀ t st, f t ≠ t → (tr.kind t st ↔ tr.kind (f t) st)

/-- `p t` expectations have been attached to sequence `t` so far. -/
def Counts (tr : Trace α) (p : Nat → Nat) : Prop :=
  ∀ t, ∃ es, OldestFirst (fun e => tr.attached e t) es ∧ es.length = p t

/-- The operation with the other sequences. -/
def op (f : Nat → Nat) : Op α → Op α
  | .dropSequence s => .dropSequence (f s)
  | .expect m min max tags ps => .expect m min max (tags.map f) ps
  | o => o

/-- What is observed then. When a sequence ends unfulfilled, the text of the error counts what was attached to it before, too. -/
def event (f p : Nat → Nat) : Event → Event
  | .sequenceCreated s st => .sequenceCreated (f s) st
  | .sequenceDestroyed s => .sequenceDestroyed (f s)
  | .sequenceError s k n => .sequenceError (f s) (k + p (f s) - p s) (n + p (f s) - p s)
  | ev => ev

/-- Something about a sequence. -/
def aboutSequence : Event → Bool
  | .sequenceCreated _ _ => true
  | .sequenceDestroyed _ => true
  | .sequenceError _ _ _ => true
  | _ => false

/-- Two sequences change places. -/
def swap (s q : Nat) (t : Nat) : Nat := if t = s then q else if t = q then s else t

end Mimic.Exchange
