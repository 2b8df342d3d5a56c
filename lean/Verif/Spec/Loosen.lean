import Verif.Spec.Trace

/-!
# Specification: leaving out sequences

Expectations are attached to fewer sequences: only to those with `keep s = true`.
-/

set_option autoImplicit false

namespace Mimic.Loosen

variable {α : Type}

/-- The operation with fewer sequences. -/
def op (keep : Nat → Bool) : Op α → Op α
  | .expect m min max tags ps => .expect m min max (tags.filter keep) ps
  | o => o

/-- Something about a sequence. -/
def aboutSequence : Event → Bool
  | .sequenceCreated _ _ => true
  | .sequenceDestroyed _ => true
  | .sequenceError _ _ _ => true
  | _ => false

/-- What a step tells apart from what it tells about sequences. -/
def rest (ev : List Event) : List Event := ev.filter (fun x => !aboutSequence x)

/-- All expectations could be created. -/
def Accepted (tr : Trace α) : Prop := Event.rejected ∉ tr.events

/-- Every call was resolved. -/
def Resolved (tr : Trace α) : Prop := ∀ m a ev, (Op.call m a, ev) ∈ tr → ∃ e, Event.fullMatch e ∈ ev

/-- No call fitted two expectations. -/
def Unambiguous (tr : Trace α) : Prop :=
  ∀ pre m a ev post, tr = pre ++ (Op.call m a, ev) :: post →
    ∀ e e', Trace.accepts pre m a e → Trace.accepts pre m a e' → e = e'

end Mimic.Loosen
