import Verif.Spec.Whole
import Verif.Spec.Unused

/-!
# Specification: tests without one of their expectations, with sequences

Like `Spec/Unused.lean`, for expectations that belong to sequences. Such an expectation is also counted when a sequence is reported to be
unfulfilled.
-/

set_option autoImplicit false

namespace Mimic.Bystander

variable {α : Type}

/-- Expectation `n` was attached to sequence `s`. -/
def belongs (tr : Trace α) (s n : Nat) : Bool :=
  match tr.decl n with
  | some d => d.seqs.contains s
  | none => false

def isCreation : Event → Bool
  | .created _ => true
  | _ => false

/-- How many expectations were created. -/
def numbered (tr : Trace α) : Nat := (tr.events.filter isCreation).length

/-- The expectations that were attached to sequence `s`, the oldest first. -/
def members (tr : Trace α) (s : Nat) : List Nat := (List.range (numbered tr)).filter (belongs tr s)

/-- What is observed, apart from expectation `e`. In the report "`k` out of `n` expectations of sequence `s` are satisfied" it is not counted. -/
def event (tr : Trace α) (e : Nat) : Event → Option Event
  | .sequenceError s k _ =>
    some (.sequenceError s (((members tr s).take k).filter (· ≠ e)).length ((members tr s).filter (· ≠ e)).length)
  | ev => Unused.event e ev

/-- One operation in a test that lacks expectation `e`; `tr` is what happened before. -/
def left (e : Nat) (tr : Trace α) (st : Op α × List Event) : List (Op α × List Event) :=
  if Event.created e ∈ st.2 then []
  else ((Unused.op e st.1).map fun o => (o, st.2.filterMap (event tr e))).toList

def leave (e : Nat) : Trace α → Trace α → Trace α
  | _, [] => []
  | tr, st :: rest => left e tr st ++ leave e (tr ++ [st]) rest

/-- The history in which expectation `e` is neither created nor destroyed, and everything else is as it was. -/
def without (e : Nat) (tr : Trace α) : Trace α := leave e [] tr

/-- Whenever expectation `e` could have resolved a call, a younger one could, too, and none of the younger ones gave way to it. -/
def PassedOver (tr : Trace α) (e : Nat) : Prop :=
  ∀ (pre : Trace α) m a ev post, tr = pre ++ (Op.call m a, ev) :: post → pre.candidate m a e →
    (∃ x, e < x ∧ pre.candidate m a x) ∧ ∀ x, e < x → pre.candidate m a x → ¬ pre.givesWay x e

/-- Whenever expectation `e` could have resolved a call, the choice among the other candidates is the same as that which was made. -/
def SameChoice (tr : Trace α) (e : Nat) : Prop :=
  ∀ (pre : Trace α) m a ev post, tr = pre ++ (Op.call m a, ev) :: post → pre.candidate m a e →
    ∃ x older r, YoungestFirst (fun n => n ≠ e ∧ pre.candidate m a n) (x :: older) ∧ pre.Chosen x older r ∧ Event.fullMatch r ∈ ev

/-- Whenever expectation `e` could have resolved a call, all expectations that could were attached to the same sequences. -/
def SameSequences (tr : Trace α) (e : Nat) : Prop :=
  ∀ (pre : Trace α) m a ev post, tr = pre ++ (Op.call m a, ev) :: post → pre.candidate m a e →
    ∀ x, pre.candidate m a x → ∀ s, pre.attached x s ↔ pre.attached e s

/-- Expectation `e` was never the only one to keep a sequence in existence. -/
def NeverAlone (tr : Trace α) (e : Nat) : Prop :=
  ∀ (pre post : Trace α), tr = pre ++ post → pre.live e → ∀ s, pre.attached e s → pre.handle s ∨ ∃ e', e' ≠ e ∧ pre.live e' ∧ pre.attached e' s

/-- No call was rejected as inapplicable because of expectation `e` alone. -/
def NotAloneInapplicable (tr : Trace α) (e : Nat) : Prop := ∀ ns, Event.inapplicable ns ∈ tr.events → ∃ n ∈ ns, n ≠ e

end Mimic.Bystander
