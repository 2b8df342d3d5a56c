import Verif.Spec.Whole
import Verif.Spec.Unused

/-!
# Specification: tests without one of their sequences
-/

set_option autoImplicit false

namespace Mimic.Redundant

open Mimic.Unused (down)

variable {α : Type}

/-- What is observed, apart from sequence `t`; the sequences that were created later have a smaller number. -/
def event (t : Nat) : Event → Option Event
  | .sequenceCreated s st => if s = t then none else some (.sequenceCreated (down t s) st)
  | .sequenceDestroyed s => if s = t then none else some (.sequenceDestroyed (down t s))
  | .sequenceError s k n => if s = t then none else some (.sequenceError (down t s) k n)
  | ev => some ev

/-- The operation in a test that lacks sequence `t`; `none` if there is nothing left to do. -/
def op (t : Nat) : Op α → Option (Op α)
  | .dropSequence s => if s = t then none else some (.dropSequence (down t s))
  | .expect m min max ss ps => some (.expect m min max ((ss.filter (· ≠ t)).map (down t)) ps)
  | o => some o

/-- One operation in a test that lacks sequence `t`. -/
def left (t : Nat) (st : Op α × List Event) : Option (Op α × List Event) :=
  if Event.sequenceCreated t .lazy ∈ st.2 ∨ Event.sequenceCreated t .greedy ∈ st.2 then none
  else (op t st.1).map fun o => (o, st.2.filterMap (event t))

/-- The history in which sequence `t` is neither created nor destroyed nor named by any expectation, and everything else is as it was. -/
def without (t : Nat) (tr : Trace α) : Trace α := tr.filterMap (left t)

/-- All expectations of sequence `t` belong to sequence `s`, too. -/
def Repeats (tr : Trace α) (t s : Nat) : Prop := s ≠ t ∧ ∀ e, tr.attached e t → tr.attached e s

/-- No expectation was to be attached to sequence `t` twice (which is rejected). -/
def NamedOnce (tr : Trace α) (t : Nat) : Prop := ∀ m min max ss ps ev, (Op.expect m min max ss ps, ev) ∈ tr → ss.count t ≤ 1

/-- Candidate `x` would give way to the older candidate `y` if there were no sequence `t`. -/
def givesWayWithout (tr : Trace α) (t x y : Nat) : Prop :=
  ∃ d, tr.decl x = some d ∧ (∀ s ∈ d.seqs, s ≠ t → tr.attached y s) ∧
    tr.kindCount (d.seqs.filter (· ≠ t)) .greedy < tr.kindCount (d.seqs.filter (· ≠ t)) .lazy

/-- The choice among candidates if there were no sequence `t` (compare `Trace.Chosen`). -/
inductive ChosenWithout (tr : Trace α) (t : Nat) : Nat → List Nat → Nat → Prop where
  | done (x : Nat) : ChosenWithout tr t x [] x
  | move {x y r : Nat} {ys : List Nat} : givesWayWithout tr t x y → ChosenWithout tr t y ys r → ChosenWithout tr t x (y :: ys) r
  | stay {x y r : Nat} {ys : List Nat} : ¬ givesWayWithout tr t x y → ChosenWithout tr t x ys r → ChosenWithout tr t x (y :: ys) r

/-- `e` could resolve the call `a` of mock `m` if there were no sequence `t` (compare `Trace.candidate`). -/
def candidateWithout (tr : Trace α) (t m : Nat) (a : α) (e : Nat) : Prop :=
  tr.accepts m a e ∧ (∃ d, tr.decl e = some d ∧ (tr.matched e : Int) < d.max) ∧ ∀ s, s ≠ t → tr.attached e s → tr.turn e s

/-- All calls are resolved by the expectations that would be chosen without sequence `t`, and those that are not resolved could not be resolved without
`t` either. -/
def SameChoice (tr : Trace α) (t : Nat) : Prop :=
  ∀ (pre : Trace α) m a ev post, tr = pre ++ (Op.call m a, ev) :: post →
    (∀ x older r, YoungestFirst (candidateWithout pre t m a) (x :: older) → Event.fullMatch r ∈ ev → ChosenWithout pre t x older r) ∧
    ((∀ r, Event.fullMatch r ∉ ev) → ∀ e, ¬ candidateWithout pre t m a e)

/-- Every two expectations of sequence `t` belong to another sequence together, too. -/
def Covered (tr : Trace α) (t : Nat) : Prop :=
  ∀ e e', e ≠ e' → tr.attached e t → tr.attached e' t → ∃ s, s ≠ t ∧ tr.attached e s ∧ tr.attached e' s

/-- In all calls, the same candidates give way to each other with and without sequence `t`. -/
def SameWay (tr : Trace α) (t : Nat) : Prop :=
  ∀ (pre : Trace α) m a ev post, tr = pre ++ (Op.call m a, ev) :: post → ∀ x y, pre.candidate m a x → pre.candidate m a y → y < x →
    (pre.givesWay x y ↔ givesWayWithout pre t x y)

end Mimic.Redundant
