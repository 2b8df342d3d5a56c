import Verif.Model.Scoped
import Verif.Spec.Trace

/-!
# Specification vocabulary for scoped expectations and reporters
-/

set_option autoImplicit false

namespace Mimic

variable {α : Type}

/-- The rules that the documentation of `IReporter` (Reporter.hpp 55-158) gives for reporters. -/
structure Reporter.Lawful (R : Reporter) : Prop where
  noMatches : ∀ n, (R .noMatches n).throws = true
  inapplicableMatches : ∀ n, (R .inapplicableMatches n).throws = true
  fullMatch : ∀ n, (R .fullMatch n).throws = false
  unhandledException : ∀ n, (R .unhandledException n).throws = false
  unfulfilledExpectation : ∀ n, (R .unfulfilledExpectation n).throws = true ↔ n = 0
  error : ∀ n, (R .error n).throws = true ↔ n = 0

/-- What the library did, as a history of the underlying operations. -/
def STrace.flat (tr : STrace α) : Trace α := tr.flatMap (·.log.lib)

/-- The operation hands over what `s` owned to `o`. -/
def SEntry.movesTo (st : SEntry α) (s o : Nat) : Prop :=
  (st.op = .moveConstruct s ∧ st.log.slot = some o) ∨ st.op = .moveAssign o s

/-- The operation takes away what `o` owned: it is destroyed, moved from or assigned over. -/
def SEntry.leaves (st : SEntry α) (o : Nat) : Prop :=
  st.op = .drop o ∨ st.op = .moveConstruct o ∨ (∃ d, d ≠ o ∧ st.op = .moveAssign d o) ∨ ∃ s, s ≠ o ∧ st.op = .moveAssign o s

/-- The operation created `o` together with expectation `e`. -/
def SEntry.creates (st : SEntry α) (o e : Nat) : Prop :=
  st.log.slot = some o ∧ Event.created e ∈ Trace.events st.log.lib

/-- Who owns which expectation; newest operation first. -/
def OwnsRev : List (SEntry α) → Nat → Nat → Prop
  | [], _, _ => False
  | st :: past, o, e =>
    st.creates o e ∨ (∃ s, st.movesTo s o ∧ OwnsRev past s e) ∨ (OwnsRev past o e ∧ ¬ st.leaves o)

/-- After history `tr` the object `o` owns expectation `e`. -/
def STrace.owns (tr : STrace α) (o e : Nat) : Prop := OwnsRev tr.reverse o e

/-- Object `o` is there. -/
def STrace.exists (tr : STrace α) (o : Nat) : Prop :=
  (∃ st ∈ tr, st.log.slot = some o) ∧ ∀ st ∈ tr, st.op ≠ .drop o

/-- Expectation `e` would be reported as unfulfilled if it ended now. -/
def Trace.unmet (tr : Trace α) (e : Nat) : Prop :=
  ∃ d, tr.decl e = some d ∧ ((tr.matched e : Int) < d.min ∨ ∃ p ∈ d.policies, p.isSatisfied = false)

/-- Some sequence reported an error. -/
def sequenceErrorIn (ev : List Event) : Prop := ∃ s k n, Event.sequenceError s k n ∈ ev

end Mimic
