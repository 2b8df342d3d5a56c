import Verif.Spec.Several

/-!
# Specification: what is still to be done

What a test that has not ended yet still lacks, in terms of its history so far.
-/

set_option autoImplicit false

namespace Mimic.Ahead

variable {α : Type}

/-- Expectation `e` is in force and has resolved fewer calls than it asks for. -/
def Wants (tr : Trace α) (e : Nat) : Prop := tr.live e ∧ tr.tooFew e

/-- How many calls expectation `e` lacks. -/
def missing (tr : Trace α) (e : Nat) : Nat :=
  match tr.decl e with
  | some d => (d.min - tr.matched e).toNat
  | none => 0

/-- There is a call that all requirements of expectation `e` accept. -/
def Possible (tr : Trace α) (e : Nat) : Prop :=
  ∃ (d : Decl α) (a : α), tr.decl e = some d ∧ ∀ p ∈ d.policies, p.accepts a = some true

/-- There is a call that fits expectation `e` and no other one in force. -/
def Own (tr : Trace α) (e : Nat) : Prop :=
  ∃ (m : Nat) (a : α), tr.accepts m a e ∧ ∀ e', tr.accepts m a e' → e' = e

/-- The operation is a call. -/
def isCall : Op α → Bool
  | .call _ _ => true
  | _ => false

/-- The operation ends an expectation or a sequence. -/
def isEnd : Op α → Bool
  | .destroy _ => true
  | .dropSequence _ => true
  | _ => false

/-- The test is brought to its end: there are some more calls, and then all expectations and sequences end. -/
structure Finishes (tr calls ends : Trace α) : Prop where
  onlyCalls : ∀ st ∈ calls, isCall st.1 = true
  onlyEnds : ∀ st ∈ ends, isEnd st.1 = true
  possible : ∃ w, Reach (tr ++ calls ++ ends) w
  expectations : ∀ e, ¬ Trace.live (tr ++ calls ++ ends) e
  sequences : ∀ s, ¬ Trace.handle (tr ++ calls ++ ends) s

end Mimic.Ahead
