import Verif.Spec.Language

/-!
# Specification: one expectation instead of two

Two expectations with the numbers `e` and `e + 1` are replaced by one with the number `e`, so that the numbers of younger
expectations are smaller by one.
-/

set_option autoImplicit false

namespace Mimic.Merge

variable {α : Type}

/-- The number of an expectation after the replacement. -/
def renumber (e k : Nat) : Nat := if k ≤ e then k else k - 1

/-- The rest of the two tests: they do the same, but where the first one ends both expectations, one right after the other, the
second ends the one that replaces them. -/
inductive Rest (e : Nat) : List (Op α) → List (Op α) → Prop where
  | nil : Rest e [] []
  | same {op : Op α} {ops ops' : List (Op α)} : (∀ k, op ≠ .destroy k) → Rest e ops ops' → Rest e (op :: ops) (op :: ops')
  | other {k : Nat} {ops ops' : List (Op α)} : k ≠ e → k ≠ e + 1 → Rest e ops ops' →
    Rest e (.destroy k :: ops) (.destroy (renumber e k) :: ops')
  | older {ops ops' : List (Op α)} : Rest e ops ops' → Rest e (.destroy e :: .destroy (e + 1) :: ops) (.destroy e :: ops')
  | younger {ops ops' : List (Op α)} : Rest e ops ops' → Rest e (.destroy (e + 1) :: .destroy e :: ops) (.destroy e :: ops')

/-- The numbers in a list of expectations. Expectation `e + 1` is left out. -/
def renumberAll (e : Nat) (ks : List Nat) : List Nat := (ks.filter (· ≠ e + 1)).map (renumber e)

/-- The report of the second test that corresponds to a report of the first. What is reported twice in the first is reported
once in the second. Whether the two expectations and the one that replaces them are unfulfilled, and the positions in reports
about sequences, are not compared here. -/
def report (e : Nat) : Event → Option Event
  | .created k => if k = e + 1 then none else some (.created (renumber e k))
  | .destroyed k => if k = e + 1 then none else some (.destroyed (renumber e k))
  | .unhandled k => if k = e + 1 then none else some (.unhandled (renumber e k))
  | .unfulfilled k => if k = e ∨ k = e + 1 then none else some (.unfulfilled (renumber e k))
  | .fullMatch k => some (.fullMatch (renumber e k))
  | .noMatch ks => some (.noMatch (renumberAll e ks))
  | .inapplicable ks => some (.inapplicable (renumberAll e ks))
  | .sequenceError s _ _ => some (.sequenceError s 0 0)
  | ev => some ev

/-- The same for the reports of the second test. -/
def merged (e : Nat) : Event → Option Event
  | .unfulfilled k => if k = e then none else some (.unfulfilled k)
  | .sequenceError s _ _ => some (.sequenceError s 0 0)
  | ev => some ev

/-- The number of expectations that were created. -/
def creations (evs : List Event) : Nat := evs.countP fun ev => match ev with | .created _ => true | _ => false

/-- The reports correspond, and the expectation that replaces the two is reported as unfulfilled iff one of the two is. -/
def Corr (e : Nat) (evs evs' : List Event) : Prop :=
  evs.filterMap (report e) = evs'.filterMap (merged e) ∧
  (.unfulfilled e ∈ evs' ↔ .unfulfilled e ∈ evs ∨ .unfulfilled (e + 1) ∈ evs)

end Mimic.Merge
