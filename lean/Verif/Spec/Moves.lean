import Verif.Spec.Language

/-!
# Specification: declarations at other places of a test
-/

set_option autoImplicit false

namespace Mimic.Moves

variable {α : Type}

/-- An expectation for mock `m` with the requirements `ps` has nothing to do with the operation: it is no call of that mock, or
no requirement throws and at least one rejects the call. Declarations are excluded. -/
def Ignores (m : Nat) (ps : List (Policy α)) : Op α → Prop
  | .call m' a => m' ≠ m ∨ ((∃ p ∈ ps, p.accepts a = some false) ∧ ∀ p ∈ ps, p.accepts a ≠ none)
  | .expect .. => False
  | _ => True

/-- A report without expectation `e` in the list of those that do not match. -/
def hide (e : Nat) : Event → Event
  | .noMatch ks => .noMatch (ks.filter (· ≠ e))
  | ev => ev

/-- The numbers of two expectations that are declared one right after the other, if they are declared in the other order. -/
def swap (e k : Nat) : Nat := if k = e then e + 1 else if k = e + 1 then e else k

/-- Lists of expectations stay in order of their age. -/
def swapAll (e : Nat) (ks : List Nat) : List Nat := if e ∈ ks ∧ e + 1 ∈ ks then ks else ks.map (swap e)

/-- A report of the test with the other order. -/
def report (e : Nat) : Event → Event
  | .created k => .created (swap e k)
  | .destroyed k => .destroyed (swap e k)
  | .unhandled k => .unhandled (swap e k)
  | .unfulfilled k => .unfulfilled (swap e k)
  | .fullMatch k => .fullMatch (swap e k)
  | .noMatch ks => .noMatch (swapAll e ks)
  | .inapplicable ks => .inapplicable (swapAll e ks)
  | ev => ev

/-- An operation of the test with the other order. -/
def turn (e : Nat) : Op α → Op α
  | .destroy k => .destroy (swap e k)
  | op => op

/-- No call can be meant for both expectations: they belong to different mocks, or no arguments are accepted by both. -/
def Apart (m m' : Nat) (ps ps' : List (Policy α)) : Prop :=
  m ≠ m' ∨ ∀ a, ¬ ((∀ p ∈ ps, p.accepts a = some true) ∧ ∀ p ∈ ps', p.accepts a = some true)

end Mimic.Moves
