import Verif.Model.Memory
import Verif.Spec.Trace

/-!
# Specification vocabulary: programs that run out of memory

Everything here is a function of the observable history, i.e. of the operations of the client, where memory ran out, and
how they ended.
-/

set_option autoImplicit false

namespace Mimic.Memory

variable {α : Type}

/-- What an operation let the client observe. -/
def End.observed : End → List Event
  | .done ev => ev
  | .threw ev => ev
  | .failed _ => []

/-- All observations of a history, oldest first. -/
def events (tr : MTrace α) : List Event := tr.flatMap (·.2.observed)

/-- How many calls expectation `e` has resolved. -/
def matched (tr : MTrace α) (e : Nat) : Nat := (events tr).count (.fullMatch e)

/-- What expectation number `e` was created with. -/
def declOf (tr : MTrace α) (e : Nat) : Option (Decl α) :=
  tr.findSome? (fun st =>
    match st with
    | (.expect mock min max seqs policies _, .done ev) =>
      if Event.created e ∈ ev then some { mock, min, max, seqs, policies } else none
    | _ => none)

/-- What attempt number `e` to create an expectation, which failed, asked for. -/
def failedOf (tr : MTrace α) (e : Nat) : Option (Decl α) :=
  tr.findSome? (fun st =>
    match st with
    | (.expect mock min max seqs policies _, .failed e') =>
      if e' = e then some { mock, min, max, seqs, policies } else none
    | _ => none)

/-- Expectation `e` exists and has not gone out of scope. -/
def live (tr : MTrace α) (e : Nat) : Prop := (∃ d, declOf tr e = some d) ∧ Event.destroyed e ∉ events tr

/-- Every policy of a living expectation `e` of mock `m` accepts the call `a`, if there is memory enough to ask it. -/
def accepts (tr : MTrace α) (m : Nat) (a : α) (e : Nat) : Prop :=
  live tr e ∧ ∃ d, declOf tr e = some d ∧ d.mock = m ∧ ∀ p ∈ d.policies, p.accepts a = some true

/-- Some policy of a living expectation `e` of mock `m` throws when it looks at the call `a`, whatever the memory. -/
def throws (tr : MTrace α) (m : Nat) (a : α) (e : Nat) : Prop :=
  live tr e ∧ ∃ d, declOf tr e = some d ∧ d.mock = m ∧ ∃ p ∈ d.policies, p.accepts a = none

/-! ### A history in which memory is no concern

The calls of that history carry, besides what the policies look at, the set of the expectations that cannot be asked
because memory runs out; expectation `e` has a further policy in front that throws if it is one of them. -/

/-- What a call is in a history without memory. -/
abbrev Starved (α : Type) := α × (Nat → Bool)

/-- A policy of the client does not look at the memory. -/
def lift (p : Policy α) : Policy (Starved α) :=
  { accepts := fun x => p.accepts x.1, isSatisfied := p.isSatisfied, description := p.description }

/-- The further policy of expectation `e`: it throws if memory runs out while `e` is asked, and accepts otherwise. -/
def guard (e : Nat) : Policy (Starved α) := { accepts := fun x => if x.2 e then none else some true }

/-- The number an expectation gets. -/
def number : List Event → Nat
  | [.created e] => e
  | _ => 0

/-- Calls that ended with `std::bad_alloc`, and failed creations of sequences and mocks, are left out. The failed creation
of an expectation is one that succeeds, followed by its destruction. An expectation whose destruction ended with
`std::bad_alloc` has been destroyed and reported. -/
def asIfStep : MOp α × End → Trace (Starved α)
  | (.newSequence st _, .done ev) => [(.newSequence st, ev)]
  | (.dropSequence s _, .done ev) => [(.dropSequence s, ev)]
  | (.newMock _, .done ev) => [(.newMock, ev)]
  | (.expect m min max ss ps _, .done ev) => [(.expect m min max ss (guard (number ev) :: ps.map lift), ev)]
  | (.expect m min max ss ps _, .failed e) =>
    [(.expect m min max ss (guard e :: ps.map lift), [.created e]),
     (.destroy e, .destroyed e :: if min ≤ 0 ∧ ps.all (·.isSatisfied) then [] else [.unfulfilled e])]
  | (.call m a p, .done ev) => [(.call m (a, p.asking), ev)]
  | (.destroy e _, .done ev) => [(.destroy e, ev)]
  | (.destroy e _, .threw ev) => [(.destroy e, .destroyed e :: .unfulfilled e :: ev.tail)]
  | _ => []

/-- The history without memory. -/
def asIf (tr : MTrace α) : Trace (Starved α) := tr.flatMap asIfStep

/-- The operation, whatever memory does. -/
def request : MOp α → Op (Starved α)
  | .newSequence st _ => .newSequence st
  | .dropSequence s _ => .dropSequence s
  | .newMock _ => .newMock
  | .expect m min max ss ps _ => .expect m min max ss (ps.map lift)
  | .call m a p => .call m (a, p.asking)
  | .destroy e _ => .destroy e

/-- The operation with memory enough. -/
def plenty : Op α → MOp α
  | .newSequence st => .newSequence st false
  | .dropSequence s => .dropSequence s ⟨false, false⟩
  | .newMock => .newMock false
  | .expect m min max ss ps => .expect m min max ss ps ⟨false, false, false⟩
  | .call m a => .call m a .good
  | .destroy e => .destroy e ⟨false, false⟩

end Mimic.Memory
