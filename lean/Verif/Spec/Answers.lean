import Verif.Model.World

/-!
# Specification: tests with other matchers, arguments and mocks
-/

set_option autoImplicit false

namespace Mimic.Answers

variable {α β : Type}

/-- What an expectation for mock `m` with the requirements `ps` says about a call `c` (a mock and arguments): yes if it is a call of
that mock and all requirements accept the arguments, nothing if one of them throws, and no otherwise. -/
def answer (m : Nat) (ps : List (Policy α)) (c : Nat × α) : Option Bool :=
  if c.1 = m then
    if ps.any (fun p => p.accepts c.2 == none) then none else some (ps.all fun p => p.accepts c.2 == some true)
  else some false

/-- Two expectations, one for calls of the first test, one for those of the second, say the same about calls that are related by `R`,
and their requirements say the same about the end of their lives. -/
def Alike (R : Nat × α → Nat × β → Prop) (m : Nat) (ps : List (Policy α)) (m' : Nat) (ps' : List (Policy β)) : Prop :=
  (∀ c d, R c d → answer m ps c = answer m' ps' d) ∧ ps.all (·.isSatisfied) = ps'.all (·.isSatisfied)

/-- Operations of the two tests that correspond to each other. `strict`: the mocks have the same numbers in both tests. -/
inductive SameOp (strict : Prop) (R : Nat × α → Nat × β → Prop) : Op α → Op β → Prop where
  | newSequence (st : Strategy) : SameOp strict R (.newSequence st) (.newSequence st)
  | dropSequence (s : Nat) : SameOp strict R (.dropSequence s) (.dropSequence s)
  | newMock : SameOp strict R .newMock .newMock
  | expect {m m' : Nat} {ps : List (Policy α)} {ps' : List (Policy β)} (min max : Int) (tags : List Nat) :
    Alike R m ps m' ps' → (strict → m = m') → SameOp strict R (.expect m min max tags ps) (.expect m' min max tags ps')
  | call {m m' : Nat} {a : α} {b : β} : R (m, a) (m', b) → (strict → m = m') → SameOp strict R (.call m a) (.call m' b)
  | destroy (e : Nat) : SameOp strict R (.destroy e) (.destroy e)

/-- Tests that do the same, except that the second one has other mocks, arguments and matchers. -/
inductive Same (strict : Prop) (R : Nat × α → Nat × β → Prop) : List (Op α) → List (Op β) → Prop where
  | nil : Same strict R [] []
  | both {op : Op α} {op' : Op β} {ops : List (Op α)} {ops' : List (Op β)} : SameOp strict R op op' → Same strict R ops ops' →
    Same strict R (op :: ops) (op' :: ops')
  | left {ops : List (Op α)} {ops' : List (Op β)} : ¬ strict → Same strict R ops ops' → Same strict R (.newMock :: ops) ops'
  | right {ops : List (Op α)} {ops' : List (Op β)} : ¬ strict → Same strict R ops ops' → Same strict R ops (.newMock :: ops')

/-- The mocks that are used exist; `n` exist already. -/
def mocked : Nat → List (Op β) → Prop
  | _, [] => True
  | n, .newMock :: ops => mocked (n + 1) ops
  | n, .expect m _ _ _ _ :: ops => m < n ∧ mocked n ops
  | n, .call m _ :: ops => m < n ∧ mocked n ops
  | n, _ :: ops => mocked n ops

/-- What is compared if the mocks differ: everything but the creation of mocks and the list of those that do not match. -/
def observe : Event → Option Event
  | .mockCreated _ => none
  | .noMatch _ => some (.noMatch [])
  | ev => some ev

/-- An operation of the second test, if arguments and requirements are replaced. -/
def changed (f : α → β) (g : List (Policy α) → List (Policy β)) : Op α → Op β
  | .newSequence st => .newSequence st
  | .dropSequence s => .dropSequence s
  | .newMock => .newMock
  | .expect m min max tags ps => .expect m min max tags (g ps)
  | .call m a => .call m (f a)
  | .destroy e => .destroy e

/-- A matcher for the arguments before `f` has been applied to them. -/
def before (f : α → β) (p : Policy β) : Policy α := { p with accepts := fun a => p.accepts (f a) }

/-- Several requirements as one. -/
def conjunction (ps : List (Policy α)) : Policy α :=
  { accepts := fun a =>
      if ps.any (fun p => p.accepts a == none) then none else some (ps.all fun p => p.accepts a == some true)
    isSatisfied := ps.all (·.isSatisfied) }

/-- The requirements of an expectation for mock `m` if all calls go to one mock, which is told the number of the mock that is meant. -/
def forMock (m : Nat) (ps : List (Policy α)) : List (Policy (Nat × α)) :=
  { accepts := fun c => some (c.1 == m) } ::
    ps.map (fun p => { p with accepts := fun c => if c.1 = m then p.accepts c.2 else some false })

/-- An operation of the test with one mock. -/
def joint : Op α → Option (Op (Nat × α))
  | .newSequence st => some (.newSequence st)
  | .dropSequence s => some (.dropSequence s)
  | .newMock => none
  | .expect m min max tags ps => some (.expect 0 min max tags (forMock m ps))
  | .call m a => some (.call 0 (m, a))
  | .destroy e => some (.destroy e)

end Mimic.Answers
