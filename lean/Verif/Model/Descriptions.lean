import Verif.Model.Reach
import Verif.Model.Matcher

/-!
# Descriptions that throw

Models the use of `describe()` by the library: `BasicExpectation::matches` and `BasicExpectation::report`
(`/repo/include/mimic++/Expectation.hpp` 457-482, 502-521), `make_match_report` (27-46), and `ExpectationCollection::remove`
(276-289). `World` (`Model/World.lean`) is about policies whose `describe()` returns; here it may throw: the text given to
`matches::predicate` is a format string (`/repo/include/mimic++/Matcher.hpp` 212-228), and a custom printer may throw.
-/

set_option autoImplicit false

namespace Mimic

variable {α : Type}

/-- A policy with its own `describe()`; `describe = none`: it throws. -/
structure DPolicy (α : Type) where
  accepts : α → Option Bool
  isSatisfied : Bool := true
  describe : Option (Option String)

/-- The policy as `World` sees it. -/
def DPolicy.toPolicy (p : DPolicy α) : Policy α :=
  { accepts := p.accepts, isSatisfied := p.isSatisfied, description := p.describe.join }

/-- ExpectationPolicies.hpp 150-211: `Requirement`: projection (which may throw), matcher and describer. -/
def requirementD {T A : Type} (proj : α → Option T) (describer : String → String) (m : PMatcher Option T A) :
    DPolicy α where
  accepts a :=
    match proj a with
    | none => none
    | some t => m.matches t
  describe := m.describe.map (fun d => some (describer d))

/-- Expectation.hpp 510-518: the policies from left to right, each first matched and then described; `none` as soon as
something throws. -/
def matchAndDescribe (a : α) : List (DPolicy α) → Option (List (Bool × Option String))
  | [] => some []
  | p :: ps =>
    match p.accepts a with
    | none => none
    | some b =>
      match p.describe with
      | none => none
      | some d =>
        match matchAndDescribe a ps with
        | none => none
        | some rs => some ((b, d) :: rs)

/-- Expectation.hpp 473-480: the descriptions in `BasicExpectation::report`; `none`: throws. -/
def describeAll : List (DPolicy α) → Option (List (Option String))
  | [] => some []
  | p :: ps =>
    match p.describe with
    | none => none
    | some d =>
      match describeAll ps with
      | none => none
      | some ds => some (d :: ds)

/-- How `make_match_report` ends for one expectation. -/
inductive Looked where
  | report (results : List (Bool × Option String))
  /-- The exception was reported, together with these descriptions. -/
  | unhandled (descriptions : List (Option String))
  | terminates
deriving DecidableEq, Repr

/-- Expectation.hpp 27-46: `make_match_report`. The handler calls `expectation.report()`; an exception that leaves the
handler leaves a `noexcept` function. -/
def lookAt (a : α) (ps : List (DPolicy α)) : Looked :=
  match matchAndDescribe a ps with
  | some rs => .report rs
  | none =>
    match describeAll ps with
    | some ds => .unhandled ds
    | none => .terminates

/-- The world, and the policies of all expectations created so far. -/
structure DWorld (α : Type) where
  w : World α
  policies : List (List (DPolicy α))

def DWorld.init : DWorld α := { w := World.init, policies := [] }

/-- Client operations. -/
inductive DOp (α : Type) where
  | newSequence (strategy : Strategy)
  | dropSequence (s : Nat)
  | newMock
  | expect (coll : Nat) (min max : Int) (tags : List Nat) (policies : List (DPolicy α))
  | call (coll : Nat) (a : α)
  /-- End of life of a `ScopedExpectation`, possibly while an exception is on its way. -/
  | destroy (e : Nat) (unwinding : Bool)

/-- The operation as `World` sees it. -/
def DOp.base : DOp α → Op α
  | .newSequence st => .newSequence st
  | .dropSequence s => .dropSequence s
  | .newMock => .newMock
  | .expect c min max tags ps => .expect c min max tags (ps.map DPolicy.toPolicy)
  | .call c a => .call c a
  | .destroy e _ => .destroy e

/-- What happens during an operation: `ev` is what `World` says, `threw` is set if instead of the report of an unfulfilled
expectation an exception was thrown. -/
structure DLog where
  ev : List Event
  threw : Bool

/-- What the reporter is told, and what else is visible. -/
def DLog.seen (l : DLog) : List Event :=
  if l.threw then l.ev.filter (fun x => match x with | .unfulfilled _ => false | _ => true) else l.ev

/-- The policies of expectation `e`. -/
def DWorld.policiesOf (dw : DWorld α) (e : Nat) : List (DPolicy α) := dw.policies.getD e []

/-- One client operation.
* `call`: Expectation.hpp 308-331: all expectations of the storage are looked at, before anything else happens.
* `destroy`: Expectation.hpp 276-289: the expectation is erased first; then, if it is not satisfied, `report()` is called
  as an argument of `report_unfulfilled_expectation`. The exception leaves the destructor of `ScopedExpectation`
  (600-603, 641-644: `noexcept(false)`); if another one is on its way, this is `std::terminate`. -/
def DWorld.step (dw : DWorld α) : DOp α → M (DWorld α × DLog)
  | .expect c min max tags ps => do
    let (w', ev) ← dw.w.step (.expect c min max tags (ps.map DPolicy.toPolicy))
    return ({ w := w', policies := if ev = [.rejected] then dw.policies else dw.policies ++ [ps] }, ⟨ev, false⟩)
  | .call c a => do
    if ((dw.w.colls[c]?).getD []).any (fun e => lookAt a (dw.policiesOf e) = .terminates) then
      .error (.terminate "exception leaves make_match_report")
    else
      let (w', ev) ← dw.w.step (.call c a)
      return ({ dw with w := w' }, ⟨ev, false⟩)
  | .destroy e unwinding => do
    let (w', ev) ← dw.w.step (.destroy e)
    if ev.contains (.unfulfilled e) && (describeAll (dw.policiesOf e)).isNone then
      if unwinding then .error (.terminate "exception leaves a destructor during stack unwinding")
      else return ({ dw with w := w' }, ⟨ev, true⟩)
    else return ({ dw with w := w' }, ⟨ev, false⟩)
  | .newSequence st => do
    let (w', ev) ← dw.w.step (.newSequence st)
    return ({ dw with w := w' }, ⟨ev, false⟩)
  | .dropSequence s => do
    let (w', ev) ← dw.w.step (.dropSequence s)
    return ({ dw with w := w' }, ⟨ev, false⟩)
  | .newMock => do
    let (w', ev) ← dw.w.step .newMock
    return ({ dw with w := w' }, ⟨ev, false⟩)

/-- Operations performed so far, oldest first. -/
abbrev DTrace (α : Type) := List (DOp α × DLog)

/-- Histories of clients whose descriptions may throw. -/
inductive DReach : DTrace α → DWorld α → Prop where
  | init : DReach [] DWorld.init
  | step {tr : DTrace α} {dw dw' : DWorld α} {op : DOp α} {l : DLog} :
    DReach tr dw → dw.step op = .ok (dw', l) → DReach (tr ++ [(op, l)]) dw'

end Mimic
