import Verif.Model.World

/-!
# Reporters

Models `/repo/include/mimic++/Reporter.hpp`: the interface (55-158), `BasicReporter` (329-404), `DefaultReporter` (412-529),
and the boundaries through which reports travel (547-621; Expectation.hpp 27-46, 276-289, 333-352; Sequence.hpp 90-113).

Simplifications: a reporter is a function of the report and of `std::uncaught_exceptions()` (so it has no memory, but every
operation may use another one, which covers `install_reporter`, 634-640); texts are left out here, see `Model/Reports.lean`.
-/

set_option autoImplicit false

namespace Mimic

/-- The six functions of `IReporter` (Reporter.hpp 76-147). -/
inductive Report where
  | noMatches
  | inapplicableMatches
  | fullMatch
  | unfulfilledExpectation
  | error
  | unhandledException
deriving DecidableEq, Repr

/-- What a reporter does: whether it writes something, and whether it leaves by an exception instead of returning. -/
structure Reaction where
  writes : Bool
  throws : Bool
deriving DecidableEq, Repr

/-- A reporter; the number is `std::uncaught_exceptions()`. -/
abbrev Reporter := Report → Nat → Reaction

/-- Reporter.hpp 412-529. `out`: whether there is a stream (`m_Out`). -/
def defaultReporter (out : Bool) : Reporter
  /- 421-444 -/
  | .noMatches, _ => ⟨out, true⟩
  /- 446-469 -/
  | .inapplicableMatches, _ => ⟨out, true⟩
  /- 471-477 -/
  | .fullMatch, _ => ⟨false, false⟩
  /- 479-496 -/
  | .unfulfilledExpectation, n => if n = 0 then ⟨out, true⟩ else ⟨false, false⟩
  /- 498-509 -/
  | .error, n => if n = 0 then ⟨out, true⟩ else ⟨false, false⟩
  /- 511-522 -/
  | .unhandledException, _ => ⟨out, false⟩

/-- Reporter.hpp 329-404 with a fail reporter that throws, and success and warning reporters that do not. This is how the
adapters for test frameworks are built. -/
def basicReporter : Reporter
  /- 338-343 -/
  | .noMatches, _ => ⟨true, true⟩
  /- 345-350 -/
  | .inapplicableMatches, _ => ⟨true, true⟩
  /- 352-356 -/
  | .fullMatch, _ => ⟨true, false⟩
  /- 358-365 -/
  | .unfulfilledExpectation, n => if n = 0 then ⟨true, true⟩ else ⟨false, false⟩
  /- 367-373 -/
  | .error, n => if n = 0 then ⟨true, true⟩ else ⟨false, false⟩
  /- 375-383 -/
  | .unhandledException, _ => ⟨true, false⟩

/-- Exceptions that reach the client. -/
inductive Exn where
  /-- `UnmatchedCallT` -/
  | unmatched
  /-- `UnfulfilledExpectationT` -/
  | unfulfilled (e : Nat)
  /-- `Error<>` from the end of sequence `s` -/
  | sequence (s : Nat)
  /-- `std::invalid_argument` -/
  | invalidArgument
deriving DecidableEq, Repr

/-- An exception at the boundary of a `noexcept` function. -/
def atNoexcept (exn : Option Exn) (why : String) : M Unit :=
  match exn with
  | none => .ok ()
  | some _ => .error (.terminate why)

/-- The exception that leaves a report function, if any. -/
def Reporter.exn (R : Reporter) (r : Report) (n : Nat) (x : Exn) : Option Exn :=
  if (R r n).throws then some x else none

/-- `std::uncaught_exceptions()` while `pending` is on its way in addition to `u` others. -/
def uncaught (u : Nat) (pending : Option Exn) : Nat :=
  match pending with
  | none => u
  | some _ => u + 1

/-- One thing that happened on the way through an operation of the library: what the reporter does and where its exception
goes. `pending` is the exception that is already leaving the operation. -/
def deliverOne (R : Reporter) (u : Nat) (pending : Option Exn) : Event → M (Option Exn)
  /- `report_full_match` is `noexcept` (583-594) -/
  | .fullMatch _ => do
    atNoexcept (R.exn .fullMatch (uncaught u pending) .unmatched) "report_full_match"
    return pending
  /- `make_match_report` is `noexcept` (Expectation.hpp 27-46) -/
  | .unhandled _ => do
    atNoexcept (R.exn .unhandledException (uncaught u pending) .unmatched) "make_match_report"
    return pending
  /- 547-563 -/
  | .noMatch _ =>
    match R.exn .noMatches (uncaught u pending) .unmatched with
    | none => .error (.ub "unreachable")
    | some x => .ok (some x)
  /- 565-581 -/
  | .inapplicable _ =>
    match R.exn .inapplicableMatches (uncaught u pending) .unmatched with
    | none => .error (.ub "unreachable")
    | some x => .ok (some x)
  /- Expectation.hpp 276-289; the exception leaves `~Model` (600-603), whose members are destroyed nevertheless -/
  | .unfulfilled e =>
    match R.exn .unfulfilledExpectation (uncaught u pending) (.unfulfilled e) with
    | none => .ok pending
    | some x =>
      match pending with
      | none => .ok (some x)
      | some _ => .error (.terminate "exception during stack unwinding")
  /- Sequence.hpp 90-113, always inside the release of a `std::shared_ptr` (280, ControlPolicy.hpp 238-239), which is
  `noexcept` -/
  | .sequenceError s _ _ => do
    atNoexcept (R.exn .error (uncaught u pending) (.sequence s)) "~shared_ptr"
    return pending
  | .rejected => .ok (some .invalidArgument)
  | .sequenceCreated _ _ => .ok pending
  | .sequenceDestroyed _ => .ok pending
  | .mockCreated _ => .ok pending
  | .created _ => .ok pending
  | .destroyed _ => .ok pending

/-- Everything that happened in one operation. -/
def deliver (R : Reporter) (u : Nat) (pending : Option Exn) : List Event → M (Option Exn)
  | [] => .ok pending
  | e :: es =>
    match deliverOne R u pending e with
    | .error x => .error x
    | .ok p => deliver R u p es

end Mimic
