import Verif.Model.Control

/-!
# Expectations and match reports

Models `/repo/include/mimic++/Expectation.hpp` 27-71 and 407-560 (without `consume`'s side effects and
`finalize_call`, see `Model/Calls.lean`), and `/repo/include/mimic++/Reports.hpp` 406-471.

`α` is the type of calls: everything a policy may look at when it matches a call (arguments, call
constness and value category, global state of the test program).
-/

set_option autoImplicit false

namespace Mimic

/-- A policy as seen by matching (ExpectationPolicies.hpp; Expectation.hpp 359-398 lists the required
members). `accepts` is `matches(call)`, `none` if it throws. `description` is what `describe()` returns; policies whose
`describe()` throws are the subject of `Model/Descriptions.lean`. Simplification: `is_satisfied` is a constant (policies with a state
are the subject of `Model/Own.lean`); for all policies of the library it is constantly `true`
(ExpectationPolicies.hpp 34, 64, 175, 234). -/
structure Policy (α : Type) where
  accepts : α → Option Bool
  isSatisfied : Bool := true
  description : Option String := none

/-- Expectation.hpp 407-560: `BasicExpectation`, together with the number of the storage
(`ExpectationCollection`) it was pushed to and whether its `ScopedExpectation` still exists. Objects
stay in the model's table after their death (`alive = false`); using a dead one is `ub`. -/
structure Exp (α : Type) where
  coll : Nat
  control : Control
  policies : List (Policy α)
  alive : Bool

/-- Reports.hpp 406-450: `MatchReport`; the source location is represented by the number of the
expectation. -/
structure MatchReport where
  exp : Nat
  control : ControlState
  results : List (Bool × Option String)
deriving DecidableEq, Repr

/-- Fwd.hpp 180-185: `MatchResult`. -/
inductive MatchResult where
  | none
  | inapplicable
  | full
deriving DecidableEq, Repr

/-- `std::holds_alternative<state_applicable>`. -/
def ControlState.isApplicable : ControlState → Bool
  | .applicable .. => true
  | _ => false

/-- Reports.hpp 457-471: `evaluate_match_report`. -/
def evaluateMatchReport (r : MatchReport) : MatchResult :=
  if !(r.results.all (·.1)) then .none
  else if !r.control.isApplicable then .inapplicable
  else .full

/-- Expectation.hpp 510-518: evaluates all policies from left to right (braced initialiser list, no
short-circuit); `none` as soon as one throws. -/
def evalPolicies {α : Type} (a : α) : List (Policy α) → Option (List (Bool × Option String))
  | [] => some []
  | p :: ps =>
    match p.accepts a with
    | none => none
    | some b =>
      match evalPolicies a ps with
      | none => none
      | some rs => some ((b, p.description) :: rs)

/-- Expectation.hpp 487-497: `BasicExpectation::is_satisfied`. -/
def Exp.isSatisfied {α : Type} (x : Exp α) : Bool :=
  x.control.isSatisfied && x.policies.all (·.isSatisfied)

/-- Expectation.hpp 502-521 and 27-46: `BasicExpectation::matches` called through
`make_match_report`. The control state is computed first. `none` if a policy throws. -/
def Exp.matchReport {α : Type} (e : Nat) (x : Exp α) (h : Seqs) (a : α) : M (Option MatchReport) := do
  let st ← x.control.state h
  match evalPolicies a x.policies with
  | none => return none
  | some rs => return some { exp := e, control := st, results := rs }

/-- Expectation.hpp 51-55: the projection `ratings`, `std::get<state_applicable>`. -/
def MatchReport.ratings (r : MatchReport) : M (List Rating) :=
  match r.control with
  | .applicable _ _ _ rs => .ok rs
  | _ => .error (.ub "std::get<state_applicable> on another alternative")

/-- Expectation.hpp 57-68: the loop of `pick_best_match`. -/
def pickLoop (best : MatchReport) : List MatchReport → M MatchReport
  | [] => .ok best
  | r :: rest => do
    if hasBetterRating (← best.ratings) (← r.ratings) then pickLoop best rest
    else pickLoop r rest

/-- Expectation.hpp 48-71: `pick_best_match`; the list must not be empty (`best + 1`). -/
def pickBestMatch : List MatchReport → M MatchReport
  | [] => .error (.ub "pick_best_match on an empty list")
  | r :: rest => pickLoop r rest

end Mimic
