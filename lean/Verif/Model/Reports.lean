import Verif.Model.Printer
import Verif.Model.World

/-!
# Texts of reports

Models `/repo/include/mimic++/Reports.hpp` 78-195, 266-312, 343-399, 473-574 and
`/repo/include/mimic++/Reporter.hpp` 196-320.

Simplifications: source locations and names of types are texts; an expectation's source location is looked up by its number.
-/

set_option autoImplicit false

namespace Mimic

/-- The conversion of an `int` argument to `std::size_t` (Reports.hpp 81, 139-143). -/
def toSize (i : Int) : Nat := (i % 18446744073709551616).toNat

/-- Reports.hpp 83-92. -/
def verbalizeValue (n : Nat) : Text :=
  if n = 0 then lit "never"
  else if n = 1 then lit "once"
  else if n = 2 then lit "twice"
  else decimal n ++ lit " times"

/-- Reports.hpp 112-125. -/
def verbalizeInterval (start stop : Nat) : Text :=
  if start < stop then lit "between " ++ decimal start ++ lit " and " ++ decimal stop ++ lit " times"
  else lit "exactly " ++ verbalizeValue stop

/-- Reports.hpp 80-132. -/
def printTimesState (current min max : Nat) : Text :=
  if current = max then lit "already saturated (matched " ++ verbalizeValue current ++ lit ")"
  else if min ≤ current then
    lit "accepts further matches (matched " ++ decimal current ++ lit " out of " ++ decimal max ++ lit " times)"
  else lit "matched " ++ verbalizeValue current ++ lit " - " ++ verbalizeInterval min max ++ lit " is expected"

/-- Reports.hpp 134-195. -/
def controlStateText : ControlState → Text
  /- 136-154 -/
  | .applicable min max count ratings =>
    printTimesState (toSize count) (toSize min) (toSize max) ++
      (if 0 < ratings.length then
        lit ",\n\tand is the current element of " ++ decimal ratings.length ++ lit " sequence(s)."
      else [])
  /- 156-173 -/
  | .inapplicable min max count ratings inapplicable =>
    printTimesState (toSize count) (toSize min) (toSize max) ++ lit ",\n\tbut is not the current element of " ++
      decimal inapplicable.length ++ lit " sequence(s) (" ++ decimal (ratings.length + inapplicable.length) ++ lit " total)."
  /- 175-193 -/
  | .saturated min max count tags =>
    printTimesState (toSize count) (toSize min) (toSize max) ++
      (if 0 < tags.length then lit ",\n\tand is part of " ++ decimal tags.length ++ lit " sequence(s)." else [])

/-- Reports.hpp 480-495: the loop that distributes the descriptions. -/
def distribute : List (Bool × Option String) → List Text → List Text → List Text × List Text
  | [], matched, unmatched => (matched, unmatched)
  | (isMatching, description) :: rest, matched, unmatched =>
    match description with
    | none => distribute rest matched unmatched
    | some d =>
      if isMatching then distribute rest (matched ++ [d.toList]) unmatched
      else distribute rest matched (unmatched ++ [d.toList])

/-- Reports.hpp 550-556 and likewise 565-571, 384-390: the loop over descriptions. -/
def printDescriptions : List Text → Text
  | [] => []
  | d :: ds => lit "\t" ++ d ++ lit ",\n" ++ printDescriptions ds

/-- Reports.hpp 497-525. -/
def matchHeader (r : MatchReport) : Text :=
  match evaluateMatchReport r with
  | .full => lit "Matched expectation: {\n"
  | .inapplicable =>
    lit "Inapplicable, but otherwise matched expectation: {\n" ++ lit "reason: " ++ controlStateText r.control ++ lit "\n"
  | .none => lit "Unmatched expectation: {\n"

/-- Reports.hpp 473-574. `loc`: the printed source locations. -/
def matchReportText (loc : Nat → Text) (r : MatchReport) : Text :=
  let (matched, unmatched) := distribute r.results [] []
  matchHeader r ++ lit "from: " ++ loc r.exp ++ lit "\n" ++
    (if unmatched.isEmpty then [] else lit "failed:\n" ++ printDescriptions unmatched) ++
    (if matched.isEmpty then [] else lit "passed:\n" ++ printDescriptions matched) ++ lit "}\n"

/-- Reports.hpp 204-231: `CallReport`. -/
structure CallText where
  loc : Text
  constness : Text
  category : Text
  returnType : Text
  args : List (Text × Text)

/-- Reports.hpp 296-308: the loop over the arguments. -/
def printArgs : Nat → List (Text × Text) → Text
  | _, [] => []
  | i, (type, value) :: rest =>
    lit "\targ[" ++ decimal i ++ lit "]: {\n" ++ lit "\t\ttype: " ++ type ++ lit ",\n" ++ lit "\t\tvalue: " ++ value ++
      lit "\n" ++ lit "\t},\n" ++ printArgs (i + 1) rest

/-- Reports.hpp 266-312. -/
def callReportText (c : CallText) : Text :=
  lit "call from " ++ c.loc ++ lit "\n" ++ lit "constness: " ++ c.constness ++ lit "\n" ++ lit "value category: " ++ c.category ++
    lit "\n" ++ lit "return type: " ++ c.returnType ++ lit "\n" ++
    (if c.args.isEmpty then [] else lit "args:\n" ++ printArgs 0 c.args)

/-- Reports.hpp 319-341: `ExpectationReport`. -/
structure ExpectationText where
  loc : Option Text
  finalizer : Option Text
  times : Option Text
  descriptions : List (Option Text)

/-- Reports.hpp 343-399. -/
def expectationReportText (r : ExpectationText) : Text :=
  lit "Expectation report:\n" ++
    (match r.loc with
     | none => []
     | some l => lit "from: " ++ l ++ lit "\n") ++
    (match r.times with
     | none => []
     | some t => lit "times: " ++ t ++ lit "\n") ++
    (if r.descriptions.any (·.isSome) then lit "expects:\n" ++ printDescriptions (r.descriptions.filterMap id) else []) ++
    (match r.finalizer with
     | none => []
     | some f => lit "finally: " ++ f ++ lit "\n")

/-- Expectation.hpp 457-482: `BasicExpectation::report`. -/
def Exp.report {α : Type} (loc : Nat → Text) (e : Nat) (x : Exp α) (h : Seqs) : M ExpectationText := do
  let st ← x.control.state h
  return { loc := some (loc e), finalizer := none, times := some (controlStateText st),
           descriptions := x.policies.map (fun p => p.description.map (·.toList)) }

/-- The loop over the match reports (Reporter.hpp 217-224, 240-246). -/
def printMatchReports (loc : Nat → Text) : List MatchReport → Text
  | [] => []
  | r :: rs => matchReportText loc r ++ lit "\n" ++ printMatchReports loc rs

/-- Reporter.hpp 197-228. -/
def stringifyNoMatch (loc : Nat → Text) (c : CallText) (rs : List MatchReport) : Text :=
  lit "No match for " ++ callReportText c ++ lit "\n" ++
    (if rs.isEmpty then lit "No expectations available.\n"
     else decimal rs.length ++ lit " available expectation(s):\n" ++ printMatchReports loc rs)

/-- Reporter.hpp 230-250. -/
def stringifyInapplicable (loc : Nat → Text) (c : CallText) (rs : List MatchReport) : Text :=
  lit "No applicable match for " ++ callReportText c ++ lit "\n" ++ lit "Tested expectations:\n" ++ printMatchReports loc rs

/-- Reporter.hpp 252-269. -/
def stringifyReport (loc : Nat → Text) (c : CallText) (r : MatchReport) : Text :=
  lit "Found match for " ++ callReportText c ++ lit "\n" ++ matchReportText loc r ++ lit "\n"

/-- Reporter.hpp 271-282. -/
def stringifyUnfulfilled (r : ExpectationText) : Text :=
  lit "Unfulfilled expectation:\n" ++ expectationReportText r ++ lit "\n"

/-- Reporter.hpp 284-320. `what`: the message of a `std::exception`. -/
def stringifyUnhandled (c : CallText) (r : ExpectationText) (what : Option Text) : Text :=
  lit "Unhandled exception: " ++
    (match what with
     | some w => lit "what: " ++ w ++ lit "\n"
     | none => lit "Unknown exception type.\n") ++
    lit "while checking expectation:\n" ++ expectationReportText r ++ lit "\n" ++ lit "For " ++ callReportText c ++ lit "\n"

/-- Call.hpp: `call::Info`, as far as it is reported. -/
structure CallDetails where
  loc : Text
  constness : Text
  category : Text
  returnType : Text
  args : List (Text × Val)

/-- Reports.hpp 233-264: `make_call_report`; all arguments are printed. -/
def CallDetails.report (c : CallDetails) : M CallText := do
  let args ← makeArgs c.args
  return { loc := c.loc, constness := c.constness, category := c.category, returnType := c.returnType, args := args }

/-- The texts for the unhandled exceptions (Expectation.hpp 27-46). `what e`: the message of the exception that `e` threw. -/
def World.unhandledTexts {α : Type} (w : World α) (loc : Nat → Text) (what : Nat → Option Text) (c : CallDetails) :
    List Nat → M (List Text)
  | [] => .ok []
  | e :: rest => do
    let c' ← c.report
    let x ← w.deref e
    let r ← x.report loc e w.seqs
    let ts ← w.unhandledTexts loc what c rest
    return stringifyUnhandled c' r (what e) :: ts

/-- The texts that one call hands to the reporter: first the unhandled exceptions, then the outcome (Expectation.hpp 27-46,
308-352). Simplification: the texts are made by the reporter (Reporter.hpp 412-529), here they are made at once. -/
def World.callTexts {α : Type} (w : World α) (loc : Nat → Text) (what : Nat → Option Text) (c : CallDetails) (coll : Nat) (a : α) :
    M (List Text) :=
  match w.colls[coll]? with
  | none => .error (.client "call on a non-existing mock")
  | some es => do
    let r ← scan w a es.reverse
    let unhandled ← w.unhandledTexts loc what c r.thrown
    if !r.full.isEmpty then
      let best ← pickBestMatch r.full
      return unhandled ++ [stringifyReport loc (← c.report) best]
    else if !r.inapplicable.isEmpty then
      return unhandled ++ [stringifyInapplicable loc (← c.report) r.inapplicable]
    else
      return unhandled ++ [stringifyNoMatch loc (← c.report) r.none]

/-- The text of the report about an unfulfilled expectation (Expectation.hpp 276-289). -/
def World.unfulfilledText {α : Type} (w : World α) (loc : Nat → Text) (e : Nat) : M Text := do
  let x ← w.deref e
  return stringifyUnfulfilled (← x.report loc e w.seqs)

end Mimic
