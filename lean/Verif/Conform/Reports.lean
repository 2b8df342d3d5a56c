import Verif.Model.Reports

/-!
# The repository's own tests of the texts of reports, carried out by the model

Transcribes the test cases of `/repo/test/unit-tests/Reports.cpp` that look at texts or at outcomes (277-459 and 870-1291). Source
locations are `main.cpp[1:2], main`. Not transcribed: 957-971, as in the model a match report always has a location (in the library,
all of them do, Expectation.hpp 505).
-/

set_option autoImplicit false

namespace Mimic.Conform

def at12 : Text := lit "main.cpp[1:2], main"

def startsWith (p t : Text) : Bool := t.take p.length == p

/-- 277-346: `print_times_state`. -/
example : (∀ x ∈ [(0, 1), (0, 2), (3, 42)],
      startsWith (lit "already saturated (matched ") (printTimesState x.2 x.1 x.2)) ∧
    printTimesState 0 0 1 = lit "accepts further matches (matched 0 out of 1 times)" ∧
    printTimesState 1 0 2 = lit "accepts further matches (matched 1 out of 2 times)" ∧
    printTimesState 21 3 42 = lit "accepts further matches (matched 21 out of 42 times)" ∧
    (∀ x ∈ [(0, 1, 2), (1, 2, 5), (2, 3, 42)],
      startsWith (lit "matched ") (printTimesState x.1 x.2.1 x.2.2)) := by decide +kernel

/-- 348-459: `control_state_printer`. -/
example : controlStateText (.applicable 42 1337 256 []) =
      lit "accepts further matches (matched 256 out of 1337 times)" ∧
    controlStateText (.applicable 42 1337 256 [⟨0, 1337⟩]) =
      lit "accepts further matches (matched 256 out of 1337 times),\n\tand is the current element of 1 sequence(s)." ∧
    controlStateText (.inapplicable 42 1337 256 [⟨0, 1337⟩] [1338, 1339]) =
      lit "accepts further matches (matched 256 out of 1337 times),\n\tbut is not the current element of 2 sequence(s) (3 total)." ∧
    controlStateText (.saturated 42 1337 1337 []) = lit "already saturated (matched 1337 times)" ∧
    controlStateText (.saturated 42 1337 1337 [1337]) =
      lit "already saturated (matched 1337 times),\n\tand is part of 1 sequence(s)." := by decide +kernel

/-- Results without descriptions. -/
def plain (bs : List Bool) : List (Bool × Option String) := bs.map (fun b => (b, none))

def applicable : ControlState := .applicable 0 1 0 []
def inapplicable : ControlState := .inapplicable 0 1 0 [] [1337]
def saturated : ControlState := .saturated 0 1 1 []

/-- 870-925: `evaluate_match_report`. -/
example : (∀ c ∈ [applicable, inapplicable, saturated], ∀ bs ∈ [[false], [true, false], [false, true]],
      evaluateMatchReport ⟨0, c, plain bs⟩ = .none) ∧
    (∀ c ∈ [inapplicable, saturated], ∀ bs ∈ [[], [true], [true, true]],
      evaluateMatchReport ⟨0, c, plain bs⟩ = .inapplicable) ∧
    (∀ bs ∈ [[], [true], [true, true]], evaluateMatchReport ⟨0, applicable, plain bs⟩ = .full) := by decide +kernel

def text (c : ControlState) (rs : List (Bool × Option String)) : Text := matchReportText (fun _ => at12) ⟨0, c, rs⟩

def d1 : Option String := some "Requirement1 description"
def d2 : Option String := some "Requirement2 description"

set_option maxRecDepth 20000 in
/-- 927-1094: match reports. -/
example : text applicable [] = lit "Matched expectation: {\nfrom: main.cpp[1:2], main\n}\n" ∧
    text applicable [(true, d1), (true, d2)] =
      lit "Matched expectation: {\nfrom: main.cpp[1:2], main\npassed:\n\tRequirement1 description,\n\tRequirement2 description,\n}\n" ∧
    text (.saturated 0 42 42 []) [] = lit ("Inapplicable, but otherwise matched expectation: {\n" ++
      "reason: already saturated (matched 42 times)\nfrom: main.cpp[1:2], main\n}\n") ∧
    text (.inapplicable 0 42 5 [⟨0, 123⟩] [1337, 1338]) [] = lit ("Inapplicable, but otherwise matched expectation: {\n" ++
      "reason: accepts further matches (matched 5 out of 42 times),\n" ++
      "\tbut is not the current element of 2 sequence(s) (3 total).\nfrom: main.cpp[1:2], main\n}\n") ∧
    text (.saturated 0 42 42 []) [(true, d1), (true, d2)] = lit ("Inapplicable, but otherwise matched expectation: {\n" ++
      "reason: already saturated (matched 42 times)\nfrom: main.cpp[1:2], main\n" ++
      "passed:\n\tRequirement1 description,\n\tRequirement2 description,\n}\n") ∧
    text applicable [(false, d1), (false, d2)] = lit ("Unmatched expectation: {\nfrom: main.cpp[1:2], main\n" ++
      "failed:\n\tRequirement1 description,\n\tRequirement2 description,\n}\n") ∧
    text applicable [(true, d1), (false, d2)] = lit ("Unmatched expectation: {\nfrom: main.cpp[1:2], main\n" ++
      "failed:\n\tRequirement2 description,\npassed:\n\tRequirement1 description,\n}\n") := by decide +kernel

set_option maxRecDepth 20000 in
/-- 1113-1166: call reports. -/
example : callReportText ⟨at12, lit "any", lit "any", lit "void", []⟩ =
      lit "call from main.cpp[1:2], main\nconstness: any\nvalue category: any\nreturn type: void\n" ∧
    callReportText ⟨at12, lit "const", lit "lvalue", lit "int", [(lit "double", lit "4.2")]⟩ =
      lit ("call from main.cpp[1:2], main\nconstness: const\nvalue category: lvalue\nreturn type: int\n" ++
        "args:\n\targ[0]: {\n\t\ttype: double,\n\t\tvalue: 4.2\n\t},\n") := by decide +kernel

def report : ExpectationText :=
  ⟨some at12, some (lit "finalizer description"), some (lit "times description"), [some (lit "expectation1 description")]⟩

set_option maxRecDepth 20000 in
/-- 1168-1291: expectation reports. -/
example : expectationReportText report = lit ("Expectation report:\nfrom: main.cpp[1:2], main\ntimes: times description\n" ++
      "expects:\n\texpectation1 description,\nfinally: finalizer description\n") ∧
    expectationReportText { report with times := none } = lit ("Expectation report:\nfrom: main.cpp[1:2], main\n" ++
      "expects:\n\texpectation1 description,\nfinally: finalizer description\n") ∧
    expectationReportText { report with finalizer := none } = lit ("Expectation report:\nfrom: main.cpp[1:2], main\n" ++
      "times: times description\nexpects:\n\texpectation1 description,\n") ∧
    (∀ ds ∈ [[none], []], expectationReportText { report with descriptions := ds } =
      lit "Expectation report:\nfrom: main.cpp[1:2], main\ntimes: times description\nfinally: finalizer description\n") ∧
    expectationReportText { report with descriptions := report.descriptions ++ [none] } =
      lit ("Expectation report:\nfrom: main.cpp[1:2], main\ntimes: times description\n" ++
        "expects:\n\texpectation1 description,\nfinally: finalizer description\n") ∧
    expectationReportText { report with loc := none } = lit ("Expectation report:\ntimes: times description\n" ++
      "expects:\n\texpectation1 description,\nfinally: finalizer description\n") := by decide +kernel

end Mimic.Conform
