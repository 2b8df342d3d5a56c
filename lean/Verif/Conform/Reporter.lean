import Verif.Model.Scoped
import Verif.Conform.Reports

/-!
# The repository's own tests of reporters, carried out by the model

Transcribes the test cases of `/repo/test/unit-tests/Reporter.cpp`. Not transcribed: 35-47 (that `install_reporter` destroys the previous
reporter: in the model every operation is given its reporter), and that the free functions hand their arguments on unchanged (60-141).
-/

set_option autoImplicit false

namespace Mimic.Conform.Reporters

def call : CallText := ⟨at12, lit "any", lit "any", lit "void", []⟩

/-- What a text begins with. -/
def begins (p : String) (t : Text) : Bool := startsWith (lit p) t

/-- 60-141: a report function throws what the reporter throws. -/
example : ∀ u ∈ [0, 1], (∀ r ∈ [Report.noMatches, .inapplicableMatches],
    Reporter.exn (fun _ _ => ⟨false, true⟩) r u .unmatched = some .unmatched) ∧
    (∀ r ∈ [Report.fullMatch, .unfulfilledExpectation, .error, .unhandledException],
      Reporter.exn (fun _ _ => ⟨false, false⟩) r u .unmatched = none) := by decide +kernel

/-- 147-330: the default reporter, with and without a stream. -/
example : ∀ out ∈ [true, false],
    (∀ u ∈ [0, 1], defaultReporter out .noMatches u = ⟨out, true⟩ ∧ defaultReporter out .inapplicableMatches u = ⟨out, true⟩ ∧
      defaultReporter out .fullMatch u = ⟨false, false⟩ ∧ defaultReporter out .unhandledException u = ⟨out, false⟩) ∧
    defaultReporter out .unfulfilledExpectation 0 = ⟨out, true⟩ ∧ defaultReporter out .unfulfilledExpectation 1 = ⟨false, false⟩ ∧
    defaultReporter out .error 0 = ⟨out, true⟩ ∧ defaultReporter out .error 1 = ⟨false, false⟩ := by decide +kernel

def empty : ExpectationText := ⟨none, none, none, []⟩

set_option maxRecDepth 20000 in
/-- 147-330: how what it writes begins. -/
example : begins "No match for" (stringifyNoMatch (fun _ => at12) call [⟨0, .applicable 1 1 0 [], [(false, none)]⟩]) ∧
    begins "No applicable match for" (stringifyInapplicable (fun _ => at12) call [⟨0, .inapplicable 1 1 1 [] [], []⟩]) ∧
    begins "Unfulfilled expectation:" (stringifyUnfulfilled empty) ∧
    begins "Unhandled exception:" (stringifyUnhandled call empty (some (lit "Test"))) := by decide +kernel

/-! ## A reporter with callbacks -/

/-- The reports of the callbacks and the exceptions that leave the operations. `u`: exceptions that are on their way. -/
def run (sw : SWorld Int) : List (Nat × SOp Int) → Option (List (List Event × Option Exn))
  | [] => some []
  | (u, op) :: ops =>
    match sw.step ⟨basicReporter, u⟩ op with
    | .ok (sw', log) => (run sw' ops).map (((log.lib.flatMap (·.2)).filter (fun e => match e with
        | .sequenceCreated .. | .sequenceDestroyed _ | .mockCreated _ | .created _ | .destroyed _ => false
        | _ => true), log.exn) :: ·)
    | .error _ => none

def only (n : Int) : Policy Int := ⟨fun a => some (a == n), true, none⟩
def throwing : Policy Int := ⟨fun _ => none, true, none⟩

/-- 448-458: a match. -/
example : run SWorld.init [(0, .plain .newMock), (0, .expect 0 1 1 [] [only 42]), (0, .plain (.call 0 42))] =
    some [([], none), ([], none), ([.fullMatch 0], none)] := by decide +kernel

/-- 460-490: no match, without and with an expectation. -/
example : run SWorld.init [(0, .plain .newMock), (0, .plain (.call 0 1337))] = some [([], none), ([.noMatch []], some .unmatched)] ∧
    run SWorld.init [(0, .plain .newMock), (0, .expect 0 0 1 [] [only 42]), (0, .plain (.call 0 1337)), (0, .drop 0)] =
      some [([], none), ([], none), ([.noMatch [0]], some .unmatched), ([], none)] := by decide +kernel

/-- 492-507: no applicable match. -/
example : run SWorld.init [(0, .plain .newMock), (0, .expect 0 1 1 [] [only 42]), (0, .plain (.call 0 42)), (0, .plain (.call 0 42))] =
    some [([], none), ([], none), ([.fullMatch 0], none), ([.inapplicable [0]], some .unmatched)] := by decide +kernel

/-- 509-524: an unfulfilled expectation; 526-540: while another exception is on its way, nothing is sent. -/
example : run SWorld.init [(0, .plain .newMock), (0, .expect 0 1 1 [] []), (0, .drop 0)] =
      some [([], none), ([], none), ([.unfulfilled 0], some (.unfulfilled 0))] ∧
    run SWorld.init [(0, .plain .newMock), (0, .expect 0 1 1 [] []), (1, .drop 0)] =
      some [([], none), ([], none), ([.unfulfilled 0], none)] ∧
    basicReporter .unfulfilledExpectation 0 = ⟨true, true⟩ ∧ basicReporter .unfulfilledExpectation 1 = ⟨false, false⟩ := by decide +kernel

/-- 542-574: a general error. -/
example : basicReporter .error 0 = ⟨true, true⟩ ∧ basicReporter .error 1 = ⟨false, false⟩ := by decide +kernel

/-- 576-604: an exception from a policy is reported, and an older expectation takes the call. -/
example : run SWorld.init [(0, .plain .newMock), (0, .expect 0 1 1 [] []), (0, .expect 0 0 1 [] [throwing]), (0, .plain (.call 0 0)), (0, .drop 1),
    (0, .drop 0)] = some [([], none), ([], none), ([], none), ([.unhandled 1, .fullMatch 0], none), ([], none), ([], none)] ∧
    basicReporter .unhandledException 0 = ⟨true, false⟩ := by decide +kernel

set_option maxRecDepth 20000 in
/-- 448-604: how what is sent begins and what it contains. -/
example : begins "Found match for" (stringifyReport (fun _ => at12) call ⟨0, .applicable 1 1 0 [], []⟩) ∧
    stringifyNoMatch (fun _ => at12) call [] = lit "No match for " ++ callReportText call ++ lit "\nNo expectations available.\n" ∧
    begins "No match for call from main.cpp[1:2], main\nconstness: any\nvalue category: any\nreturn type: void\n\n1 available expectation(s):"
      (stringifyNoMatch (fun _ => at12) call [⟨0, .applicable 0 1 0 [], [(false, none)]⟩]) ∧
    begins "No applicable match for call from main.cpp[1:2], main\nconstness: any\nvalue category: any\nreturn type: void\n\nTested expectations:"
      (stringifyInapplicable (fun _ => at12) call [⟨0, .saturated 1 1 1 [], [(true, none)]⟩]) ∧
    begins "Unhandled exception: what: An std::exception type." (stringifyUnhandled call empty (some (lit "An std::exception type."))) ∧
    begins "Unhandled exception: Unknown exception type." (stringifyUnhandled call empty none) := by decide +kernel

end Mimic.Conform.Reporters
