import Verif.Model.TestRun
import Verif.Model.Custom

/-!
# The repository's own tests of the adapters, carried out by the model

Transcribes `/repo/test/adapter-tests/{gtest,catch2,doctest,boost-test}/main.cpp`. Not transcribed: the text of the failures (it is the
subject of `Conform/Reports.lean`).
-/

set_option autoImplicit false

namespace Mimic.Conform.Adapters

open Mimic.TestRun

def only (n : Int) : Policy Int := ⟨fun a => some (a == n), true, none⟩

/-- What the framework wrote down, and whether an exception left the test. -/
def outcome (r : M (Env Int × Option Thrown)) : Option (List Note × Bool) :=
  match r with
  | .ok (t, x) => some (t.notes, x.isSome)
  | .error _ => none

/-- gtest 53-69: a match is reported as one success. -/
example : outcome (test (.adapter .gtest) (.seq .mock (.expectation 0 1 1 [] [only 42] (.call 0 42)))) = some ([.passed], false) := by
  decide +kernel

/-- gtest 71-80: a call without expectations is reported as a failure and throws, and EXPECT_ANY_THROW catches what it throws. -/
example : outcome (test (.adapter .gtest) (.seq .mock (.attempt (fun _ => true) (.call 0 1337) .skip))) = some ([.failed], false) := by
  decide +kernel
example : outcome (test (.adapter .gtest) (.seq .mock (.call 0 1337))) = some ([.failed], true) := by decide +kernel

/-- gtest 82-94, catch2 44-54, doctest 84-91: a success. -/
example : ∀ f ∈ [Framework.gtest, .catch2, .doctest], f.send .success = ⟨[.passed], false⟩ := by decide

/-- boost-test 13-16: a message. -/
example : Framework.boostTest.send .success = ⟨[.message], false⟩ := by decide

/-- gtest 96-104, catch2 56-64, doctest 93-98, boost-test 18-21: a warning does not end the test, nor does it fail. -/
example : ∀ f ∈ [Framework.gtest, .catch2, .doctest, .boostTest], (f.send .warning).throws = false ∧ Note.failed ∉ (f.send .warning).notes := by
  decide
example : Framework.doctest.send .warning = ⟨[.message], false⟩ := by decide

/-- gtest 106-114, catch2 66-72, doctest 100-105, boost-test 28-31: a failure ends the test, which has failed. -/
example : ∀ f ∈ [Framework.gtest, .catch2, .doctest, .boostTest], f.send .failure = ⟨[.failed], true⟩ := by decide

/-- catch2 114-134: a matcher of the framework's own. -/
def isBetween (lo hi : Int) : Policy Int := ⟨fun a => some (decide (lo ≤ a ∧ a ≤ hi)), true, none⟩

example : outcome (test (.adapter .catch2) (.seq .mock (.expectation 0 1 1 [] [isBetween 42 1337] (.call 0 1337)))) =
    some ([.passed], false) := by decide +kernel

end Mimic.Conform.Adapters
