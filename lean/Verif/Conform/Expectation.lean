import Verif.Model.Scoped
import Verif.Model.Reports
import Verif.Conform.Examples

/-!
# The repository's own tests of expectations, carried out by the model

Transcribes the test cases of `/repo/test/unit-tests/Expectation.cpp`, except those about concepts and source locations. The mocked
expectations of the original become expectations in the state that the mocked answer describes: "inapplicable" ones wait for another
expectation in a sequence.
-/

set_option autoImplicit false

namespace Mimic.Conform

/-- 46-83: unfulfilled expectations are reported when they are removed. -/
example : reports [.newMock, .expect 0 0 1 [] [], .destroy 0] = some [] ∧
    reports [.newMock, .expect 0 1 1 [] [], .destroy 0] = some [.unfulfilled 0] := by decide +kernel

/-- The mocked answers. -/
inductive Answer where
  | no
  | full
  | inapplicable
  | throws
deriving DecidableEq

/-- An expectation that gives this answer. Expectation 0 of mock 1 is the first element of sequence 0. -/
def answering : Answer → Op Int
  | .no => .expect 0 0 1337 [] [⟨fun _ => some false, true, none⟩]
  | .full => .expect 0 0 1337 [] []
  | .inapplicable => .expect 0 0 1337 [0] []
  | .throws => .expect 0 0 1337 [] [⟨fun _ => none, true, none⟩]

/-- What is reported about one call; the expectations are numbered from one. -/
def answer (as : List Answer) : Option (List Event) :=
  reports ([.newMock, .newMock, .newSequence .lazy, .expect 1 1 1 [0] []] ++ as.map answering ++ [.call 0 0])

/-- 118-255: the expectations are asked in reverse order. -/
example : answer [.no, .full, .no, .no] = some [.fullMatch 2] ∧
    answer [.no, .no, .no, .inapplicable] = some [.inapplicable [4]] ∧
    answer [.no, .no, .inapplicable, .no] = some [.inapplicable [3]] ∧
    answer [.no, .inapplicable, .no, .no] = some [.inapplicable [2]] ∧
    answer [.inapplicable, .no, .no, .no] = some [.inapplicable [1]] ∧
    answer [.no, .inapplicable, .no, .inapplicable] = some [.inapplicable [4, 2]] ∧
    answer [.inapplicable, .no, .inapplicable, .no] = some [.inapplicable [3, 1]] ∧
    answer [.inapplicable, .inapplicable, .no, .inapplicable] = some [.inapplicable [4, 2, 1]] ∧
    answer [.inapplicable, .inapplicable, .inapplicable, .inapplicable] = some [.inapplicable [4, 3, 2, 1]] ∧
    answer [.no, .no, .no, .no] = some [.noMatch [4, 3, 2, 1]] := by decide +kernel

/-- 257-338: exceptions of matchers are reported, and the others are asked all the same. -/
example : answer [.full, .throws] = some [.unhandled 2, .fullMatch 1] := by decide +kernel

/-- An expectation with given limits, sequence entries and policies. -/
def expectation (min max count : Int) (entries : List (Nat × Int)) (ps : List (Policy Int)) : Exp Int :=
  ⟨0, ⟨min, max, count, entries⟩, ps, true⟩

/-- A sequence whose first element is not used up, so that entry 1 has to wait. -/
def waiting : Seqs :=
  match sequenceOf .lazy 2 with
  | .ok q => [⟨q, true, true⟩]
  | .error _ => []

/-- The outcome and the results of the policies. -/
structure Outcome where
  result : MatchResult
  results : List (Bool × Option String)
deriving DecidableEq

def outcome (x : Exp Int) : Option (Option Outcome) :=
  value do return (← x.matchReport 0 waiting 0).map (fun r => ⟨evaluateMatchReport r, r.results⟩)

def says (b : Bool) (d : Option String) : Policy Int := ⟨fun _ => some b, true, d⟩

/-- The three states: applicable, inapplicable, saturated. -/
def states (ps : List (Policy Int)) : List (Exp Int) :=
  [expectation 0 1 0 [] ps, expectation 0 1 0 [(0, 1)] ps, expectation 0 1 1 [] ps]

/-- 404-552: the control policy decides without other policies, and a policy that does not match overrules it. -/
example : (states []).map outcome = [some (some ⟨.full, []⟩), some (some ⟨.inapplicable, []⟩), some (some ⟨.inapplicable, []⟩)] ∧
    (∀ x ∈ states [says false none], outcome x = some (some ⟨.none, [(false, none)]⟩)) ∧
    (states [says true none]).map outcome =
      [some (some ⟨.full, [(true, none)]⟩), some (some ⟨.inapplicable, [(true, none)]⟩), some (some ⟨.inapplicable, [(true, none)]⟩)] :=
  by decide +kernel

/-- 425-440, 486-503, 587-599, 653-675: `is_satisfied` is the conjunction. -/
example : (expectation 1 1 0 [] []).isSatisfied = false ∧ (expectation 1 1 1 [] []).isSatisfied = true ∧
    (∀ b ∈ [false, true], (expectation 1 1 0 [] [⟨fun _ => none, b, none⟩]).isSatisfied = false ∧
      (expectation 1 1 1 [] [⟨fun _ => none, b, none⟩]).isSatisfied = b ∧
      ∀ c ∈ [false, true], (expectation 1 1 1 [] [⟨fun _ => none, b, none⟩, ⟨fun _ => none, c, none⟩]).isSatisfied = (b && c)) :=
  by decide +kernel

/-- 554-730: the results of the policies, in order. -/
example : (∀ b ∈ [false, true], ∀ c ∈ [false, true],
      outcome (expectation 0 1 0 [] [says b (some "policy1"), says c (some "policy2")]) =
        some (some ⟨if b && c then .full else .none, [(b, some "policy1"), (c, some "policy2")]⟩)) ∧
    outcome (expectation 0 1 0 [] [says true none, ⟨fun _ => none, true, none⟩]) = some none := by decide +kernel

/-- 732-805: reports about expectations. -/
example : value (do return ((← Exp.report (fun _ => lit "L") 0 (expectation 0 1 0 [] [says true (some "description"), says true none])
      waiting).times.isSome, (← Exp.report (fun _ => lit "L") 0 (expectation 0 1 0 [] [says true (some "description"), says true none])
      waiting).descriptions)) = some (true, [some (lit "description"), none]) := by decide +kernel

/-- The installed reporter throws for everything that is not fine; no exception is on its way. -/
def ctx : Ctx := ⟨basicReporter, 0⟩

/-- The answers to `is_satisfied`, and the exceptions. -/
def answers (sw : SWorld Int) : List (SOp Int) → Option (List Bool × List Bool)
  | [] => some ([], [])
  | op :: ops =>
    match sw.step ctx op with
    | .error _ => none
    | .ok (sw', log) =>
      (answers sw' ops).map (fun r => (log.answer.toList ++ r.1, (if log.exn.isSome then [true] else []) ++ r.2))

/-- 858-958: scoped expectations may be moved, also to themselves and back. -/
example : ∀ min ∈ [0, 1],
    answers SWorld.init [.plain .newMock, .expect 0 min 1 [] [], .isSatisfied 0, .moveConstruct 0, .isSatisfied 1, .moveAssign 0 1,
      .isSatisfied 0, .moveAssign 1 0, .isSatisfied 1, .moveAssign 1 1, .isSatisfied 1, .moveAssign 0 1, .plain (.call 0 0), .drop 1,
      .drop 0] = some (List.replicate 5 (min == 0), []) := by decide +kernel

/-- 960-1012: disambiguation. -/
example : reports [.newMock, .newSequence .greedy, .expect 0 0 1 [0] [], .expect 0 0 1 [0] [], .call 0 0] = some [.fullMatch 1] ∧
    reports [.newMock, .newSequence .lazy, .expect 0 0 1 [0] [], .expect 0 0 1 [0] [], .call 0 0] = some [.fullMatch 0] :=
  by decide +kernel

end Mimic.Conform
