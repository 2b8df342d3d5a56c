import Verif.Model.Builder
import Verif.Conform.Examples

/-!
# The repository's own tests of the expectation builder, carried out by the model

Transcribes the test cases of `/repo/test/unit-tests/ExpectationBuilder.cpp`, except the one about source locations (290-314).
-/

set_option autoImplicit false

namespace Mimic.Conform.Builders

/-- A builder for `void()`, with two finalizers to choose from. -/
def voidBuilder : Builder Int Bool := .start 0 true []

/-- Whether an expression with this builder compiles. -/
def compiles (items : List (Item Int Bool)) : Bool :=
  match voidBuilder.build items with
  | .illFormed => false
  | _ => true

/-- 45-55: the times can be exchanged only once; 147-158: the finalizer can be exchanged only once. -/
example : compiles [.times 1 1] = true ∧ compiles [.times 1 1, .times 1 1] = false ∧
    compiles [.finalizer true] = true ∧ compiles [.finalizer true, .finalizer true] = false := by decide +kernel

/-- Everything that happens; whether an expectation is satisfied is seen when it is destroyed. -/
def runReports : BWorld Int Bool → List (BOp Int Bool) → Option (List Event)
  | _, [] => some []
  | bw, op :: ops =>
    match bw.step op with
    | .ok (bw', ev) => (runReports bw' ops).map (ev ++ ·)
    | .error _ => none

def seen (ops : List (BOp Int Bool)) : Option (List Event) :=
  (runReports BWorld.init ops).map (fun ev => ev.filter (fun e => match e with
    | .sequenceCreated .. | .sequenceDestroyed _ | .mockCreated _ | .created _ | .destroyed _ => false
    | _ => true))

/-- The builder expression `make_builder(collection) && items...`, turned into an expectation. -/
def expectationOf (rv : Bool) (items : List (Item Int Bool)) : List (BOp Int Bool) :=
  .beginExpect 0 rv [] :: (items.zipIdx.map (fun (i, n) => .extend n i)) ++ [.finalize items.length]

/-- What is reported: for the given builder expression and number of calls. -/
def outcome (rv : Bool) (items : List (Item Int Bool)) (calls : Nat) : Option (List Event) :=
  seen ([.newMock, .newSequence .lazy, .newSequence .lazy] ++ expectationOf rv items ++ List.replicate calls (.call 0 0) ++ [.destroy 0])

/-- 57-90: without times, exactly one call is expected; `times(0, 0)` is satisfied at once. -/
example : outcome true [] 0 = some [.unfulfilled 0] ∧ outcome true [] 1 = some [.fullMatch 0] ∧ outcome true [.times 0 0] 0 = some [] := by
  decide +kernel

/-- 92-145: sequences can be given once, together with times, and repeatedly. -/
example : outcome true [.sequences [0]] 0 = some [.unfulfilled 0] ∧ outcome true [.sequences [0]] 1 = some [.fullMatch 0] ∧
    outcome true [.times 2 2, .sequences [0]] 0 = some [.unfulfilled 0] ∧
    outcome true [.times 2 2, .sequences [0]] 1 = some [.fullMatch 0, .unfulfilled 0] ∧
    outcome true [.times 2 2, .sequences [0]] 2 = some [.fullMatch 0, .fullMatch 0] ∧
    outcome true [.sequences [0], .sequences [1]] 0 = some [.unfulfilled 0] ∧
    outcome true [.sequences [0], .sequences [1]] 1 = some [.fullMatch 0] := by decide +kernel

/-- 160-202: for `void` the finalizer may be omitted or exchanged. -/
example : outcome true [] 1 = some [.fullMatch 0] ∧ outcome true [.finalizer true] 1 = some [.fullMatch 0] := by decide +kernel

/-- 204-236: otherwise it has to be given. -/
example : outcome false [.finalizer true] 1 = some [.fullMatch 0] ∧ outcome false [] 1 = none := by decide +kernel

/-- A policy that accepts everything. -/
def fine : Policy Int := ⟨fun _ => some true, true, none⟩
/-- A policy that is not satisfied. -/
def unsatisfied : Policy Int := ⟨fun _ => some true, false, none⟩

/-- 238-288: expectations can be extended by policies, which are asked whether they are satisfied. -/
example : outcome true [.times 0 0, .policy fine] 0 = some [] ∧ outcome true [.times 0 0, .policy fine, .policy fine] 0 = some [] ∧
    outcome true [.times 0 0, .policy fine, .policy unsatisfied] 0 = some [.unfulfilled 0] := by decide +kernel

/-- 316-338: two expectations in one scope, which end in reverse order. -/
example : seen ([.newMock, .beginExpect 0 true [], .extend 0 (.times 0 0), .finalize 1, .beginExpect 0 true [], .extend 2 (.times 0 0), .finalize 3,
    .destroy 1, .destroy 0]) = some [] := by decide +kernel

end Mimic.Conform.Builders
