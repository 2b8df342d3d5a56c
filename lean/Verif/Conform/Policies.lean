import Verif.Model.Mock
import Verif.Model.Descriptions
import Verif.Model.Calls
import Verif.Model.Forward
import Verif.Conform.Matcher

/-!
# The repository's own tests of policies, carried out by the model

Transcribes the test cases of `/repo/test/unit-tests/ExpectationPolicies.cpp`, except those about concepts (22-48, 330-344) and about which
types of parameters of an action can be bound (523-563, 739-778). Where the original compares addresses, so does the model.
-/

set_option autoImplicit false

namespace Mimic.Conform.Policies

def categories : List ValueCategory := [.lvalue, .rvalue, .any]
def constnesses : List Constness := [.nonConst, .asConst, .any]

/-- The calls of the test cases. -/
def infos {β : Type} (args : β) : List (CallInfo β) :=
  categories.flatMap (fun c => constnesses.map (fun k => ⟨args, c, k⟩))

/-- 66-118: `Category`. The policy is always satisfied, and accepts what matches. -/
example : ∀ expected ∈ categories, (categoryPolicy (β := Unit) expected).isSatisfied = true ∧
    (categoryPolicy (β := Unit) expected).description = some ("expect: from " ++ expected.word ++ " category overload") ∧
    ∀ info ∈ infos (), (categoryPolicy expected).accepts info = some (info.category.isMatching expected) := by decide +kernel

/-- 66-118: what matches. -/
example : categories.map (fun e => categories.map (fun c => (categoryPolicy (β := Unit) e).accepts ⟨(), c, .any⟩)) =
    [[some true, some false, some true], [some false, some true, some true], [some true, some true, some true]] := by decide +kernel

/-- 120-172: `Constness`. -/
example : ∀ expected ∈ constnesses, (constnessPolicy (β := Unit) expected).isSatisfied = true ∧
    (constnessPolicy (β := Unit) expected).description = some ("expect: from " ++ expected.word ++ " qualified overload") ∧
    ∀ info ∈ infos (), (constnessPolicy expected).accepts info = some (info.constness.isMatching expected) := by decide +kernel

/-! ## Requirements -/

/-- The mocked matcher: it expects to see the argument. -/
def matcher (answer : Bool) : PMatcher Option Int Unit where
  pred := fun t _ => if t = 42 then some answer else none
  fmt := "matcher description"
  invFmt := ""
  arg := ()
  print := fun _ => some []

/-- `Requirement` with a projection to the first argument, and with this describer. -/
def requirement (describer : String → String) (answer : Bool) : DPolicy (CallInfo (List Int)) :=
  requirementD (fun info => info.args[0]?) describer (matcher answer)

/-- 252-328: `Requirement`. -/
example : ∀ answer ∈ [true, false], ∀ info ∈ infos [(42 : Int)],
    (requirement ("expect that: " ++ ·) answer).isSatisfied = true ∧
    (requirement ("expect that: " ++ ·) answer).describe = some (some "expect that: matcher description") ∧
    (requirement ("expect that: " ++ ·) answer).accepts info = some answer := by decide +kernel

/-- 939-989: `expect::arg`. The describer is that of ExpectationPolicies.hpp 371-387. -/
example : ∀ answer ∈ [true, false], ∀ info ∈ infos [(42 : Int)],
    (requirement ("expect: arg[0] " ++ ·) answer).isSatisfied = true ∧
    (requirement ("expect: arg[0] " ++ ·) answer).describe = some (some "expect: arg[0] matcher description") ∧
    (requirement ("expect: arg[0] " ++ ·) answer).accepts info = some answer := by decide +kernel

/-- The mocked matcher of the test case with a projection. -/
def textMatcher (answer : Bool) : PMatcher Option String Unit where
  pred := fun t _ => if t = "42" then some answer else none
  fmt := "matcher description"
  invFmt := ""
  arg := ()
  print := fun _ => some []

/-- 991-1033: `expect::arg` with a projection. -/
example : ∀ answer ∈ [true, false], ∀ info ∈ infos [(42 : Int)],
    (requirementD (fun info => info.args[0]?.map toString) ("expect: arg[0] " ++ ·) (textMatcher answer)).accepts info =
      some answer := by decide +kernel

/-! ## Actions -/

/-- An action that tells which objects it got. -/
def action (locs : List Nat) : Code (List Nat) := .done (.ret locs)

/-- 371-481: `ApplyArgsAction`, with the objects 10 and 11 as arguments: in order, in reverse order, one of them, and mixed. -/
example : applyArgs [0, 1] action [10, 11] = .done (.ret [10, 11]) ∧ applyArgs [1, 0] action [10, 11] = .done (.ret [11, 10]) ∧
    applyArgs [0] action [10, 11] = .done (.ret [10]) ∧ applyArgs [1] action [10, 11] = .done (.ret [11]) ∧
    applyArgs [1, 0, 0, 1] action [10, 11] = .done (.ret [11, 10, 10, 11]) := ⟨rfl, rfl, rfl, rfl, rfl⟩

/-- 482-521: what the action returns is handed on. -/
example : applyArgs [1] (fun locs => if locs = [11] then .done (.ret [42]) else .illFormed) [10, 11] = .done (.ret [42]) := rfl

/-- 565-737: `ApplyAllArgsAction`, for no, one, and three arguments. -/
example : applyAll action [] = .done (.ret []) ∧ applyAll action [10] = .done (.ret [10]) ∧
    applyAll action [10, 11, 12] = .done (.ret [10, 11, 12]) := ⟨rfl, rfl, rfl⟩

/-- A call of `void(T&, T&, T&)` with the objects 0, 1 and 2 and this side effect. Memory cell 3 is where the action records what it got. -/
def consumed (effect : List Nat → Code (List Nat)) : Option (Option (List Nat)) :=
  match exec 20 (CState.init [[1337], [4], [100], []])
      (.newMock false [.ref, .ref, .ref] (.expect 0 1 1 [] [] [effect] (returnsValue []) (.call 0 [0, 1, 2] .done))) with
  | some (.ok (s, _, .ret _)) => some s.mem[3]?
  | _ => none

def record (locs : List Nat) : Code (List Nat) := .write 3 locs (.done (.ret []))

/-- 780-819: `then::apply_arg`. -/
example : consumed (applyArgs [0] record) = some (some [0]) ∧ consumed (applyArgs [1] record) = some (some [1]) ∧
    consumed (applyArgs [2] record) = some (some [2]) := by decide +kernel

/-- 821-869: `then::apply_args`. -/
example : consumed (applyArgs [0, 1, 2] record) = some (some [0, 1, 2]) ∧ consumed (applyArgs [2, 1, 0] record) = some (some [2, 1, 0]) ∧
    consumed (applyArgs [1, 0, 2, 2, 0] record) = some (some [1, 0, 2, 2, 0]) := by decide +kernel

/-- 346-369, 871-919: `then::apply_all`; 921-937: `then::invoke`. -/
example : consumed (applyAll record) = some (some [0, 1, 2]) ∧
    consumed (invokeAction (record [42])) = some (some [42]) := by decide +kernel

/-! ## Finalizers -/

/-- How a call of a mock with two arguments, the objects 0 and 1, ends. -/
def ended (fin : List Nat → Code (List Nat)) : Option (Outcome (List Nat)) :=
  match exec 20 (CState.init [[1337], [4]]) (.newMock false [.ref, .ref] (.expect 0 1 1 [] [] [] fin (.call 0 [0, 1] .done))) with
  | some (.ok (_, _, o)) => some o
  | _ => none

/-- 174-200, 1035-1060: `ReturnsResultOf`; 202-250, 1445-1467: `Throws`. -/
example : ended (returnsResultOf (.done (.ret [42]))) = some (.ret [42]) ∧ ended (throwsExc 7) = some (.exc (.user 7)) := by decide +kernel

/-- 1222-1283: `finally::returns_apply_result_of`; 1285-1351: `finally::returns_apply_all_result_of`. -/
example : ended (returnsApplyResultOf [1] action) = some (.ret [1]) ∧ ended (returnsApplyResultOf [1, 0, 0, 1] action) = some (.ret [1, 0, 0, 1]) ∧
    ended (applyAll action) = some (.ret [0, 1]) := by decide +kernel

open Capture (runFins FinState FinOp Ans) in
/-- What calls of mocks with finalizers, and the client, see. -/
def seen (ops : List (FinOp Int)) : List (Option Int) :=
  match runFins FinState.init ops with
  | .ok (_, as) => as.map (fun a => match a with | .value v => some v | .thrown v => some (-v) | _ => none)
  | .error _ => []

/-- 1062-1095: `finally::returns` with a value and with a `std::reference_wrapper`, called twice. -/
example : ∀ v ∈ [(0 : Int), 1, 2, 3, 4],
    seen [.client (.object .plain v), .returns (.named .plain 0), .call 0 .value, .call 0 .value] = [none, none, some v, some v] ∧
    seen [.client (.object .plain v), .returns (.view 0), .call 0 .value, .call 0 .value] = [none, none, some v, some v] := by
  decide +kernel

/-- 1097-1156: a reference is returned. That both calls return a reference to the same object is seen by assigning to it: to the stored
value, or to the object inside of the `std::reference_wrapper`. -/
example : seen [.returns (.temp .plain 42), .call 0 (.reference (some 43)), .call 0 (.reference none)] = [none, some 42, some 43] ∧
    seen [.client (.object .plain 42), .returns (.view 0), .call 0 (.reference none), .client (.assign 0 43), .call 0 (.reference none)] =
      [none, none, some 42, none, some 43] := by decide +kernel

/-- 1158-1220: an rvalue reference is returned. -/
example : seen [.returns (.temp .plain 42), .call 0 (.rvalue false), .call 0 (.rvalue false)] = [none, some 42, some 42] ∧
    seen [.client (.object .plain 42), .returns (.view 0), .call 0 (.rvalue false), .client (.assign 0 43), .call 0 (.rvalue false)] =
      [none, none, some 42, none, some 43] := by decide +kernel

/-- 1445-1467: `finally::throws`, called twice. -/
example : seen [.throws (.temp .plain 4), .call 0 .value, .call 0 .value] = [none, some (-4), some (-4)] := by decide +kernel

section ReturnsArg
open Forward

/-- The variables `param0` (of type `int`), `param1` (`double`), and `param2` (`std::string`). -/
def variables : List (Capture.Obj Int) := [⟨.plain, .holds 1337⟩, ⟨.plain, .holds 4⟩, ⟨.owning, .holds 100⟩]

/-- What `finally::returns_arg<index>()` returns: a value or the number of the object. The arguments are `param0`, `param1`, and
`std::move(param2)`. -/
def argument (p1 p2 : Pass) (index : Nat) (ret : Ret) : Option (Option Int × Option Nat) :=
  match Forward.call variables [⟨.plain, .value, .named 0⟩, ⟨.plain, p1, .named 1⟩, ⟨.owning, p2, .moved 2⟩] [] index ret with
  | .ok (_, .object _ v) => some (v, none)
  | .ok (_, .ref o) => some (none, some o)
  | .error _ => none

/-- 1353-1443: `finally::returns_arg`. -/
example : argument .lref .rref 0 .object = some (some 1337, none) ∧ argument .lref .rref 1 .lref = some (none, some 1) ∧
    argument .constLref .rref 1 .constLref = some (none, some 1) ∧ argument .lref .rref 2 .rref = some (none, some 2) ∧
    argument .lref .constRref 2 .constRref = some (none, some 2) := by decide +kernel
end ReturnsArg

end Mimic.Conform.Policies
