import Verif.Model.Calls
import Verif.Conform.Control

/-!
# The repository's examples, carried out by the model

Transcribes `/repo/examples/Sequences.cpp`, `Times.cpp`, `SideEffects.cpp` and `Finalizers.cpp`. Their comments say which expectation a
call meets; the tests pass if nothing but full matches is reported, also at the end of the block, where the variables end in reverse
order of their declaration.
-/

set_option autoImplicit false

namespace Mimic.Conform

/-- A matcher of one argument. -/
def arg (p : Int → Bool) : Policy Int := ⟨fun a => some (p a), true, none⟩

/-- The reports of a program: everything except that objects begin and end. -/
def reports (ops : List (Op Int)) : Option (List Event) :=
  value do
    let (_, ev) ← runProgram ops
    return ev.filter (fun e => match e with
      | .sequenceCreated .. | .sequenceDestroyed _ | .mockCreated _ | .created _ | .destroyed _ => false
      | _ => true)

/-- The calls meet these expectations, one after the other, and nothing else is reported. -/
def Meets (ops : List (Op Int)) (es : List Nat) : Prop := reports ops = some (es.map .fullMatch)

instance (ops : List (Op Int)) (es : List Nat) : Decidable (Meets ops es) := inferInstanceAs (Decidable (_ = _))

/-- Sequences.cpp 11-34. -/
example : Meets
    [.newMock, .newSequence .lazy,
      .expect 0 1 1 [0] [arg (· ≠ 0)], .expect 0 1 1 [0] [arg (· ≤ 42)],
      .call 0 42, .call 0 0,
      .destroy 1, .destroy 0, .dropSequence 0] [0, 1] := by decide

/-- The note of 32: the other order violates the sequence. The first expectation does not want `0`, the second one has to wait. -/
example : reports
    [.newMock, .newSequence .lazy,
      .expect 0 1 1 [0] [arg (· ≠ 0)], .expect 0 1 1 [0] [arg (· ≤ 42)],
      .call 0 0, .call 0 42,
      .destroy 1, .destroy 0, .dropSequence 0] =
    some [.inapplicable [1], .fullMatch 0, .unfulfilled 1, .sequenceError 0 1 2] := by decide

/-- 36-57: two mocks. -/
example : Meets
    [.newMock, .newMock, .newSequence .lazy,
      .expect 1 1 1 [0] [arg (fun _ => true)], .expect 0 1 1 [0] [arg (fun _ => true)],
      .call 1 42, .call 0 1337,
      .destroy 1, .destroy 0, .dropSequence 0] [0, 1] := by decide

/-- 59-90: with and without a sequence; the comments number the expectations from one. -/
example : Meets
    [.newMock,
      .expect 0 1 1 [] [arg (· = 42)], .expect 0 1 1 [] [arg (· = 1337)],
      .newSequence .lazy,
      .expect 0 1 1 [0] [arg (· = 1337)], .expect 0 1 1 [] [arg (· = 1337)], .expect 0 1 1 [0] [arg (· = 42)],
      .call 0 42, .call 0 1337, .call 0 1337, .call 0 42, .call 0 1337,
      .destroy 4, .destroy 3, .destroy 2, .dropSequence 0, .destroy 1, .destroy 0] [0, 3, 2, 4, 1] := by decide

/-- 92-116: several sequences. -/
example : Meets
    [.newMock, .newSequence .lazy, .newSequence .lazy,
      .expect 0 1 1 [0] [], .expect 0 1 1 [0, 1] [], .expect 0 1 1 [1] [],
      .call 0 0, .call 0 0, .call 0 0,
      .destroy 2, .destroy 1, .destroy 0, .dropSequence 1, .dropSequence 0] [0, 1, 2] := by decide

/-- 118-138: `LazySequence`. -/
example : Meets
    [.newMock, .newSequence .lazy, .expect 0 0 1 [0] [], .expect 0 1 1 [0] [],
      .call 0 0, .call 0 0,
      .destroy 1, .destroy 0, .dropSequence 0] [0, 1] := by decide

/-- 140-161: `GreedySequence`. -/
example : Meets
    [.newMock, .newSequence .greedy, .expect 0 0 1 [0] [], .expect 0 1 1 [0] [],
      .call 0 0,
      .destroy 1, .destroy 0, .dropSequence 0] [1] := by decide

/-- The comment of 158: a further call leads to an inapplicable match report. -/
example : reports
    [.newMock, .newSequence .greedy, .expect 0 0 1 [0] [], .expect 0 1 1 [0] [],
      .call 0 0, .call 0 0] = some [.fullMatch 1, .inapplicable [1, 0]] := by decide

/-- Times.cpp: one mock, one expectation with the given limits, `n` calls. -/
def callsOf (t : Option TimesConfig) (n : Nat) : List (Op Int) :=
  match t with
  | some t => [.newMock, .expect 0 t.min t.max [] []] ++ List.replicate n (.call 0 0) ++ [.destroy 0]
  | none => []

/-- Times.cpp 11-112: the calls of the examples are fine. -/
example : Meets (callsOf once 1) [0] ∧ Meets (callsOf twice 2) [0, 0] ∧ Meets (callsOf (atLeast 2) 3) [0, 0, 0] ∧
    Meets (callsOf (atMost 2) 2) [0, 0] ∧ Meets (callsOf (timesExactly 2) 2) [0, 0] ∧
    Meets (callsOf (times 1 3) 3) [0, 0, 0] := by decide

/-- The comments: "not enough", "fine", "exhausted". -/
example : reports (callsOf twice 1) = some [.fullMatch 0, .unfulfilled 0] ∧
    reports (callsOf (atLeast 2) 1) = some [.fullMatch 0, .unfulfilled 0] ∧
    Meets (callsOf (atLeast 2) 2) [0, 0] ∧
    reports (callsOf (atMost 2) 3) = some [.fullMatch 0, .fullMatch 0, .inapplicable [0]] ∧
    reports (callsOf (timesExactly 2) 1) = some [.fullMatch 0, .unfulfilled 0] ∧
    reports (callsOf (times 1 3) 4) = some [.fullMatch 0, .fullMatch 0, .fullMatch 0, .inapplicable [0]] := by decide

/-! ## Side effects and finalizers -/

/-- Carries out client code from the given memory; the memory and the outcome at the end. -/
def execute (mem : List Int) (c : Code Int) : Option (List Int × Outcome Int) :=
  match exec 100 (CState.init mem) c with
  | some (.ok (s, _, o)) => some (s.mem, o)
  | _ => none

/-- `SCOPED_EXP mock.expect_call(...) and ...; return mock(args...);`, with the end of the scope. -/
def single (params : List ParamKind) (policies : List (Policy (Snap Int))) (effects : List (List Nat → Code Int))
    (fin : List Nat → Code Int) (args : List Nat) : Code Int :=
  .newMock false params (.expect 0 1 1 [] policies effects fin (.call 0 args (fun o => .destroy 0 (.done o))))

def eqArg (i : Nat) (v : Int) : Policy (Snap Int) := expectArg i (fun x => some (x == v))

/-- `void` results are represented by zero. -/
def returnsVoid : List Nat → Code Int := returnsValue 0

/-- SideEffects.cpp 10-27: an arbitrary action. Cell 0 is the argument, cell 1 stands for `outText`. -/
example : execute [42, 0] (single [.value] [eqArg 0 42]
    [invokeAction (.write 1 7 (.done (.ret 0)))] returnsVoid [0]) = some ([42, 7, 42], .ret 0) := by rfl

/-- 29-46: the argument is changed. -/
example : execute [42] (single [.ref] [eqArg 0 42]
    [applyArgs [0] (fun ls => .write ls[0]! 1337 (.done (.ret 0)))] returnsVoid [0]) = some ([1337], .ret 0) := by rfl

/-- 48-66: a later side effect sees the change of an earlier one. -/
example : execute [42] (single [.ref] [eqArg 0 42]
    [applyArgs [0] (fun ls => .write ls[0]! 1337 (.done (.ret 0))),
      applyArgs [0] (fun ls => .read ls[0]! (fun v => .write ls[0]! (if v = 1337 then -1337 else -42) (.done (.ret 0))))]
    returnsVoid [0]) = some ([-1337], .ret 0) := by rfl

/-- The lambda `[](int lhs, int rhs, int& out) { out = lhs + rhs; }`. -/
def addInto (ls : List Nat) : Code Int :=
  .read ls[0]! (fun l => .read ls[1]! (fun r => .write ls[2]! (l + r) (.done (.ret 0))))

/-- 68-85: any order; the two by-value parameters are new objects. -/
example : execute [0, 1, 2] (single [.ref, .value, .value] [eqArg 0 0, eqArg 1 1, eqArg 2 2]
    [applyArgs [1, 2, 0] addInto] returnsVoid [0, 1, 2]) = some ([3, 1, 2, 1, 2], .ret 0) := by rfl

/-- 87-102: an argument twice. -/
example : execute [0, 42] (single [.ref, .value] [eqArg 0 0, eqArg 1 42]
    [applyArgs [1, 1, 0] addInto] returnsVoid [0, 1]) = some ([84, 42, 42], .ret 0) := by rfl

/-- Finalizers.cpp 12-26: `finally::returns`. -/
example : execute [] (single [] [] [] (returnsValue 42) []) = some ([], .ret 42) := by rfl

/-- 69-87: `finally::throws`. -/
example : execute [] (single [] [] [] (throwsExc 5) []) = some ([], .exc (.user 5)) := by rfl

/-- 89-104: `finally::returns_result_of`. -/
example : execute [] (single [] [] [] (returnsResultOf (.done (.ret 7))) []) = some ([], .ret 7) := by rfl

/-- 106-121: `finally::returns_arg<1>`. -/
example : execute [1337, 42] (single [.value, .value] [eqArg 0 1337, eqArg 1 42] [] (returnsArg 1) [0, 1]) =
    some ([1337, 42, 1337, 42], .ret 42) := by rfl

/-- `std::plus{}`. -/
def plus (ls : List Nat) : Code Int := .read ls[0]! (fun l => .read ls[1]! (fun r => .done (.ret (l + r))))

/-- 123-138 and 140-155: `finally::returns_apply_result_of<0, 1>` and `returns_apply_all_result_of`. -/
example : execute [1337, 42] (single [.value, .value] [eqArg 0 1337, eqArg 1 42] []
      (returnsApplyResultOf [0, 1] plus) [0, 1]) = some ([1337, 42, 1337, 42], .ret 1379) ∧
    execute [1337, 42] (single [.value, .value] [eqArg 0 1337, eqArg 1 42] []
      (applyAll plus) [0, 1]) = some ([1337, 42, 1337, 42], .ret 1379) := ⟨by rfl, by rfl⟩

end Mimic.Conform
