import Verif.Model.Select
import Verif.Model.Shorthand
import Verif.Proofs.MockLife
import Verif.Conform.Examples

/-!
# The repository's own tests of mocks, carried out by the model

Transcribes the test cases of `/repo/test/unit-tests/Mock.cpp` (69-427: which mocks can be called on which objects; 429-913) and of
`/repo/examples/Mock.cpp`. Types are numbers: 0 is `void`, 1 `int`, 2 `double`, 9 `std::source_location`.
-/

set_option autoImplicit false

namespace Mimic.Conform

open Mimic.Select (Object Conv Choice callChoice expectChoice)

/-! ## Mock.cpp 69-427 -/

/-- The ways of naming a mock: `MockT&`, `const MockT&`, `MockT&&` (`MockT` means the same), `const MockT&&`. -/
def objects : List Object := [⟨false, false⟩, ⟨true, false⟩, ⟨false, true⟩, ⟨true, true⟩]

/-- Arguments are of exactly the type of the parameter. -/
def exact : Conv Nat Nat := ⟨fun a t => a == t, fun _ _ _ => false⟩

/-- On which objects `Mock<sig>` can be called. -/
def invocable (isConst : Bool) (ref : RefQual) (noexc : Bool) (params : List Nat) : List Bool :=
  objects.map fun o => decide (callChoice exact 9 [⟨0, params, false, isConst, ref, noexc⟩] o params = .overload 0)

/-- The tests use these lists of parameters, with and without `noexcept`. -/
def invocableAlways (isConst : Bool) (ref : RefQual) (expected : List Bool) : Bool :=
  [[], [1], [1, 2]].all fun ps => [false, true].all fun noexc => invocable isConst ref noexc ps == expected

example : invocableAlways false .none [true, false, true, false] := by decide +kernel
example : invocableAlways true .none [true, true, true, true] := by decide +kernel
example : invocableAlways false .lvalue [true, false, false, false] := by decide +kernel
example : invocableAlways true .lvalue [true, true, true, true] := by decide +kernel
example : invocableAlways false .rvalue [false, false, true, false] := by decide +kernel
example : invocableAlways true .rvalue [false, false, true, true] := by decide +kernel

/-! ## Expectations -/

/-- A history: for which expectations `is_satisfied()` holds after each operation. -/
def satisfied (ops : List (MOp Nat Int)) : Option (List (List Bool)) := do
  let (ls, _) ← ops.foldlM (init := (([] : List (List Bool)), (MWorld.init : MWorld Nat Int))) fun (ls, mw) op =>
    match mw.step op with
    | .ok (mw', _) => some (ls ++ [mw'.w.exps.map (·.isSatisfied)], mw')
    | .error _ => none
  return ls

/-- What the client can observe. -/
def mockEvents (ops : List (MOp Nat Int)) : Option (List Event) :=
  value ((MWorld.init : MWorld Nat Int).record ops) |>.map fun r => r.2.flatMap (·.2)

def sig (isConst : Bool) (ref : RefQual) (noexc : Bool) (params : List Nat := []) (ret : Nat := 0) : Sig Nat :=
  ⟨ret, params, false, isConst, ref, noexc⟩

/-- 429-803: expectations are satisfied by the call, for all twelve kinds of signatures. -/
example : ([false, true].all fun c => [RefQual.none, .lvalue, .rvalue].all fun r => [false, true].all fun n => [0, 1].all fun ret =>
    satisfied [.newMock [sig c r n [] ret], .expect 0 0 1 1 [] [] [], .call 0 0 0] == some [[], [false], [true]]) = true := by
  decide +kernel

/-- 805-861: overloads that only differ in `const`. The object selects the overload. -/
def twoSigs : List (Sig Nat) := [sig false .none false, sig true .none false]

example : callChoice exact 9 twoSigs ⟨false, false⟩ [] = .overload 0 ∧ callChoice exact 9 twoSigs ⟨true, false⟩ [] = .overload 1 ∧
    expectChoice (δ := Nat) (fun _ _ => true) twoSigs ⟨false, false⟩ [] = .overload 0 ∧
    expectChoice (δ := Nat) (fun _ _ => true) twoSigs ⟨true, false⟩ [] = .overload 1 := by decide +kernel

example : satisfied [.newMock twoSigs, .expect 0 0 1 1 [] [] [], .expect 0 1 1 1 [] [] [], .call 0 0 0, .call 0 1 0] =
    some [[], [false], [false, false], [true, false], [true, true]] := by decide +kernel

/-- 863-890: overloads with different parameters. -/
def arbitrary : List (Sig Nat) := [sig false .none false, sig true .none false [1] 2]

example : callChoice exact 9 arbitrary ⟨false, false⟩ [] = .overload 0 ∧ callChoice exact 9 arbitrary ⟨false, false⟩ [1] = .overload 1 ∧
    expectChoice (δ := Nat) (fun a t => a == t) arbitrary ⟨false, false⟩ [] = .overload 0 ∧
    expectChoice (δ := Nat) (fun a t => a == t) arbitrary ⟨false, false⟩ [1] = .overload 1 := by decide +kernel

/-- The requirement that the argument is `v`. -/
def is (v : Int) : Policy (CallInfo Int) := ⟨fun a => some (a.args == v), true, none⟩

example : satisfied [.newMock arbitrary, .expect 0 0 1 1 [] [] [], .expect 0 1 1 1 [] [is 1337] [], .call 0 0 0, .call 0 1 1337] =
    some [[], [false], [false, false], [true, false], [true, true]] := by decide +kernel

/-! ## 892-913: arguments of `expect_call` -/

/-- Class 0 is `matches::ne(value)`. -/
def classes : Shorthand.Classes where
  matcher
    | 0, .num _ _ => some fun m t => match m, t with | .obj n, .num x => decide (x ≠ n) | _, _ => false
    | _, _ => none
  equal _ _ := none

/-- `mock.expect_call(a)` for a parameter `p`, and the call `mock(v)`. -/
def direct (p : Shorthand.Ty) (a : Shorthand.Arg) (v : Shorthand.Val) : Option Bool :=
  (Shorthand.expectCall classes [p] [a]).bind fun rs => value (Shorthand.matchesCall rs [v])

example : direct (.num true 32) ⟨.num true 32, .num 1337⟩ (.num 1337) = some true := by decide +kernel
example : direct (.cstr 0) ⟨.array 0, .chars (.units [72, 101, 0])⟩ (.chars (.units [72, 101, 0])) = some true := by decide +kernel
example : direct (.num true 32) ⟨.cls 0, .obj 42⟩ (.num 1337) = some true ∧
    direct (.num true 32) ⟨.cls 0, .obj 42⟩ (.num 42) = some false := by decide +kernel

/-! ## `/repo/examples/Mock.cpp` -/

/-- 74-88: the container mock is four mocks. -/
def emptySig : List (Sig Nat) := [sig true .none false [] 3]
def backSigs : List (Sig Nat) := [sig false .none false [] 1, sig true .none false [] 1]
def pushSig : List (Sig Nat) := [sig false .none false [1]]
def popSig : List (Sig Nat) := [sig false .none false]
def container : List (MOp Nat Int) := [.newMock emptySig, .newMock backSigs, .newMock pushSig, .newMock popSig]

/-- `MyStack<int, ContainerMock> stack{std::move(innerContainer)}`: moved to the parameter and from there to the member. Afterwards the mocks
have the numbers 8 to 11. -/
def moved : List (MOp Nat Int) := [0, 1, 2, 3, 4, 5, 6, 7].map .moveMock

/-- 97-105: push. -/
example : mockEvents (container ++ [.expect 2 0 1 1 [] [is 42] []] ++ moved ++ [.call 10 0 42, .destroy 0]) =
    some [.mockCreated 0, .mockCreated 1, .mockCreated 2, .mockCreated 3, .created 0, .fullMatch 0, .destroyed 0] := by decide +kernel

/-- 113-123: `empty()` is asked twice, once through the constant stack; it is a `const` method in both cases. -/
example : callChoice exact 9 emptySig ⟨false, false⟩ [] = .overload 0 ∧ callChoice exact 9 emptySig ⟨true, false⟩ [] = .overload 0 := by
  decide +kernel

example : mockEvents (container ++ [.expect 0 0 2 2 [] [] []] ++ moved ++ [.call 8 0 0, .call 8 0 0, .destroy 0]) =
    some [.mockCreated 0, .mockCreated 1, .mockCreated 2, .mockCreated 3, .created 0, .fullMatch 0, .fullMatch 0, .destroyed 0] := by
  decide +kernel

/-- 125-149: `back()`, through the constant and the mutable stack. -/
example : callChoice exact 9 backSigs ⟨false, false⟩ [] = .overload 0 ∧ callChoice exact 9 backSigs ⟨true, false⟩ [] = .overload 1 := by
  decide +kernel

example : [0, 1].all (fun i => mockEvents (container ++ [.expect 0 0 1 1 [] [] [], .expect 1 i 1 1 [] [] []] ++ moved ++
      [.call 8 0 0, .call 9 i 0, .destroy 1, .destroy 0]) ==
    some [.mockCreated 0, .mockCreated 1, .mockCreated 2, .mockCreated 3, .created 0, .created 1, .fullMatch 0, .fullMatch 1,
      .destroyed 1, .destroyed 0]) = true := by decide +kernel

/-- The other overload would not do. -/
example : mockEvents (container ++ [.expect 1 0 1 1 [] [] []] ++ moved ++ [.call 9 1 0]) =
    some [.mockCreated 0, .mockCreated 1, .mockCreated 2, .mockCreated 3, .created 0, .noMatch [0]] := by decide +kernel

/-- 154-181: pop. -/
example : mockEvents (container ++ [.expect 0 0 1 1 [] [] [], .expect 3 0 1 1 [] [] []] ++ moved ++
      [.call 8 0 0, .call 11 0 0, .destroy 1, .destroy 0]) =
    some [.mockCreated 0, .mockCreated 1, .mockCreated 2, .mockCreated 3, .created 0, .created 1, .fullMatch 0, .fullMatch 1,
      .destroyed 1, .destroyed 0] := by decide +kernel

end Mimic.Conform
