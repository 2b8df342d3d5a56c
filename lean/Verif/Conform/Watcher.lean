import Verif.Model.Watched
import Verif.Conform.Examples

/-!
# The repository's own tests of object watchers, carried out by the model

Transcribes the test cases of `/repo/test/unit-tests/ObjectWatcher.cpp` and of `/repo/examples/Watcher.cpp`. The ends of scopes are written
out.
-/

set_option autoImplicit false

namespace Mimic.Conform

/-- What a test looks at. -/
inductive Seen where
  | full (e : Nat)
  | inapplicable
  | unmatched
  | unfulfilled (e : Nat)
  /-- an exception -/
  | thrown
  | logicError
deriving DecidableEq, Repr

def seenEvent : Event → List Seen
  | .fullMatch e => [.full e]
  | .inapplicable _ => [.inapplicable]
  | .noMatch _ => [.unmatched]
  | .unfulfilled e => [.unfulfilled e]
  | _ => []

def seenOne : WEvent Int → List Seen
  | .lib _ ev => ev.flatMap seenEvent
  | .exception => [.thrown]
  | .logicError => [.logicError]
  | _ => []

/-- What happens in a history with watchers. -/
def watch (ops : List (WOp Int)) (throws : Nat → Bool := fun _ => false) : Option (List Seen) := do
  let (l, _) ← ops.foldlM (init := (([] : List Seen), (WWorld.init : WWorld Int))) fun (l, ww) op =>
    match ww.step ⟨0, throws⟩ op with
    | .ok (ww', log) => some (l ++ log.flatMap seenOne, ww')
    | .error _ => none
  return l

/-- `o.expect_destruct()` or `o.expect_relocate()`. -/
def watching (o : Nat) (tags : List Nat := []) (min max : Int := 1) : WOp Int := .expect o min max tags []

/-- `ScopedExpectation` ends. -/
def ended (e : Nat) : WOp Int := .plain (.destroy e)

/-! ## ObjectWatcher.cpp 17-285: lifetimes -/

/-- 26-46 (the report about the unmatched call is the exception). -/
example : watch [.create .lifetime, .drop 0] = some [.unmatched, .thrown] := by decide +kernel

/-- 48-71 -/
example : watch [.create .lifetime, watching 0, ended 0, .drop 0] = some [.unfulfilled 0, .unmatched, .thrown] := by decide +kernel

/-- 73-101 -/
example : watch [.create .lifetime, watching 0, .drop 0, ended 0] = some [.full 0] := by decide +kernel

/-- 103-133 -/
example : watch [.create .lifetime, watching 0, .abandon 0, .abandon 0, .drop 0, ended 0] = some [.logicError, .logicError, .full 0] := by
  decide +kernel

/-- 143-146: moved with an expectation. -/
example : watch [.create .lifetime, watching 0, .move 0, .drop 1, ended 0, .drop 0] = some [.full 0] := by decide +kernel

/-- 148-162: move-assigned; the second expectation belonged to the target, which has lost its watch. In the original the expectations are
swapped so that the first one, which is of the target, ends last; it is unfulfilled, but nothing in this section looks at it. -/
example : watch [.create .lifetime, watching 0, .create .lifetime, watching 1, .moveAssign 1 0, .drop 1, ended 0, ended 1, .drop 0] =
    some [.full 0, .unfulfilled 1] := by decide +kernel

/-- 164-173: self-assigned. -/
example : watch [.create .lifetime, watching 0, .moveAssign 0 0, .drop 0, ended 0] = some [.full 0] := by decide +kernel

/-- 178-186: moved without an expectation. -/
example : watch [.create .lifetime, .move 0, watching 1, .drop 1, ended 0, .drop 0] = some [.full 0] := by decide +kernel

/-- 188-201: move-assigned without an expectation. -/
example : watch [.create .lifetime, .create .lifetime, watching 1, .moveAssign 1 0, watching 1, ended 0, .drop 1, ended 1, .drop 0] =
    some [.unfulfilled 0, .full 1] := by decide +kernel

/-- 213-225: copied with an expectation. -/
example : watch [.create .lifetime, watching 0, .copy 0, watching 1, .drop 1, .drop 0, ended 1, ended 0] = some [.full 1, .full 0] := by
  decide +kernel

/-- 227-241: copy-assigned. -/
example : watch [.create .lifetime, watching 0, .create .lifetime, watching 1, .copyAssign 1 0, watching 1, ended 1, .drop 1, .drop 0,
    ended 2, ended 0] = some [.full 1, .full 2, .full 0] := by decide +kernel

/-- 243-250: self-copy-assigned. -/
example : watch [.create .lifetime, watching 0, .copyAssign 0 0, watching 0, .drop 0, ended 1, ended 0] = some [.full 0, .full 1] := by
  decide +kernel

/-- 255-284: the same without an expectation for the source. -/
example : watch [.create .lifetime, .copy 0, watching 1, .drop 1, watching 0, .drop 0, ended 1, ended 0] = some [.full 0, .full 1] := by
  decide +kernel
example : watch [.create .lifetime, .create .lifetime, watching 1, .copyAssign 1 0, watching 1, ended 0, .drop 1, watching 0, .drop 0,
    ended 2, ended 1] = some [.full 0, .full 1, .full 2] := by decide +kernel

/-! ## 430-558: relocations -/

/-- 441-485: without an expectation. -/
example : watch [.create .relocation, .move 0] = some [.unmatched, .thrown] := by decide +kernel
example : watch [.create .relocation, .create .relocation, .moveAssign 1 0] = some [.unmatched, .thrown] := by decide +kernel
example : watch [.create .relocation, .moveAssign 0 0] = some [.unmatched, .thrown] := by decide +kernel

/-- 487-505 -/
example : watch [.create .relocation, watching 0, ended 0] = some [.unfulfilled 0] := by decide +kernel

/-- 507-545 -/
example : watch [.create .relocation, watching 0, .move 0, .drop 1, ended 0, .drop 0] = some [.full 0] := by decide +kernel
example : watch [.create .relocation, watching 0, .create .relocation, .moveAssign 1 0, .drop 1, ended 0, .drop 0] = some [.full 0] := by
  decide +kernel
example : watch [.create .relocation, watching 0, .moveAssign 0 0, ended 0, .drop 0] = some [.full 0] := by decide +kernel

/-- 548-606: copies do not count, and lose the expectation. -/
example : watch [.create .relocation, watching 0, .copy 0, .drop 1, ended 0] = some [.unfulfilled 0] := by decide +kernel
example : watch [.create .relocation, watching 0, .create .relocation, .copyAssign 1 0, .drop 1, ended 0] = some [.unfulfilled 0] := by
  decide +kernel
example : watch [.create .relocation, watching 0, .copyAssign 0 0, .moveAssign 0 0, ended 0] =
    some [.unmatched, .thrown, .unfulfilled 0] := by decide +kernel

/-- 291-313 and 620-660: `finally::throws`. The exception leaves the destructor, or the move, whose target does not come into being. -/
example : watch [.create .lifetime, watching 0, .move 0, .drop 1, ended 0, .drop 0] (fun _ => true) = some [.full 0, .thrown] := by
  decide +kernel
example : watch [.create .relocation, watching 0, .move 0, ended 0, .drop 0] (fun _ => true) = some [.full 0, .thrown] := by
  decide +kernel
example : watch [.create .relocation, watching 0, .move 0, .drop 1] (fun _ => true) = none := by decide +kernel

/-! ## Watched objects -/

/-- What happens in a history with watched objects; `none`: the program ends or is wrong. -/
def watchAll (ops : List (COp Int)) : Option (List Seen) := do
  let (l, _) ← ops.foldlM (init := (([] : List Seen), (CWorld.init : CWorld Int))) fun (l, cw) op =>
    match cw.step ⟨0, fun _ => false⟩ op with
    | .ok (cw', log) => some (l ++ (log.inner.flatMap (·.2)).flatMap seenOne, cw')
    | .error _ => none
  return l

/-- Whether an exception left the last operation. -/
def threw (ops : List (COp Int)) : Option Bool := do
  let (t, _) ← ops.foldlM (init := (false, (CWorld.init : CWorld Int))) fun (_, cw) op =>
    match cw.step ⟨0, fun _ => false⟩ op with
    | .ok (cw', log) => some (log.threw, cw')
    | .error _ => none
  return t

/-- Classes whose operations may throw. -/
def throwing : BaseSpec := ⟨false, false, false⟩
/-- A `Mock`. -/
def mockBase : BaseSpec := ⟨true, true, true⟩

/-- 320-337, 403-428: violations come out of the destructor, if the destructor of the class may throw; otherwise the program ends. -/
example : threw [.create throwing [.lifetime] false, .drop 0] = some true := by decide +kernel
example : threw [.create mockBase [.lifetime] false, .drop 0] = none := by decide +kernel

/-- 339-352: the mock is collection 1, since the watcher has a mock, too. -/
example : watchAll [.create mockBase [.lifetime] false, .plain .newMock, .expect 0 0 1 1 [] [], .plain (.expect 1 1 1 [] []),
    .plain (.call 1 42), .move 0 false, .drop 1, .plain (.destroy 1), .plain (.destroy 0), .drop 0] = some [.full 1, .full 0] := by
  decide +kernel

/-- 354-385: with a sequence. Objects 0: `watched`, 1: `other`. -/
example : watchAll [.create mockBase [.lifetime] false, .plain .newMock, .plain (.newSequence .lazy), .create mockBase [.lifetime] false,
    .expect 1 0 1 1 [0] [], .move 1 false, .drop 2, .plain (.destroy 0), .drop 1,
    .plain (.expect 1 1 1 [0] []), .expect 0 0 1 1 [0] [], .plain (.call 1 42), .move 0 false, .drop 3,
    .plain (.destroy 2), .plain (.destroy 1), .plain (.dropSequence 0), .drop 0] = some [.full 0, .full 1, .full 2] := by decide +kernel

/-- 629-660, 720-742: relocation violations. -/
example : threw [.create throwing [.relocation] false, .move 0 false] = some true := by decide +kernel
example : threw [.create mockBase [.relocation] false, .move 0 false] = none := by decide +kernel

/-- 662-679: an older expectation of the mock is used after the relocation. -/
example : watchAll [.create mockBase [.relocation] false, .plain .newMock, .plain (.expect 1 1 1 [] [⟨fun a => some (a == 1337), true, none⟩]),
    .expect 0 0 2 2 [] [], .plain (.expect 1 1 1 [] [⟨fun a => some (a == 42), true, none⟩]), .plain (.call 1 42), .move 0 false,
    .plain (.call 1 1337), .moveAssign 0 1 false, .drop 1, .plain (.destroy 2), .plain (.destroy 1), .plain (.destroy 0), .drop 0] =
    some [.full 2, .full 1, .full 0, .full 1] := by decide +kernel

/-- 681-704: with a sequence. -/
example : watchAll [.create mockBase [.relocation] false, .plain .newMock, .plain (.newSequence .lazy),
    .plain (.expect 1 1 1 [0] []), .expect 0 0 1 1 [0] [], .plain (.expect 1 1 1 [0] []), .expect 0 0 1 1 [0] [],
    .plain (.call 1 42), .move 0 false, .plain (.call 1 1337), .moveAssign 0 1 false, .drop 1, .plain (.destroy 3), .plain (.destroy 2),
    .plain (.destroy 1), .plain (.destroy 0), .plain (.dropSequence 0), .drop 0] = some [.full 0, .full 1, .full 2, .full 3] := by
  decide +kernel

/-! ## `/repo/examples/Watcher.cpp` -/

/-- 42-77: a copy has no expectation. -/
example : watchAll [.create throwing [.lifetime] false, .expect 0 0 1 1 [] [], .move 0 false, .copy 0 false, .drop 2, .drop 1,
    .plain (.destroy 0), .drop 0] = some [.unmatched, .thrown, .full 0] := by decide +kernel

/-- 84-119: copy-assignment over an object without an expectation; the exception leaves the assignment. -/
example : watchAll [.create throwing [.lifetime] false, .expect 0 0 1 1 [] [], .move 0 false, .create throwing [.lifetime] false,
    .copyAssign 2 0 false, .drop 2, .drop 1, .plain (.destroy 0), .drop 0] = some [.unmatched, .thrown, .full 0] := by decide +kernel
example : threw [.create throwing [.lifetime] false, .expect 0 0 1 1 [] [], .move 0 false, .create throwing [.lifetime] false,
    .copyAssign 2 0 false] = some true := by decide +kernel

/-- 121-157: the expectation is met by the assignment, but the object is now another one. -/
example : watchAll [.create throwing [.lifetime] false, .expect 0 0 1 1 [] [], .move 0 false, .create throwing [.lifetime] false,
    .expect 2 0 1 1 [] [], .copyAssign 2 0 false, .plain (.destroy 1), .drop 2, .drop 1, .plain (.destroy 0), .drop 0] =
    some [.full 1, .unmatched, .thrown, .full 0] := by decide +kernel

/-- 160-192: the mock is called, then destroyed; it is moved twice. -/
example : watchAll [.create mockBase [.lifetime] false, .plain .newMock, .plain (.newSequence .lazy), .plain (.expect 1 1 1 [0] []),
    .expect 0 0 1 1 [0] [], .move 0 false, .plain (.call 1 0), .drop 1, .plain (.destroy 1), .plain (.destroy 0), .plain (.dropSequence 0),
    .drop 0] = some [.full 0, .full 1] := by decide +kernel

/-- 198-228: both watchers; `expect::at_least(1)`. -/
example : watchAll [.create mockBase [.lifetime, .relocation] false, .expect 0 0 1 1 [] [], .expect 0 1 1 2147483647 [] [],
    .move 0 false, .move 1 false, .drop 1, .drop 2, .plain (.destroy 1), .plain (.destroy 0), .drop 0] =
    some [.full 1, .full 1, .full 0] := by decide +kernel

end Mimic.Conform
