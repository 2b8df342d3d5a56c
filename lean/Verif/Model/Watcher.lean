import Verif.Model.Reach

/-!
# Object watchers

Models `LifetimeWatcher` and `RelocationWatcher` (`/repo/include/mimic++/ObjectWatcher.hpp` 56-168 and 200-282).

A watcher owns a `Mock<void()>`, that is one storage of the underlying `World`; the number of the storage identifies the
*watch*. A watch is triggered by calling this mock; `a0.arg` is the call. Simplifications: side effects and finalizers of
destruction and relocation expectations do nothing, or they end with an exception (`finally::throws`); a builder returned by
`expect_destruct` or `expect_relocate` is finalized at once or abandoned.
-/

set_option autoImplicit false

namespace Mimic

variable {α : Type}

/-- The two classes. -/
inductive Watcher where
  | lifetime
  | relocation
deriving DecidableEq, Repr

/-- ObjectWatcher.hpp 163-167 and 281: the data members. `mock = none`: null `std::unique_ptr` (lifetime), or a moved-from
mock (relocation). `has` is `m_HasDestructExpectation`. -/
structure WatchObj where
  kind : Watcher
  has : Bool
  mock : Option Nat
  alive : Bool
deriving DecidableEq, Repr

/-- The world with watchers. `owned`: the storages that belong to watchers; the client has no access to them. -/
structure WWorld (α : Type) where
  w : World α
  objs : List WatchObj
  owned : List Nat

def WWorld.init : WWorld α := { w := World.init, objs := [], owned := [] }

/-- What a client can do. -/
inductive WOp (α : Type) where
  /-- everything else -/
  | plain (op : Op α)
  | create (kind : Watcher)
  | copy (src : Nat)
  | move (src : Nat)
  | copyAssign (dst src : Nat)
  | moveAssign (dst src : Nat)
  | drop (o : Nat)
  /-- `ScopedExpectation e = o.expect_destruct() and ...` (the limits are ignored) or
  `ScopedExpectation e = o.expect_relocate() and times(min, max) and ...` -/
  | expect (o : Nat) (min max : Int) (tags : List Nat) (policies : List (Policy α))
  /-- `o.expect_destruct()` or `o.expect_relocate()` whose result is thrown away -/
  | abandon (o : Nat)

/-- What happens. -/
inductive WEvent (α : Type) where
  /-- an operation of the library on the underlying world -/
  | lib (op : Op α) (ev : List Event)
  /-- watcher object `o` begins its life -/
  | object (o : Nat) (kind : Watcher)
  /-- watcher object `o` gets a new watch -/
  | born (o watch : Nat)
  /-- an exception of the reporter (Reporter.hpp 66-101) or of the expectation leaves the operation -/
  | exception
  /-- `std::logic_error` -/
  | logicError

/-- What one operation does. -/
abbrev WRes (α : Type) := M (WWorld α × List (WEvent α))

/-- Carries out one operation of the library. -/
def WWorld.lib (ww : WWorld α) (op : Op α) (f : WWorld α → List Event → WRes α) : WRes α :=
  match ww.w.step op with
  | .error x => .error x
  | .ok (w', ev) =>
    match f { ww with w := w' } ev with
    | .error x => .error x
    | .ok (ww', log) => .ok (ww', .lib op ev :: log)

/-- A call ends with an exception unless it is resolved (Expectation.hpp 333-352). -/
def unresolved (ev : List Event) : Bool :=
  !ev.any (fun e => match e with | .fullMatch _ => true | _ => false)

/-- The calls of the mocks of watchers: `Mock<void()>`, so all calls are alike. `throws e`: the finalizer or a side effect of expectation
`e` throws (ExpectationPolicies.hpp 129-147, 254-259, 601-607); each expectation is created once, so this is a choice the client makes then. -/
structure Trigger (α : Type) where
  arg : α
  throws : Nat → Bool

/-- The call ends with an exception: of the reporter, or of the expectation that resolves it (Expectation.hpp 333-352: it is counted and
reported first). -/
def Trigger.fails (a0 : Trigger α) (ev : List Event) : Bool :=
  unresolved ev || ev.any (fun e => match e with | .fullMatch e => a0.throws e | _ => false)

/-- ObjectWatcher.hpp 165-167 and 281: a new `Mock<void()>`. -/
def WWorld.fresh (ww : WWorld α) (f : WWorld α → Nat → WRes α) : WRes α :=
  ww.lib .newMock (fun ww' _ => f { ww' with owned := ww'.owned ++ [ww.w.colls.length] } ww.w.colls.length)

/-- The living watcher object `o`. -/
def WWorld.obj (ww : WWorld α) (o : Nat) : Option WatchObj :=
  match ww.objs[o]? with
  | some x => if x.alive then some x else none
  | none => none

/-- A new watcher object. -/
def WWorld.construct (ww : WWorld α) (kind : Watcher) : WRes α :=
  ww.fresh (fun ww' c =>
    .ok ({ ww' with objs := ww'.objs ++ [⟨kind, false, some c, true⟩] },
      [.object ww'.objs.length kind, .born ww'.objs.length c]))

/-- Replaces the members of object `o` by those of a new one. -/
def WWorld.renew (ww : WWorld α) (o : Nat) (kind : Watcher) : WRes α :=
  ww.fresh (fun ww' c =>
    .ok ({ ww' with objs := ww'.objs.set o ⟨kind, false, some c, true⟩ }, [.born o c]))

/-- Whether an operation of the client uses a storage that belongs to a watcher. -/
def WWorld.touches (ww : WWorld α) : Op α → Bool
  | .expect m _ _ _ _ => ww.owned.contains m
  | .call m _ => ww.owned.contains m
  | _ => false

/-- One client operation. -/
def WWorld.step (a0 : Trigger α) (ww : WWorld α) : WOp α → WRes α
  | .plain op =>
    if ww.touches op then .error (.client "no access to the mock of a watcher")
    else ww.lib op (fun ww' _ => .ok (ww', []))
  /- ObjectWatcher.hpp 79 and 210 -/
  | .create kind => ww.construct kind
  /- 91-95 and 219-223 -/
  | .copy src =>
    match ww.obj src with
    | none => .error (.client "use of a dead object")
    | some x => ww.construct x.kind
  | .move src =>
    match ww.obj src with
    | none => .error (.client "use of a dead object")
    | some x =>
      match x.kind with
      /- 131-132, defaulted -/
      | .lifetime =>
        .ok ({ ww with objs := ww.objs.set src { x with mock := none } ++ [x] },
          [.object ww.objs.length .lifetime])
      /- 245-249 and 256-262; the member initialiser creates a mock, which is then overwritten. If the call throws, the
      new object does not come into being. -/
      | .relocation =>
        ww.fresh (fun ww' _ =>
          match x.mock with
          | none => .error (.ub "call of a moved-from mock")
          | some c =>
            ww'.lib (.call c a0.arg) (fun ww'' ev =>
              if a0.fails ev then .ok (ww'', [.exception])
              else
                .ok ({ ww'' with objs := ww''.objs.set src { x with mock := none } ++ [x] },
                  [.object ww''.objs.length .relocation])))
  | .copyAssign dst src =>
    match ww.obj dst, ww.obj src with
    | some x, some y =>
      if x.kind = y.kind then
        match x.kind with
        /- 111-124: `temp` takes the watch and triggers it; if that throws, the object stays moved-from. -/
        | .lifetime =>
          match x.mock with
          | none => ww.renew dst .lifetime
          | some c =>
            WWorld.lib { ww with objs := ww.objs.set dst { x with mock := none } } (.call c a0.arg) (fun ww' ev =>
              if a0.fails ev then .ok (ww', [.exception]) else ww'.renew dst .lifetime)
        /- 231-238 -/
        | .relocation => ww.renew dst .relocation
      else .error (.client "assignment between different types")
    | _, _ => .error (.client "use of a dead object")
  | .moveAssign dst src =>
    match ww.obj dst, ww.obj src with
    | some x, some y =>
      if x.kind = y.kind then
        match y.kind with
        /- 139, defaulted; the overwritten mock is deleted. Self-assignment of a `std::unique_ptr` changes nothing. -/
        | .lifetime =>
          if dst = src then .ok (ww, [])
          else .ok ({ ww with objs := (ww.objs.set dst y).set src { y with mock := none } }, [])
        /- 256-262 -/
        | .relocation =>
          match y.mock with
          | none => .error (.ub "call of a moved-from mock")
          | some c =>
            ww.lib (.call c a0.arg) (fun ww' ev =>
              if a0.fails ev then .ok (ww', [.exception])
              else if dst = src then .ok (ww', [])
              else .ok ({ ww' with objs := (ww'.objs.set dst y).set src { y with mock := none } }, []))
      else .error (.client "assignment between different types")
    | _, _ => .error (.client "use of a dead object")
  | .drop o =>
    match ww.obj o with
    | none => .error (.client "use of a dead object")
    | some x =>
      let ww' := { ww with objs := ww.objs.set o { x with mock := none, alive := false } }
      match x.kind, x.mock with
      /- 64-72 -/
      | .lifetime, some c =>
        ww'.lib (.call c a0.arg) (fun ww'' ev => .ok (ww'', if a0.fails ev then [.exception] else []))
      /- 205 -/
      | _, _ => .ok (ww', [])
  | .expect o min max tags policies =>
    match ww.obj o with
    | none => .error (.client "use of a dead object")
    | some x =>
      match x.kind with
      /- 150-161 -/
      | .lifetime =>
        if x.has then .ok (ww, [.logicError])
        else
          match x.mock with
          | none => .error (.ub "null pointer")
          | some c =>
            WWorld.lib { ww with objs := ww.objs.set o { x with has := true } } (.expect c 1 1 tags policies)
              (fun ww' _ => .ok (ww', []))
      /- 272-276; ExpectationBuilder.hpp 51 -/
      | .relocation =>
        match x.mock with
        | none => .error (.ub "expect_call on a moved-from mock")
        | some c => ww.lib (.expect c min max tags policies) (fun ww' _ => .ok (ww', []))
  | .abandon o =>
    match ww.obj o with
    | none => .error (.client "use of a dead object")
    | some x =>
      match x.kind with
      | .lifetime =>
        if x.has then .ok (ww, [.logicError])
        else
          match x.mock with
          | none => .error (.ub "null pointer")
          | some _ => .ok ({ ww with objs := ww.objs.set o { x with has := true } }, [])
      | .relocation =>
        match x.mock with
        | none => .error (.ub "expect_call on a moved-from mock")
        | some _ => .ok (ww, [])

/-- Operations performed so far with what happened, oldest first. -/
abbrev WTrace (α : Type) := List (WOp α × List (WEvent α))

/-- Histories of clients with watchers. -/
inductive WReach (a0 : Trigger α) : WTrace α → WWorld α → Prop where
  | init : WReach a0 [] WWorld.init
  | step {tr : WTrace α} {ww ww' : WWorld α} {op : WOp α} {log : List (WEvent α)} :
    WReach a0 tr ww → ww.step a0 op = .ok (ww', log) → WReach a0 (tr ++ [(op, log)]) ww'

end Mimic
