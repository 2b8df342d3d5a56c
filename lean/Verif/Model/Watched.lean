import Verif.Model.Watcher

/-!
# Watched objects

Models `Watched<Base, Watchers...>` (`/repo/include/mimic++/ObjectWatcher.hpp` 294-412): an object that inherits from
watchers and from a class of the client, so that one operation on it is the same operation on all of its bases.

Simplifications: only the two watchers of the library; a failing operation of `Base` is a choice of the client (`fails`);
`~Base` does not throw.
-/

set_option autoImplicit false

namespace Mimic

variable {α : Type}

/-- Whether an operation ended with an exception of the reporter. -/
def thrown (log : List (WEvent α)) : Bool :=
  log.any (fun x => match x with | .exception => true | _ => false)

/-- What matters of the client's class: `std::is_nothrow_move_constructible_v`, `std::is_nothrow_move_assignable_v` and
`std::is_nothrow_destructible_v` (ObjectWatcher.hpp 299, 306, 307). -/
structure BaseSpec where
  nothrowMove : Bool
  nothrowMoveAssign : Bool
  nothrowDtor : Bool
deriving DecidableEq, Repr

/-- One watched object. `parts`: its watchers in the order of `Watchers...`. -/
structure Watched where
  base : BaseSpec
  kinds : List Watcher
  parts : List Nat
  alive : Bool
deriving DecidableEq, Repr

structure CWorld (α : Type) where
  ww : WWorld α
  objs : List Watched

def CWorld.init : CWorld α := { ww := WWorld.init, objs := [] }

/-- What a client can do. -/
inductive COp (α : Type) where
  | plain (op : Op α)
  | create (base : BaseSpec) (kinds : List Watcher) (fails : Bool)
  | copy (src : Nat) (fails : Bool)
  | move (src : Nat) (fails : Bool)
  | copyAssign (dst src : Nat) (fails : Bool)
  | moveAssign (dst src : Nat) (fails : Bool)
  | drop (c : Nat)
  /-- an expectation on the `i`-th watcher -/
  | expect (c i : Nat) (min max : Int) (tags : List Nat) (policies : List (Policy α))

/-- What happened: the operations on the watchers, the object that came into being, and whether an exception left the
operation. -/
structure CLog (α : Type) where
  inner : WTrace α
  made : Option Nat
  threw : Bool

abbrev CRes (α : Type) := M (CWorld α × CLog α)

/-- Destruction of finished bases while an exception is propagating (newest first). A destructor that throws now
terminates the program. -/
def unwind (a0 : Trigger α) (ww : WWorld α) : List Nat → M (WWorld α × WTrace α)
  | [] => .ok (ww, [])
  | o :: os =>
    match ww.step a0 (.drop o) with
    | .error x => .error x
    | .ok (ww', log) =>
      if thrown log then .error (.terminate "exception during stack unwinding")
      else
        match unwind a0 ww' os with
        | .error x => .error x
        | .ok (ww'', tr) => .ok (ww'', (.drop o, log) :: tr)

/-- The constructors of `CombinedWatchers` (301-306): one base after the other; `made` lists the finished ones, newest
first. -/
def build (a0 : Trigger α) (nothrow : Bool) (ww : WWorld α) (made : List Nat) :
    List (WOp α) → M (WWorld α × WTrace α × Option (List Nat))
  | [] => .ok (ww, [], some made)
  | op :: ops =>
    match ww.step a0 op with
    | .error x => .error x
    | .ok (ww', log) =>
      if thrown log then
        if nothrow then .error (.terminate "exception leaves a noexcept constructor")
        else
          match unwind a0 ww' made with
          | .error x => .error x
          | .ok (ww'', tr) => .ok (ww'', (op, log) :: tr, none)
      else
        match build a0 nothrow ww' (ww.objs.length :: made) ops with
        | .error x => .error x
        | .ok (ww'', tr, r) => .ok (ww'', (op, log) :: tr, r)

/-- A constructor of `Watched` (310-340, 396-412): first the watchers, then `Base`. -/
def CWorld.construct (a0 : Trigger α) (cw : CWorld α) (base : BaseSpec) (kinds : List Watcher) (nothrow : Bool)
    (ops : List (WOp α)) (fails : Bool) : CRes α :=
  match build a0 nothrow cw.ww [] ops with
  | .error x => .error x
  | .ok (ww', tr, none) => .ok ({ cw with ww := ww' }, ⟨tr, none, true⟩)
  | .ok (ww', tr, some made) =>
    if fails then
      if nothrow then .error (.terminate "exception leaves a noexcept constructor")
      else
        match unwind a0 ww' made with
        | .error x => .error x
        | .ok (ww'', tr') => .ok ({ cw with ww := ww'' }, ⟨tr ++ tr', none, true⟩)
    else .ok ({ ww := ww', objs := cw.objs ++ [⟨base, kinds, made.reverse, true⟩] }, ⟨tr, some cw.objs.length, false⟩)

/-- The assignment operators of `CombinedWatchers` (304, 307): one base after the other. -/
def assign (a0 : Trigger α) (nothrow : Bool) (ww : WWorld α) : List (WOp α) → M (WWorld α × WTrace α × Bool)
  | [] => .ok (ww, [], false)
  | op :: ops =>
    match ww.step a0 op with
    | .error x => .error x
    | .ok (ww', log) =>
      if thrown log then
        if nothrow then .error (.terminate "exception leaves a noexcept operator")
        else .ok (ww', [(op, log)], true)
      else
        match assign a0 nothrow ww' ops with
        | .error x => .error x
        | .ok (ww'', tr, r) => .ok (ww'', (op, log) :: tr, r)

/-- The destructor of `CombinedWatchers` (299), bases in reverse order. If one throws, the others are destroyed while the
exception is propagating. -/
def dropParts (a0 : Trigger α) (nothrow : Bool) (ww : WWorld α) (threw : Bool) : List Nat → M (WWorld α × WTrace α × Bool)
  | [] => .ok (ww, [], threw)
  | o :: os =>
    match ww.step a0 (.drop o) with
    | .error x => .error x
    | .ok (ww', log) =>
      if thrown log && (nothrow || threw) then .error (.terminate "exception leaves a destructor")
      else
        match dropParts a0 nothrow ww' (threw || thrown log) os with
        | .error x => .error x
        | .ok (ww'', tr, r) => .ok (ww'', (.drop o, log) :: tr, r)

/-- The living watched object `c`. -/
def CWorld.obj (cw : CWorld α) (c : Nat) : Option Watched :=
  match cw.objs[c]? with
  | some x => if x.alive then some x else none
  | none => none

/-- One client operation. -/
def CWorld.step (a0 : Trigger α) (cw : CWorld α) : COp α → CRes α
  | .plain op =>
    match cw.ww.step a0 (.plain op) with
    | .error x => .error x
    | .ok (ww', log) => .ok ({ cw with ww := ww' }, ⟨[(.plain op, log)], none, false⟩)
  /- 301, `using Base::Base` -/
  | .create base kinds fails => cw.construct a0 base kinds false (kinds.map .create) fails
  /- 303 -/
  | .copy src fails =>
    match cw.obj src with
    | none => .error (.client "use of a dead object")
    | some x => cw.construct a0 x.base x.kinds false (x.parts.map .copy) fails
  /- 306 -/
  | .move src fails =>
    match cw.obj src with
    | none => .error (.client "use of a dead object")
    | some x => cw.construct a0 x.base x.kinds x.base.nothrowMove (x.parts.map .move) fails
  /- 304 -/
  | .copyAssign dst src fails =>
    match cw.obj dst, cw.obj src with
    | some x, some y =>
      if x.base = y.base ∧ x.kinds = y.kinds then
        match assign a0 false cw.ww (List.zipWith WOp.copyAssign x.parts y.parts) with
        | .error e => .error e
        | .ok (ww', tr, r) => .ok ({ cw with ww := ww' }, ⟨tr, none, r || fails⟩)
      else .error (.client "assignment between different types")
    | _, _ => .error (.client "use of a dead object")
  /- 307 -/
  | .moveAssign dst src fails =>
    match cw.obj dst, cw.obj src with
    | some x, some y =>
      if x.base = y.base ∧ x.kinds = y.kinds then
        match assign a0 y.base.nothrowMoveAssign cw.ww (List.zipWith WOp.moveAssign x.parts y.parts) with
        | .error e => .error e
        | .ok (ww', tr, r) =>
          if fails && y.base.nothrowMoveAssign then .error (.terminate "exception leaves a noexcept operator")
          else .ok ({ cw with ww := ww' }, ⟨tr, none, r || fails⟩)
      else .error (.client "assignment between different types")
    | _, _ => .error (.client "use of a dead object")
  /- 299, 315, 397: `Base` first, then the watchers -/
  | .drop c =>
    match cw.obj c with
    | none => .error (.client "use of a dead object")
    | some x =>
      match dropParts a0 x.base.nothrowDtor cw.ww false x.parts.reverse with
      | .error e => .error e
      | .ok (ww', tr, r) => .ok ({ ww := ww', objs := cw.objs.set c { x with alive := false } }, ⟨tr, none, r⟩)
  | .expect c i min max tags policies =>
    match cw.obj c with
    | none => .error (.client "use of a dead object")
    | some x =>
      match x.parts[i]? with
      | none => .error (.client "no such watcher")
      | some o =>
        match cw.ww.step a0 (.expect o min max tags policies) with
        | .error e => .error e
        | .ok (ww', log) => .ok ({ cw with ww := ww' }, ⟨[(.expect o min max tags policies, log)], none, false⟩)

abbrev CTrace (α : Type) := List (COp α × CLog α)

/-- Histories of clients with watched objects. -/
inductive CReach (a0 : Trigger α) : CTrace α → CWorld α → Prop where
  | init : CReach a0 [] CWorld.init
  | step {tr : CTrace α} {cw cw' : CWorld α} {op : COp α} {log : CLog α} :
    CReach a0 tr cw → cw.step a0 op = .ok (cw', log) → CReach a0 (tr ++ [(op, log)]) cw'

end Mimic
