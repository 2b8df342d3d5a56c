import Verif.Model.Reporter
import Verif.Model.Reach

/-!
# Scoped expectations

Models `ScopedExpectation` (`/repo/include/mimic++/Expectation.hpp` 572-727): an object that owns one expectation and can be
moved. `std::unique_ptr` and the destruction of local variables at the end of a scope are modelled after the standard.
-/

set_option autoImplicit false

namespace Mimic

variable {α : Type}

/-- A `ScopedExpectation`: `m_Inner` (726). -/
structure Slot where
  inner : Option Nat
  alive : Bool
deriving DecidableEq, Repr

structure SWorld (α : Type) where
  w : World α
  slots : List Slot

def SWorld.init : SWorld α := { w := World.init, slots := [] }

/-- What a client can do. -/
inductive SOp (α : Type) where
  /-- everything that does not concern scoped expectations -/
  | plain (op : Op α)
  /-- `ScopedExpectation x = ...` -/
  | expect (mock : Nat) (min max : Int) (tags : List Nat) (policies : List (Policy α))
  | moveConstruct (src : Nat)
  | moveAssign (dst src : Nat)
  | drop (o : Nat)
  | isSatisfied (o : Nat)

/-- The circumstances of an operation: the installed reporter, and the number of exceptions that are on their way. -/
structure Ctx where
  reporter : Reporter
  uncaught : Nat

/-- What happened: the operations of the library, the new object, the exception that left the operation, the answer. -/
structure SLog (α : Type) where
  lib : Trace α
  slot : Option Nat
  exn : Option Exn
  answer : Option Bool

abbrev SRes (α : Type) := M (SWorld α × SLog α)

/-- The living object `o`. -/
def SWorld.slot (sw : SWorld α) (o : Nat) : Option Slot :=
  match sw.slots[o]? with
  | some x => if x.alive then some x else none
  | none => none

/-- Carries out an operation of the library and delivers its reports. -/
def SWorld.lib (c : Ctx) (sw : SWorld α) (op : Op α) : M (SWorld α × List Event × Option Exn) :=
  match sw.w.step op with
  | .error x => .error x
  | .ok (w', ev) =>
    match deliver c.reporter c.uncaught none ev with
    | .error x => .error x
    | .ok exn => .ok ({ sw with w := w' }, ev, exn)

/-- One client operation. -/
def SWorld.step (c : Ctx) (sw : SWorld α) : SOp α → SRes α
  | .plain op =>
    match op with
    | .expect .. => .error (.client "expectations are held by scoped expectations")
    | .destroy _ => .error (.client "expectations are held by scoped expectations")
    | op =>
      match sw.lib c op with
      | .error x => .error x
      | .ok (sw', ev, exn) => .ok (sw', ⟨[(op, ev)], none, exn, none⟩)
  /- 605-617, 654-664 -/
  | .expect mock min max tags policies =>
    match sw.lib c (.expect mock min max tags policies) with
    | .error x => .error x
    | .ok (sw', ev, some exn) => .ok (sw', ⟨[(.expect mock min max tags policies, ev)], none, some exn, none⟩)
    | .ok (sw', ev, none) =>
      .ok ({ sw' with slots := sw'.slots ++ [⟨some sw.w.exps.length, true⟩] },
        ⟨[(.expect mock min max tags policies, ev)], some sw'.slots.length, none, none⟩)
  /- 698, defaulted: `m_Inner` is moved -/
  | .moveConstruct src =>
    match sw.slot src with
    | none => .error (.client "use of a dead object")
    | some x =>
      .ok ({ sw with slots := sw.slots.set src { x with inner := none } ++ [x] }, ⟨[], some sw.slots.length, none, none⟩)
  /- 703, defaulted: `m_Inner.reset(other.m_Inner.release())`, where `reset` deletes the old object and is `noexcept` -/
  | .moveAssign dst src =>
    match sw.slot dst, sw.slot src with
    | some x, some y =>
      if dst = src then .ok (sw, ⟨[], none, none, none⟩)
      else
        let sw₁ : SWorld α := { sw with slots := (sw.slots.set src { y with inner := none }).set dst { x with inner := y.inner } }
        match x.inner with
        | none => .ok (sw₁, ⟨[], none, none, none⟩)
        | some e =>
          match sw₁.lib c (.destroy e) with
          | .error z => .error z
          | .ok (sw', ev, exn) =>
            match atNoexcept exn "unique_ptr::reset" with
            | .error z => .error z
            | .ok () => .ok (sw', ⟨[(.destroy e, ev)], none, none, none⟩)
    | _, _ => .error (.client "use of a dead object")
  /- 641-645: `delete m_Inner.release()` -/
  | .drop o =>
    match sw.slot o with
    | none => .error (.client "use of a dead object")
    | some x =>
      let sw₁ : SWorld α := { sw with slots := sw.slots.set o ⟨none, false⟩ }
      match x.inner with
      | none => .ok (sw₁, ⟨[], none, none, none⟩)
      | some e =>
        match sw₁.lib c (.destroy e) with
        | .error z => .error z
        | .ok (sw', ev, exn) => .ok (sw', ⟨[(.destroy e, ev)], none, exn, none⟩)
  /- 710-713; `from` (720-723) likewise -/
  | .isSatisfied o =>
    match sw.slot o with
    | none => .error (.client "use of a dead object")
    | some x =>
      match x.inner with
      | none => .error (.ub "null pointer")
      | some e =>
        match sw.w.deref e with
        | .error z => .error z
        | .ok x => .ok (sw, ⟨[], none, none, some x.isSatisfied⟩)

/-- One operation of a history. -/
structure SEntry (α : Type) where
  ctx : Ctx
  op : SOp α
  log : SLog α

abbrev STrace (α : Type) := List (SEntry α)

/-- Histories of clients with scoped expectations. -/
inductive SReach : STrace α → SWorld α → Prop where
  | init : SReach [] SWorld.init
  | step {tr : STrace α} {sw sw' : SWorld α} {c : Ctx} {op : SOp α} {log : SLog α} :
    SReach tr sw → sw.step c op = .ok (sw', log) → SReach (tr ++ [⟨c, op, log⟩]) sw'

/-- The end of a scope: its variables are destroyed one after the other. An exception that leaves a destructor makes the
others be destroyed by stack unwinding, and a second one terminates the program. `pending`: the exception by which the scope
is left. -/
def endScope (R : Reporter) (u : Nat) (pending : Option Exn) (sw : SWorld α) :
    List Nat → M (SWorld α × STrace α × Option Exn)
  | [] => .ok (sw, [], pending)
  | o :: os =>
    match sw.step ⟨R, uncaught u pending⟩ (.drop o) with
    | .error x => .error x
    | .ok (sw', log) =>
      match pending, log.exn with
      | some _, some _ => .error (.terminate "exception during stack unwinding")
      | _, _ =>
        match endScope R u (pending.or log.exn) sw' os with
        | .error x => .error x
        | .ok (sw'', tr, exn) => .ok (sw'', ⟨⟨R, uncaught u pending⟩, .drop o, log⟩ :: tr, exn)

end Mimic
