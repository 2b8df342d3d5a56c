/-!
# Which reporter is in force

Models `detail::get_reporter` (`/repo/include/mimic++/Reporter.hpp` 534-544), the report functions (547-621) as far as it matters who gets
the report, `install_reporter` (624-640) and `ReporterInstaller` (642-655), together with the lifetime of objects with static storage
duration: the adapters for test frameworks install their reporters while such an object is initialised
(`/repo/include/mimic++/adapters/Catch2.hpp` 77-79), and a scoped expectation or a sequence of the client may be such an object, too.

Simplifications: one thread; what is reported is not looked at. A report function of a reporter either always returns or always throws
(that the report functions for unresolved calls must throw, and that some are called from `noexcept` functions, is modelled in
`Model/Reporter.lean`).
-/

set_option autoImplicit false

namespace Mimic.Install

/-- Something that leads to a report, in the code of the client (the end of an unfulfilled expectation, for instance). -/
structure Act where
  /-- Whether an exception of the reporter is caught there. -/
  caught : Bool
deriving DecidableEq, Repr

/-- A class of reporters. -/
structure Cls where
  /-- Whether its report functions throw. -/
  throws : Bool
  /-- What its constructor does, and whether it throws an exception of its own in the end. -/
  ctor : List Act
  ctorThrows : Bool
  /-- What its destructor does. -/
  dtor : List Act
deriving DecidableEq, Repr

/-- `DefaultReporter` (Reporter.hpp 412-529), as far as it matters here. -/
def defaultCls : Cls := ⟨true, [], false, []⟩

/-- What happens, in order. Reporters are numbered in the order of their construction. -/
inductive Ev where
  /-- The constructor of a reporter has returned. -/
  | made (k : Nat)
  /-- The pointer to the reporter now refers to this one. -/
  | set (k : Nat)
  /-- The reporter gets a report. -/
  | gets (k : Nat)
  /-- The destructor of the reporter begins. -/
  | dying (k : Nat)
  /-- `install_reporter` was left by an exception. -/
  | failed
  /-- `main` returns or `std::exit` is called. -/
  | exit
  /-- The destructor of this object with static storage duration begins. -/
  | ends (i : Nat)
deriving DecidableEq, Repr

/-- How a program can stop early. -/
inductive Stop where
  /-- The pointer to the reporter is used after, or while, it is destroyed. -/
  | undefined
  /-- `std::terminate` -/
  | terminated
deriving DecidableEq, Repr

/-- What has to be destroyed at the end of the program, the latest first: objects with their numbers and destructors, and the static
variable of `get_reporter`. -/
inductive Static where
  | object (i : Nat) (dtor : List Act)
  | slot
deriving DecidableEq, Repr

/-- The static variable `reporter` in `get_reporter`. -/
inductive Slot where
  /-- not yet initialised -/
  | fresh
  | holds (k : Nat)
  | gone
deriving DecidableEq, Repr

structure State where
  /-- The reporters made so far. -/
  reporters : List Cls
  slot : Slot
  statics : List Static
  objects : Nat
  log : List Ev
deriving DecidableEq, Repr

def State.init : State := ⟨[], .fresh, [], 0, []⟩

/-- The outcome of something: whether it stopped the program, and the state reached. -/
abbrev Res := Option Stop × State

def State.say (s : State) (e : Ev) : State := { s with log := s.log ++ [e] }

/-- Reporter.hpp 536-544: the first call makes a `DefaultReporter`. The result is the number of the reporter; `none`: the variable was
destroyed. -/
def State.get (s : State) : Option (Nat × State) :=
  match s.slot with
  | .fresh =>
    let k := s.reporters.length
    some (k, (({ s with reporters := s.reporters ++ [defaultCls], slot := .holds k, statics := .slot :: s.statics }).say (.made k)).say (.set k))
  | .holds k => some (k, s)
  | .gone => none

/-- Whether the reporter throws. -/
def State.throwing (s : State) (k : Nat) : Bool :=
  match s.reporters[k]? with
  | some c => c.throws
  | none => false

/-- Reporter.hpp 547-621: a report. The result tells whether an exception leaves it. -/
def State.report (s : State) : Option (Bool × State) :=
  match s.get with
  | none => none
  | some (k, s') => some (s'.throwing k, s'.say (.gets k))

/-- A piece of code of the client. The result tells whether an exception leaves it. -/
def State.acts (s : State) : List Act → Option Stop × Bool × State
  | [] => (none, false, s)
  | a :: as =>
    match s.report with
    | none => (some .undefined, false, s)
    | some (throws, s') => if throws && !a.caught then (none, true, s') else s'.acts as

/-- A destructor, which is `noexcept` or called by the runtime at the end of the program. -/
def State.dtor (s : State) (as : List Act) : Res :=
  match s.acts as with
  | (some x, _, s') => (some x, s')
  | (none, true, s') => (some .terminated, s')
  | (none, false, s') => (none, s')

/-- What a client does. -/
inductive Op where
  /-- The initialisation of an object with static storage duration is completed; `dtor` is what its destructor will do. -/
  | static (dtor : List Act)
  /-- Something that leads to a report; an exception is caught by the client. -/
  | report
  /-- `install_reporter<T>(...)`, also in the constructor of a `ReporterInstaller`; an exception is caught by the client. -/
  | install (c : Cls)
deriving DecidableEq, Repr

/-- Reporter.hpp 634-640: `get_reporter() = std::make_unique<T>(...)`. The right operand is evaluated first. The assignment of a
`std::unique_ptr` lets it refer to the new object before the old one is destroyed. -/
def State.install (s : State) (c : Cls) : Res :=
  match s.acts c.ctor with
  | (some x, _, s') => (some x, s')
  | (none, true, s') => (none, s'.say .failed)
  | (none, false, s') =>
    if c.ctorThrows then (none, s'.say .failed)
    else
      let k := s'.reporters.length
      let s₁ := ({ s' with reporters := s'.reporters ++ [c] }).say (.made k)
      match s₁.get with
      | none => (some .undefined, s₁)
      | some (old, s₂) =>
        let s₃ := (({ s₂ with slot := .holds k }).say (.set k)).say (.dying old)
        match s₂.reporters[old]? with
        | none => (none, s₃)
        | some o => s₃.dtor o.dtor

def State.step (s : State) : Op → Res
  | .static d => (none, { s with statics := .object s.objects d :: s.statics, objects := s.objects + 1 })
  | .report =>
    match s.report with
    | none => (some .undefined, s)
    | some (_, s') => (none, s')
  | .install c => s.install c

def State.run (s : State) : List Op → Res
  | [] => (none, s)
  | op :: ops =>
    match s.step op with
    | (some x, s') => (some x, s')
    | (none, s') => s'.run ops

/-- The destruction of the static variable of `get_reporter`. If the destructor of the reporter reports, the variable is used while it
is destroyed. -/
def State.close (s : State) : Res :=
  match s.slot with
  | .holds k =>
    let s' := ({ s with slot := .gone }).say (.dying k)
    match s.reporters[k]? with
    | none => (none, s')
    | some c => s'.dtor c.dtor
  | _ => (none, s)

/-- The variable of `get_reporter` was initialised during the destruction of another object: it is the next one to be destroyed. -/
def State.closeNew (before : Slot) (s : State) : Res := if before = .fresh then s.close else (none, s)

/-- The end of the program: the reverse order of the completion of the initialisations. -/
def State.unwind (s : State) : List Static → Res
  | [] => (none, s)
  | .slot :: rest =>
    match s.close with
    | (some x, s') => (some x, s')
    | (none, s') => s'.unwind rest
  | .object i d :: rest =>
    match (s.say (.ends i)).dtor d with
    | (some x, s') => (some x, s')
    | (none, s') =>
      match s'.closeNew s.slot with
      | (some x, s'') => (some x, s'')
      | (none, s'') => s''.unwind rest

/-- A whole program. -/
def program (ops : List Op) : Option Stop × List Ev :=
  match State.init.run ops with
  | (some x, s) => (some x, s.log)
  | (none, s) =>
    let (x, s') := (s.say .exit).unwind s.statics
    (x, s'.log)

end Mimic.Install
