import Verif.Model.Scoped

/-!
# Tests: structured programs under a test framework

Models the adapters (`/repo/include/mimic++/adapters/BoostTest.hpp` 20-45, `Catch2.hpp` 21-51, `Doctest.hpp` 20-42,
`gtest.hpp` 20-47) as instances of `BasicReporter` (`/repo/include/mimic++/Reporter.hpp` 322-404), `install_reporter` (634-640)
and what becomes of a whole test: a program with scopes, exceptions, handlers and destructors, at the end of which the framework
says whether it has passed.

The frameworks are not part of the repository. Assumed of them: a failure is recorded before the exception is thrown that is to
end the test (Boost.Test, Catch2, doctest), `GTEST_FAIL` records a failure and throws nothing; a test has passed exactly if no
failure was recorded and no exception left it.

Simplifications: a program is what one execution does, so there are neither variables nor branches nor loops; the lifetime of
expectations, sequences and other objects is that of local variables; the texts are those of `Model/Reports.lean`.
-/

set_option autoImplicit false

namespace Mimic.TestRun

variable {α : Type}

inductive Framework where
  | boostTest
  | catch2
  | doctest
  | gtest
deriving DecidableEq, Repr

/-- The three callbacks of `BasicReporter` (Reporter.hpp 322-333). -/
inductive Message where
  | success
  | warning
  | failure
deriving DecidableEq, Repr

/-- What the framework writes down. -/
inductive Note where
  /-- an assertion that holds -/
  | passed
  /-- a message without consequences -/
  | message
  /-- a failure; the test has failed -/
  | failed
deriving DecidableEq, Repr

/-- What a callback does: what it makes the framework write down, and whether it throws. -/
structure Sent where
  notes : List Note
  throws : Bool
deriving DecidableEq, Repr

/-- The callbacks of the adapters. -/
def Framework.send : Framework → Message → Sent
  /- BoostTest.hpp 31-34 -/
  | .boostTest, .success => ⟨[.message], false⟩
  /- BoostTest.hpp 36-43 -/
  | .boostTest, .warning => ⟨[.message], false⟩
  /- BoostTest.hpp 25-29 -/
  | .boostTest, .failure => ⟨[.failed], true⟩
  /- Catch2.hpp 35-42 -/
  | .catch2, .success => ⟨[.passed], false⟩
  /- Catch2.hpp 44-51 -/
  | .catch2, .warning => ⟨[.message], false⟩
  /- Catch2.hpp 23-33 -/
  | .catch2, .failure => ⟨[.failed], true⟩
  /- Doctest.hpp 31-34 -/
  | .doctest, .success => ⟨[.passed], false⟩
  /- Doctest.hpp 36-39 -/
  | .doctest, .warning => ⟨[.message], false⟩
  /- Doctest.hpp 24-29 -/
  | .doctest, .failure => ⟨[.failed], true⟩
  /- gtest.hpp 38-41 -/
  | .gtest, .success => ⟨[.passed], false⟩
  /- gtest.hpp 43-46: "seems unsupported" -/
  | .gtest, .warning => ⟨[], false⟩
  /- gtest.hpp 25-36 -/
  | .gtest, .failure => ⟨[.failed], true⟩

/-- The reporter that is installed: the one of the library, or that of an adapter. -/
inductive Installed where
  | default (out : Bool)
  | adapter (f : Framework)
deriving DecidableEq, Repr

/-- What the installed reporter does with a report; the number is `std::uncaught_exceptions()`. The default reporter does not
know of a framework. -/
def Installed.react : Installed → Report → Nat → Sent
  /- Reporter.hpp 412-529 -/
  | .default out, r, n => ⟨[], (defaultReporter out r n).throws⟩
  /- Reporter.hpp 338-343 -/
  | .adapter f, .noMatches, _ => f.send .failure
  /- Reporter.hpp 345-350 -/
  | .adapter f, .inapplicableMatches, _ => f.send .failure
  /- Reporter.hpp 352-356 -/
  | .adapter f, .fullMatch, _ => f.send .success
  /- Reporter.hpp 358-365 -/
  | .adapter f, .unfulfilledExpectation, n => if n = 0 then f.send .failure else ⟨[], false⟩
  /- Reporter.hpp 367-373 -/
  | .adapter f, .error, n => if n = 0 then f.send .failure else ⟨[], false⟩
  /- Reporter.hpp 375-383 -/
  | .adapter f, .unhandledException, _ => f.send .warning

/-- The same as a reporter of `Model/Reporter.lean`. -/
def Installed.reporter (k : Installed) : Reporter := fun r n => ⟨!(k.react r n).notes.isEmpty, (k.react r n).throws⟩

/-- Which function of the reporter is called (Reporter.hpp 547-621). -/
def reportOf : Event → Option Report
  | .noMatch _ => some .noMatches
  | .inapplicable _ => some .inapplicableMatches
  | .fullMatch _ => some .fullMatch
  | .unfulfilled _ => some .unfulfilledExpectation
  | .sequenceError _ _ _ => some .error
  | .unhandled _ => some .unhandledException
  | _ => none

/-- What the framework writes down during one operation; `pending` as in `deliver`. -/
def noted (k : Installed) (u : Nat) : Option Exn → List Event → List Note
  | _, [] => []
  | pending, e :: es =>
    (match reportOf e with
     | some r => (k.react r (uncaught u pending)).notes
     | none => []) ++
    noted k u
      (match deliverOne k.reporter u pending e with
       | .ok p => p
       | .error _ => pending) es

/-- An exception on its way through the client's code. -/
inductive Thrown where
  | library (x : Exn)
  /-- one of the client's own -/
  | other (n : Nat)
deriving DecidableEq, Repr

/-- The number of exceptions on their way. -/
def pendings (u : Nat) (x : Option Thrown) : Nat :=
  match x with
  | none => u
  | some _ => u + 1

/-- A running test. `past` is what has been done so far; nothing depends on it. -/
structure Env (α : Type) where
  sw : SWorld α
  installed : Installed
  notes : List Note
  past : STrace α

/-- The beginning of a test. -/
def Env.start (k : Installed) : Env α := { sw := SWorld.init, installed := k, notes := [], past := [] }

/-- One operation of the library, while `u` exceptions are on their way. -/
def Env.perform (t : Env α) (u : Nat) (op : SOp α) : M (Env α × SLog α) :=
  match t.sw.step ⟨t.installed.reporter, u⟩ op with
  | .error x => .error x
  | .ok (sw', log) =>
    .ok ({ t with
            sw := sw'
            notes := t.notes ++ noted t.installed u none (log.lib.flatMap (·.2))
            past := t.past ++ [⟨⟨t.installed.reporter, u⟩, op, log⟩] }, log)

/-- Test programs. -/
inductive Prog (α : Type) where
  | skip
  | seq (p q : Prog α)
  /-- creation of a mock -/
  | mock
  /-- a call of a mock -/
  | call (m : Nat) (a : α)
  /-- `dst = std::move(src);` for two scoped expectations -/
  | assign (dst src : Nat)
  /-- `install_reporter<...>()` -/
  | install (k : Installed)
  /-- `throw ...;` -/
  | throw (n : Nat)
  /-- `{ ScopedExpectation e = ...; rest }` -/
  | expectation (m : Nat) (min max : Int) (tags : List Nat) (policies : List (Policy α)) (rest : Prog α)
  /-- `{ ScopedExpectation e = std::move(src); rest }` -/
  | moved (src : Nat) (rest : Prog α)
  /-- `{ LazySequence s{}; rest }` or `{ GreedySequence s{}; rest }` -/
  | sequence (st : Strategy) (rest : Prog α)
  /-- `{ Object o{}; rest }`, where the destructor of the object executes `cleanup` -/
  | guard (cleanup rest : Prog α)
  /-- `try { body } catch ... { handler }` -/
  | attempt (catches : Thrown → Bool) (body handler : Prog α)

/-- A destructor that may throw, at the end of a block that is left by `pending` (or regularly). -/
def leave (pending : Option Thrown) (t : Env α) (exn : Option Exn) : M (Env α × Option Thrown) :=
  match pending, exn with
  | some _, some _ => .error (.terminate "exception during stack unwinding")
  | some x, none => .ok (t, some x)
  | none, some x => .ok (t, some (.library x))
  | none, none => .ok (t, none)

/-- Execution of a test program (C++ standard: blocks, stack unwinding, `std::uncaught_exceptions`), while `u` exceptions are
on their way. The result is the new state and the exception that leaves the program. -/
def exec (u : Nat) (t : Env α) : Prog α → M (Env α × Option Thrown)
  | .skip => .ok (t, none)
  | .seq p q =>
    match exec u t p with
    | .error x => .error x
    | .ok (t', some x) => .ok (t', some x)
    | .ok (t', none) => exec u t' q
  | .mock =>
    match t.perform u (.plain .newMock) with
    | .error x => .error x
    | .ok (t', log) => .ok (t', log.exn.map .library)
  | .call m a =>
    match t.perform u (.plain (.call m a)) with
    | .error x => .error x
    | .ok (t', log) => .ok (t', log.exn.map .library)
  | .assign dst src =>
    match t.perform u (.moveAssign dst src) with
    | .error x => .error x
    | .ok (t', log) => .ok (t', log.exn.map .library)
  | .install k => .ok ({ t with installed := k }, none)
  | .throw n => .ok (t, some (.other n))
  | .expectation m min max tags policies rest =>
    match t.perform u (.expect m min max tags policies) with
    | .error x => .error x
    | .ok (t₁, log) =>
      match log.slot with
      | none => .ok (t₁, log.exn.map .library)
      | some o =>
        match exec u t₁ rest with
        | .error x => .error x
        | .ok (t₂, pending) =>
          match t₂.perform (pendings u pending) (.drop o) with
          | .error x => .error x
          | .ok (t₃, log) => leave pending t₃ log.exn
  | .moved src rest =>
    match t.perform u (.moveConstruct src) with
    | .error x => .error x
    | .ok (t₁, log) =>
      match log.slot with
      | none => .ok (t₁, log.exn.map .library)
      | some o =>
        match exec u t₁ rest with
        | .error x => .error x
        | .ok (t₂, pending) =>
          match t₂.perform (pendings u pending) (.drop o) with
          | .error x => .error x
          | .ok (t₃, log) => leave pending t₃ log.exn
  | .sequence st rest =>
    match t.perform u (.plain (.newSequence st)) with
    | .error x => .error x
    | .ok (t₁, _) =>
      match exec u t₁ rest with
      | .error x => .error x
      | .ok (t₂, pending) =>
        match t₂.perform (pendings u pending) (.plain (.dropSequence t.sw.w.seqs.length)) with
        | .error x => .error x
        | .ok (t₃, log) => leave pending t₃ log.exn
  | .guard cleanup rest =>
    match exec u t rest with
    | .error x => .error x
    | .ok (t₁, pending) =>
      match exec (pendings u pending) t₁ cleanup with
      | .error x => .error x
      | .ok (_, some _) => .error (.terminate "destructors are noexcept")
      | .ok (t₂, none) => .ok (t₂, pending)
  | .attempt catches body handler =>
    match exec u t body with
    | .error x => .error x
    | .ok (t', none) => .ok (t', none)
    | .ok (t', some x) => if catches x then exec u t' handler else .ok (t', some x)

/-- A whole test. -/
def test (k : Installed) (p : Prog α) : M (Env α × Option Thrown) := exec 0 (Env.start k) p

/-- What the framework says at the end. -/
def passed (r : M (Env α × Option Thrown)) : Bool :=
  match r with
  | .ok (t, none) => !t.notes.contains .failed
  | _ => false

end Mimic.TestRun
