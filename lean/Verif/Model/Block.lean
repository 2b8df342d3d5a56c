/-!
# Threads that wait for each other, with all kinds of client code

Models which mutexes are taken and given back when several threads use mocks, and the code that the client gave to the library uses
mocks, too: matchers, printers of arguments, the reporter, side effects, finalizers and the destructors of what an expectation holds.
Each mock has one mutex per signature, `m_ExpectationsMx` (`/repo/include/mimic++/Expectation.hpp` 356); here it has the mock's number.

* `ExpectationCollection::push` (258-267) takes it and runs no client code while it is held;
* `ExpectationCollection::remove` (276-289) takes it and reports an unfulfilled expectation while it is held (286-287);
* `ExpectationCollection::handle_call` (301-352) takes it while the expectations are asked (307-330), where an exception of a matcher is
  reported to the reporter (27-46) with the arguments in printed form; what happens after that happens without it (332-351).

Simplifications: which code an operation runs is a relation, so that it may depend on everything, and the order of the pieces of code
within each of the two phases (with the mutex and after it) is any one. Results of operations are numbers, `none` for an exception; an
exception may skip any part of what follows. What happens to sequences and counters meanwhile is not modelled here, nor data races on
them (`Model/Concurrent.lean`). `Model/LockOrder.lean` is the case of calls whose matchers make calls.
-/

set_option autoImplicit false

namespace Mimic.Block

/-- The operations that client code may ask for. -/
inductive Act (α : Type) where
  /-- `handle_call`, 301-352 -/
  | call (m : Nat) (a : α)
  /-- `push`, 258-267, by `ScopedExpectation::Model`, 606-617 -/
  | declare (m : Nat)
  /-- `remove`, 276-289, by `~ScopedExpectation`, 641-645, 600-603; the sequences `ss` may end together with the expectation. -/
  | withdraw (m : Nat) (ss : List Nat)
  /-- `~BasicSequence`, Sequence.hpp 90-110, when the client's sequence object ends -/
  | drop (s : Nat)

/-- The mutex that the operation waits for: 260, 278, 307; the end of a sequence (Sequence.hpp 90-110) takes none. -/
def Act.mutex {α : Type} : Act α → Option Nat
  | .call m _ => some m
  | .declare m => some m
  | .withdraw m _ => some m
  | .drop _ => none

/-- A piece of client code: it comes to an end or asks for an operation and goes on according to its result. -/
inductive Code (α : Type) where
  | stop
  | act (k : Act α) (next : Option Nat → Code α)

/-- The code that the client gave to the library. -/
structure Client (α : Type) where
  /-- the matchers of the expectations of a mock, asked about a call with these arguments (33-36) -/
  matching : Nat → α → Code α → Prop
  /-- printing these arguments for a report (`make_call_report`, Reports.hpp 233-264) -/
  printing : Nat → α → Code α → Prop
  /-- the reporter, given the exception that a matcher has thrown (37-43) -/
  unhandled : Nat → Code α → Prop
  /-- the reporter, given the outcome of a call (335-337, 344-346, 349-351) -/
  outcome : Nat → Code α → Prop
  /-- the side effects and the finalizer of the chosen expectation (338-339) -/
  effects : Nat → α → Code α → Prop
  /-- the reporter, given an unfulfilled expectation (286-287) -/
  unfulfilled : Nat → Code α → Prop
  /-- the destructors of what an expectation of the mock holds -/
  ending : Nat → Code α → Prop
  /-- the reporter, given the error of a sequence at its end (Sequence.hpp 103-108) -/
  broken : Nat → Code α → Prop

/-- The client code that an operation runs: the first list while it holds the mutex, the second one after that. -/
inductive Does {α : Type} (C : Client α) : Act α → List (Code α) → List (Code α) → Prop where
  /- 307-330 with 27-46; then 332-351 -/
  | call {m : Nat} {a : α} {ps rs : List (Code α)} : (∀ c ∈ ps, C.matching m a c ∨ C.printing m a c ∨ C.unhandled m c) →
    (∀ c ∈ rs, C.printing m a c ∨ C.outcome m c ∨ C.effects m a c) → Does C (.call m a) ps rs
  /- 260-266 -/
  | declare {m : Nat} : Does C (.declare m) [] []
  /- 278-288; then the end of the expectation object, which gives up its sequences (Sequence.hpp 90-110) -/
  | withdraw {m : Nat} {ss : List Nat} {ps rs : List (Code α)} : (∀ c ∈ ps, C.unfulfilled m c) →
    (∀ c ∈ rs, C.ending m c ∨ ∃ s ∈ ss, C.broken s c) → Does C (.withdraw m ss) ps rs
  /- Sequence.hpp 90-110 -/
  | drop {s : Nat} {rs : List (Code α)} : (∀ c ∈ rs, C.broken s c) → Does C (.drop s) [] rs

/-- An operation that is being carried out: the mutex it holds, the code it runs while holding it, and the code it runs afterwards. If the
code in `now` begins with an operation, that operation is the next level, or it is about to begin. -/
structure Level (α : Type) where
  lock : Option Nat
  now : List (Code α)
  later : List (Code α)

/-- The operations that a thread is in, the innermost first; the last one is the thread's own code. -/
abbrev Thread (α : Type) := List (Level α)

/-- A thread at its beginning. -/
def Thread.start {α : Type} (c : Code α) : Thread α := [⟨none, [c], []⟩]

/-- The mutex that a thread is about to lock. -/
def Thread.wants {α : Type} : Thread α → Option Nat
  | ⟨_, .act k _ :: _, _⟩ :: _ => k.mutex
  | _ => none

/-- The thread holds the mutex of `m`. -/
def Thread.locks {α : Type} (t : Thread α) (m : Nat) : Prop := ∃ L ∈ t, L.lock = some m

/-- The thread has come to its end. -/
def Thread.done {α : Type} (t : Thread α) : Prop := t = [⟨none, [], []⟩]

/-- What a thread does next. -/
inductive TStep {α : Type} (C : Client α) : Thread α → Thread α → Prop where
  /-- an operation begins; 260, 278, 307 lock the mutex -/
  | enter {k : Act α} {ps rs : List (Code α)} {l : Option Nat} {next : Option Nat → Code α} {qs later : List (Code α)} {st : Thread α} :
    Does C k ps rs → TStep C (⟨l, .act k next :: qs, later⟩ :: st) (⟨k.mutex, ps, rs⟩ :: ⟨l, .act k next :: qs, later⟩ :: st)
  /-- a piece of code ends; if it does so with an exception, some of what would follow is skipped -/
  | stop {l : Option Nat} {qs later : List (Code α)} {st : Thread α} (i j : Nat) :
    TStep C (⟨l, .stop :: qs, later⟩ :: st) (⟨l, qs.drop i, later.drop j⟩ :: st)
  /-- 330, 289: the mutex is given back, and more is to do -/
  | unlock {l : Option Nat} {c : Code α} {later : List (Code α)} {st : Thread α} :
    TStep C (⟨l, [], c :: later⟩ :: st) (⟨none, c :: later, []⟩ :: st)
  /-- the operation ends, with any result; if the mutex is still held, it is given back -/
  | back {l l' : Option Nat} {k : Act α} {next : Option Nat → Code α} {qs later : List (Code α)} {st : Thread α} (x : Option Nat) :
    TStep C (⟨l, [], []⟩ :: ⟨l', .act k next :: qs, later⟩ :: st) (⟨l', next x :: qs, later⟩ :: st)

/-- One thread goes on. It can only lock a mutex that nobody holds. -/
inductive LStep {α : Type} (C : Client α) : List (Thread α) → List (Thread α) → Prop where
  | go {pre post : List (Thread α)} {t t' : Thread α} : TStep C t t' →
    (∀ m, t.wants = some m → ∀ u ∈ pre ++ t :: post, ¬ u.locks m) → LStep C (pre ++ t :: post) (pre ++ t' :: post)

/-- States that some schedule leads to, when the threads start with these pieces of code. -/
inductive LReach {α : Type} (C : Client α) : List (Thread α) → Prop where
  | start (mains : List (Code α)) : LReach C (mains.map Thread.start)
  | step {ts ts' : List (Thread α)} : LReach C ts → LStep C ts ts' → LReach C ts'

end Mimic.Block
