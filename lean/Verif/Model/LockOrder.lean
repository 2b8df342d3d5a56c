import Verif.Model.Nested

/-!
# Several threads whose matchers call mocks

Models which mutexes are taken and given back by `ExpectationCollection::handle_call` (`/repo/include/mimic++/Expectation.hpp`
301-352) when several threads call mocks and the matchers call further mocks: `std::scoped_lock lock{m_ExpectationsMx}` (307) is
taken before the first expectation is asked and given back after the last one was.

Simplifications: which matchers a call asks is a relation, so that it may depend on everything; the answers are not kept, and the
result of a nested call is any one. What happens to sequences and counters meanwhile is not modelled here (`Model/Concurrent.lean`
shows that it takes place without a lock).
-/

set_option autoImplicit false

namespace Mimic.Nested

variable {α : Type}

/-- The loop of one call, with what is left of its matchers. -/
abbrev Level (α : Type) := Nat × List (Ask α)

/-- A thread: the loops it is in, the innermost first, and the calls it will make after that. -/
structure Thread (α : Type) where
  stack : List (Level α)
  todo : List (Nat × α)

/-- The call that a thread is about to begin; 307 waits for that mock's mutex. -/
def Thread.wants : Thread α → Option (Nat × α)
  | ⟨[], c :: _⟩ => some c
  | ⟨(_, .call m a _ :: _) :: _, _⟩ => some (m, a)
  | _ => none

/-- What a thread does next. `Asks m a ps`: a call of `m` with `a` may ask the matchers `ps`. -/
inductive TStep (Asks : Nat → α → List (Ask α) → Prop) : Thread α → Thread α → Prop where
  | enter {m : Nat} {a : α} {ps : List (Ask α)} {todo : List (Nat × α)} :
    Asks m a ps → TStep Asks ⟨[], (m, a) :: todo⟩ ⟨[(m, ps)], todo⟩
  | nest {k m : Nat} {a : α} {next : Option Nat → Ask α} {qs ps : List (Ask α)} {st : List (Level α)} {todo : List (Nat × α)} :
    Asks m a ps → TStep Asks ⟨(k, .call m a next :: qs) :: st, todo⟩ ⟨(m, ps) :: (k, .call m a next :: qs) :: st, todo⟩
  | answer {k : Nat} {b : Bool} {qs : List (Ask α)} {st : List (Level α)} {todo : List (Nat × α)} :
    TStep Asks ⟨(k, .answer b :: qs) :: st, todo⟩ ⟨(k, qs) :: st, todo⟩
  /- the other matchers of the same expectation are not asked (35-44, 510-518) -/
  | throws {k n : Nat} {qs : List (Ask α)} {st : List (Level α)} {todo : List (Nat × α)} :
    TStep Asks ⟨(k, .throws :: qs) :: st, todo⟩ ⟨(k, qs.drop n) :: st, todo⟩
  | back {k m m' : Nat} {a : α} {next : Option Nat → Ask α} {qs : List (Ask α)} {st : List (Level α)} {todo : List (Nat × α)}
      (r : Option Nat) :
    TStep Asks ⟨(m, []) :: (k, .call m' a next :: qs) :: st, todo⟩ ⟨(k, next r :: qs) :: st, todo⟩
  | leave {m : Nat} {todo : List (Nat × α)} : TStep Asks ⟨[(m, [])], todo⟩ ⟨[], todo⟩

/-- The mutex of mock `m` is locked by a thread. -/
def Thread.locks (t : Thread α) (m : Nat) : Prop := ∃ ps, (m, ps) ∈ t.stack

/-- One thread goes on. It can only begin a call if nobody holds that mock's mutex. -/
inductive LStep (Asks : Nat → α → List (Ask α) → Prop) : List (Thread α) → List (Thread α) → Prop where
  | go {pre post : List (Thread α)} {t t' : Thread α} : TStep Asks t t' →
    (∀ m a, t.wants = some (m, a) → ∀ u ∈ pre ++ t :: post, ¬ u.locks m) → LStep Asks (pre ++ t :: post) (pre ++ t' :: post)

/-- States that some schedule leads to, when each thread starts with a list of calls to make. -/
inductive LReach (Asks : Nat → α → List (Ask α) → Prop) : List (Thread α) → Prop where
  | start (calls : List (List (Nat × α))) : LReach Asks (calls.map (⟨[], ·⟩))
  | step {ts ts' : List (Thread α)} : LReach Asks ts → LStep Asks ts ts' → LReach Asks ts'

end Mimic.Nested
