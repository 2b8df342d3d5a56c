import Verif.Spec.Threads

/-!
# Specification: a mutex for each group of objects that belong together

The client divides the mocks, sequences and expectations of a test into groups, so that every expectation belongs to the group of its mock
and its sequences, and has a mutex for each group. Threads lock the mutex of a group, carry out operations on objects of the group, and unlock
it.
-/

set_option autoImplicit false

namespace Mimic.Groups

open Threads
open Parts (Names)

variable {α τ ι : Type}

/-- What a thread does next: it locks or unlocks the mutex of a group, or makes a step of an operation on objects of a group. (The objects of
each group are numbered on their own.) -/
inductive Item (ι α : Type) where
  | lock (i : ι)
  | unlock (i : ι)
  | act (i : ι) (a : Act α)

/-- Threads `τ` and groups `ι`: the state of the library, the objects of each group, who holds the mutex of each group, and in which group each
thread carried out (or is still carrying out) its last operation. -/
structure Guarded (τ ι α : Type) where
  state : State τ α
  names : ι → Names
  held : ι → Option τ
  group : τ → Option ι

/-- Before the threads start. -/
def Guarded.init : Guarded τ ι α := { state := .init, names := fun _ => .nothing, held := fun _ => none, group := fun _ => none }

/-- What was done, and what was seen of it. -/
inductive Record (τ ι : Type) where
  | locked (t : τ) (i : ι)
  | unlocked (t : τ) (i : ι)
  | did (t : τ) (i : ι) (x : Entry)

variable [DecidableEq τ] [DecidableEq ι]

/-- Thread `t` goes on. -/
def Guarded.step (g : Guarded τ ι α) (t : τ) : Item ι α → M (Guarded τ ι α × Record τ ι)
  | .lock i => .ok ({ g with held := fun k => if k = i then some t else g.held k }, .locked t i)
  | .unlock i => .ok ({ g with held := fun k => if k = i then none else g.held k }, .unlocked t i)
  | .act i a =>
    match act (g.names i) a with
    | none => .error (.client "use of an object that was never created")
    | some a' => do
      let (s, log) ← g.state.step t a'
      let N := log.ev.foldl Names.learn (g.names i)
      return ({ g with state := s, names := fun k => if k = i then N else g.names k, group := fun u => if u = t then some i else g.group u },
        .did t i ⟨(log.ev.map N.event, log.answer), log⟩)

/-- The threads go on in the given order. -/
def Guarded.run (g : Guarded τ ι α) : List (τ × Item ι α) → M (Guarded τ ι α × List (Record τ ι))
  | [] => .ok (g, [])
  | (t, a) :: as => do
    let (g', x) ← g.step t a
    let (g'', xs) ← g'.run as
    return (g'', x :: xs)

/-- The mutexes are mutexes (they are locked only if nobody holds them), and the threads use them as they should: a thread unlocks what it
has locked, but not in the middle of an operation on that group, and carries out operations only on groups whose mutex it holds; it
finishes an operation before it begins the next one. -/
def Guarded.proper (g : Guarded τ ι α) (t : τ) : Item ι α → Prop
  | .lock i => g.held i = none
  | .unlock i => g.held i = some t ∧ (g.state.phase t = .idle ∨ g.group t ≠ some i)
  | .act i _ => g.held i = some t ∧ (g.state.phase t = .idle ∨ g.group t = some i)

/-- This is so all the time. -/
def Guarded.Proper (g : Guarded τ ι α) : List (τ × Item ι α) → Prop
  | [] => True
  | (t, a) :: as => g.proper t a ∧ ∀ g' x, g.step t a = .ok (g', x) → g'.Proper as

/-- The steps made in a group, by any thread. -/
def within (i : ι) (as : List (τ × Item ι α)) : List (Act α) :=
  as.filterMap fun a =>
    match a.2 with
    | .act k b => if k = i then some b else none
    | _ => none

/-- What was seen in a group. -/
def seenIn (i : ι) (xs : List (Record τ ι)) : List Event :=
  xs.flatMap fun x =>
    match x with
    | .did _ k e => if k = i then e.seen.1 else []
    | _ => []

end Mimic.Groups
