import Verif.Model.World

/-!
# Several threads

Models the interleavings of `ExpectationCollection`'s member functions (`/repo/include/mimic++/Expectation.hpp` 200-357), of
the end of life of a `ScopedExpectation` (600-645) and of `ScopedExpectation::is_satisfied` (710-713).

A schedule is a list of steps, each made by one thread. A critical section of `m_ExpectationsMx` (356) is one step, everything
between two critical sections that touches shared memory is one step; so a call of a mock is up to three steps: the matching
loop (308-331, locked), the report (336-338, not locked), and counting (339, not locked). Every step says which memory it
reads and writes and which mutex it takes, so that data races are visible in the schedule; a schedule with a data race is
undefined behaviour, whatever the steps do.

Simplifications: no sequences, because they are documented as not thread-safe (Sequence.hpp 54-56); all mocks exist before
the threads start; side effects and finalizers are not modelled; the installed reporter is not exchanged (see `Model/Shared.lean`).
-/

set_option autoImplicit false

namespace Mimic

variable {α : Type}

/-- Shared memory: the vector of storage `c` (`m_Expectations`, 355), and the expectation object `e`. -/
inductive Loc where
  | storage (c : Nat)
  | exp (e : Nat)
deriving DecidableEq, Repr

/-- Mutexes: that of a storage (356), and those of the client. -/
inductive Mutex where
  | storage (c : Nat)
  | client (k : Nat)
deriving DecidableEq, Repr

/-- Where a thread is. -/
inductive Local where
  | idle
  /-- in `handle_call`, after the loop: the best match has been picked (335) -/
  | matched (c e : Nat)
  /-- in `handle_call`, after the report (338) -/
  | reported (c e : Nat)
  /-- in `~Model`, after `remove` (602): the expectation has left its storage, but the object is still there -/
  | removed (e : Nat)
deriving DecidableEq, Repr

structure KWorld (α : Type) where
  w : World α
  threads : List Local
  /-- the client's mutexes that are held, and by whom -/
  held : List (Nat × Nat)

/-- `n` threads and `m` mocks. -/
def KWorld.init (n m : Nat) : KWorld α :=
  { w := { seqs := [], exps := [], colls := List.replicate m [] }, threads := List.replicate n .idle, held := [] }

/-- Steps of a thread. -/
inductive KAct (α : Type) where
  /-- `ScopedExpectation e = ...` -/
  | expect (c : Nat) (min max : Int) (policies : List (Policy α))
  /-- a call begins: the matching loop -/
  | scan (c : Nat) (a : α)
  /-- `report_full_match` -/
  | report
  /-- `Expectation::consume` -/
  | consume
  /-- the end of life of a `ScopedExpectation` begins: `ExpectationCollection::remove` -/
  | remove (e : Nat)
  /-- it ends: the expectation object is destroyed -/
  | release
  /-- `ScopedExpectation::is_satisfied` -/
  | query (e : Nat)
  /-- the client locks a mutex of its own (also possible in the middle of a call: from a printer or the reporter) -/
  | lock (k : Nat)
  | unlock (k : Nat)

/-- What a step does, as far as others are concerned. -/
structure KLog where
  ev : List Event := []
  reads : List Loc := []
  writes : List Loc := []
  acquires : Option Mutex := none
  releases : Option Mutex := none
  /-- the expectation that will resolve the call -/
  chosen : Option Nat := none
  answer : Option Bool := none

/-- ControlPolicy.hpp 208-222 without sequences and compiled with `NDEBUG`: `assert(is_applicable())` is not there. -/
def World.count (w : World α) (e : Nat) : M (World α) := do
  let x ← w.deref e
  let n ← toInt (x.control.count + 1)
  return { w with exps := w.exps.set e { x with control := { x.control with count := n } } }

/-- `consume`, with or without assertions. -/
def World.consumeIn (asserts : Bool) (w : World α) (e : Nat) : M (World α) :=
  if asserts then w.consume e else w.count e

/-- Changes the state of thread `t`. -/
def KWorld.at (kw : KWorld α) (t : Nat) (l : Local) : KWorld α := { kw with threads := kw.threads.set t l }

/-- One step of thread `t`. -/
def KWorld.step (asserts : Bool) (kw : KWorld α) (t : Nat) : KAct α → M (KWorld α × KLog)
  /- 258-267; before, the object is built, which nobody else can see -/
  | .expect c min max policies =>
    if kw.threads[t]? = some .idle then do
      let (w', ev) ← kw.w.step (.expect c min max [] policies)
      if ev = [.rejected] then return ({ kw with w := w' }, { ev := ev })
      else
        return ({ kw with w := w' },
          { ev := ev, writes := [.storage c, .exp kw.w.exps.length],
            acquires := some (.storage c), releases := some (.storage c) })
    else .error (.client "the thread is busy")
  /- 304-335, 342-352 -/
  | .scan c a =>
    if kw.threads[t]? = some .idle then
      match kw.w.colls[c]? with
      | none => .error (.client "call on a non-existing mock")
      | some es => do
        let r ← scan kw.w a es.reverse
        let log : KLog :=
          { ev := r.thrown.map Event.unhandled, reads := .storage c :: es.map .exp,
            acquires := some (.storage c), releases := some (.storage c) }
        if !r.full.isEmpty then
          let best ← pickBestMatch r.full
          return (kw.at t (.matched c best.exp), { log with chosen := some best.exp })
        else if !r.inapplicable.isEmpty then
          return (kw, { log with ev := log.ev ++ [.inapplicable (r.inapplicable.map (·.exp))] })
        else return (kw, { log with ev := log.ev ++ [.noMatch (r.none.map (·.exp))] })
    else .error (.client "the thread is busy")
  /- 336-338 -/
  | .report =>
    match kw.threads[t]? with
    | some (.matched c e) => .ok (kw.at t (.reported c e), { ev := [.fullMatch e] })
    | _ => .error (.client "nothing to report")
  /- 339, through the reference that the loop took from the storage (327) -/
  | .consume =>
    match kw.threads[t]? with
    | some (.reported _ e) => do
      let w' ← kw.w.consumeIn asserts e
      return ({ kw with w := w' }.at t .idle, { reads := [.exp e], writes := [.exp e] })
    | _ => .error (.client "nothing to consume")
  /- 276-289 -/
  | .remove e =>
    if kw.threads[t]? = some .idle then
      if kw.threads.contains (.removed e) then .error (.client "destruction of a dead expectation")
      else
        match kw.w.exps[e]? with
        | none => .error (.client "destruction of a non-existing expectation")
        | some x =>
          if !x.alive then .error (.client "destruction of a dead expectation")
          else
            match kw.w.colls[x.coll]? with
            | none => .error (.ub "null storage")
            | some es => do
              check (es.contains e) "remove: assert(iter != end)"
              return ({ kw with w := { kw.w with colls := kw.w.colls.set x.coll (es.erase e) } }.at t (.removed e),
                { ev := .destroyed e :: (if x.isSatisfied then [] else [.unfulfilled e]), reads := [.exp e],
                  writes := [.storage x.coll], acquires := some (.storage x.coll), releases := some (.storage x.coll) })
    else .error (.client "the thread is busy")
  /- the members of `Model` (622-623) are destroyed -/
  | .release =>
    match kw.threads[t]? with
    | some (.removed e) =>
      .ok ({ kw with w := { kw.w with exps := kw.w.exps.modify e (fun x => { x with alive := false }) } }.at t .idle,
        { writes := [.exp e] })
    | _ => .error (.client "nothing to release")
  /- 710-713, 619-622 -/
  | .query e =>
    if kw.threads[t]? = some .idle then
      if kw.threads.contains (.removed e) then .error (.client "use of a dead object")
      else
        match kw.w.exps[e]? with
        | none => .error (.client "use of a dead object")
        | some x =>
          if x.alive then .ok (kw, { reads := [.exp e], answer := some x.isSatisfied })
          else .error (.client "use of a dead object")
    else .error (.client "the thread is busy")
  | .lock k =>
    if t < kw.threads.length ∧ ∀ h ∈ kw.held, h.1 ≠ k then
      .ok ({ kw with held := (k, t) :: kw.held }, { acquires := some (.client k) })
    else .error (.client "the thread has to wait")
  | .unlock k =>
    if (k, t) ∈ kw.held then
      .ok ({ kw with held := kw.held.erase (k, t) }, { releases := some (.client k) })
    else .error (.client "unlock of a mutex that is not held")

/-- One step of a schedule, with what it did. -/
structure KEntry (α : Type) where
  thread : Nat
  act : KAct α
  log : KLog

/-- Steps made so far, oldest first. -/
abbrev KTrace (α : Type) := List (KEntry α)

/-- Schedules of `n` threads with `m` mocks. -/
inductive KReach (asserts : Bool) (n m : Nat) : KTrace α → KWorld α → Prop where
  | init : KReach asserts n m [] (KWorld.init n m)
  | step {tr : KTrace α} {kw kw' : KWorld α} {t : Nat} {act : KAct α} {log : KLog} :
    KReach asserts n m tr kw → kw.step asserts t act = .ok (kw', log) → KReach asserts n m (tr ++ [⟨t, act, log⟩]) kw'

end Mimic
