import Verif.Model.World

/-!
# Small steps: what threads do to mocks and sequences

Models the same functions as `Model/World.lean`, but in the steps in which other threads can see them: the critical sections of
`ExpectationCollection::m_ExpectationsMx` (`/repo/include/mimic++/Expectation.hpp` 258-267, 276-289, 307-331) and what lies between
them. Other than `Model/Concurrent.lean`, this includes sequences, which are documented as not thread-safe (Sequence.hpp 54-56): no
mutex protects them.

Every step tells which memory it accesses and which mutex it holds meanwhile.

Simplifications: assertions are compiled in; side effects and finalizers are not modelled; the reference counts of the
`std::shared_ptr`s to sequences are atomic and therefore no memory in this sense.
-/

set_option autoImplicit false

namespace Mimic.Threads

variable {α : Type}

/-- Shared memory: the vector of storage `c` (355), expectation object `e`, sequence object `s`. -/
inductive Loc where
  | storage (c : Nat)
  | exp (e : Nat)
  | seq (s : Nat)
deriving DecidableEq, Repr

/-- Where a thread is. -/
inductive Phase where
  | idle
  /-- in `finalize` (ExpectationBuilder.hpp 154-185): the expectation object exists, but is not stored yet -/
  | built (c e : Nat)
  /-- in `handle_call`, after the loop: the best match has been picked (Expectation.hpp 335) -/
  | matched (e : Nat)
  /-- in `handle_call`, after the report (338) -/
  | reported (e : Nat)
  /-- in `~Model`, after `remove` (602): the expectation has left its storage, but the object is still there -/
  | removed (e : Nat)
deriving DecidableEq, Repr

/-- Steps. -/
inductive Act (α : Type) where
  | newSequence (strategy : Strategy)
  | dropSequence (s : Nat)
  | newMock
  /-- the first half of creating an expectation: the object is constructed and attached to its sequences -/
  | attach (c : Nat) (min max : Int) (tags : List Nat) (policies : List (Policy α))
  /-- the second half: `ExpectationCollection::push` -/
  | push
  /-- a call begins: the matching loop -/
  | scan (c : Nat) (a : α)
  /-- `report_full_match` -/
  | report
  /-- `Expectation::consume` -/
  | consume
  /-- the end of life of a `ScopedExpectation` begins: `ExpectationCollection::remove` -/
  | remove (e : Nat)
  /-- it ends: the expectation object is destroyed -/
  | release
  /-- `ScopedExpectation::is_satisfied` -/
  | query (e : Nat)

/-- What a step did. -/
structure Log where
  ev : List Event := []
  answer : Option Bool := none
  reads : List Loc := []
  writes : List Loc := []
  /-- the storage whose mutex is held during the step -/
  mutex : Option Nat := none
deriving DecidableEq, Repr

/-- The sequences of an expectation, as memory. -/
def _root_.Mimic.Exp.seqLocs (x : Exp α) : List Loc := x.control.entries.map fun en => .seq en.1

/-- The sequences of the expectations of a storage (`make_control_state`, ControlPolicy.hpp 93-161, looks at
all of them). Simplification: also at those of a saturated expectation, of which only the address is used there. -/
def seqsOf (w : World α) (es : List Nat) : List Loc :=
  es.flatMap fun e =>
    match w.exps[e]? with
    | some x => x.seqLocs
    | none => []

/-- The sequence objects that are destroyed. -/
def ended (ev : List Event) : List Loc :=
  ev.filterMap fun e =>
    match e with
    | .sequenceDestroyed s => some (.seq s)
    | _ => none

/-- One step of a thread that is in the given phase. -/
def step (w : World α) : Phase → Act α → M (World α × Phase × Log)
  | .idle, .newSequence st => do
    let (w', ev) ← w.step (.newSequence st)
    return (w', .idle, { ev := ev, writes := [.seq w.seqs.length] })
  /- Sequence.hpp 254-283: the client's `std::shared_ptr` is released -/
  | .idle, .dropSequence s => do
    let (w', ev) ← w.step (.dropSequence s)
    return (w', .idle, { ev := ev, writes := ended ev })
  | .idle, .newMock => do
    let (w', ev) ← w.step .newMock
    return (w', .idle, { ev := ev, writes := [.storage w.colls.length] })
  /- ExpectationBuilder.hpp 154-185, ControlPolicy.hpp 171-182: not locked; may throw before anything is touched -/
  | .idle, .attach c min max tags policies =>
    match w.colls[c]? with
    | none => .error (.client "expectation on a non-existing mock")
    | some _ =>
      if tags.all w.hasHandle && isInt min && isInt max then
        match TimesConfig.make min max, seqConfig tags with
        | some t, some tags => do
          let (h, ctl) ← Control.make t tags w.seqs
          let e := w.exps.length
          return ({ w with seqs := h, exps := w.exps ++ [{ coll := c, control := ctl, policies := policies, alive := true }] },
            .built c e, { ev := [.created e], writes := .exp e :: tags.map .seq })
        | _, _ => .ok (w, .idle, { ev := [.rejected] })
      else .error (.client "in_sequence with a dead sequence object, or a limit that is no int")
  /- Expectation.hpp 258-267 -/
  | .built c e, .push =>
    match w.colls[c]? with
    | none => .error (.ub "null storage")
    | some es => do
      check (!es.contains e) "push: assert(find == end)"
      return ({ w with colls := w.colls.set c (es ++ [e]) }, .idle, { writes := [.storage c], mutex := some c })
  /- 304-335, 342-352 -/
  | .idle, .scan c a =>
    match w.colls[c]? with
    | none => .error (.client "call on a non-existing mock")
    | some es => do
      let r ← scan w a es.reverse
      let log : Log :=
        { ev := r.thrown.map Event.unhandled, reads := .storage c :: es.map .exp ++ seqsOf w es, mutex := some c }
      if !r.full.isEmpty then
        let best ← pickBestMatch r.full
        return (w, .matched best.exp, log)
      else if !r.inapplicable.isEmpty then
        return (w, .idle, { log with ev := log.ev ++ [.inapplicable (r.inapplicable.map (·.exp))] })
      else return (w, .idle, { log with ev := log.ev ++ [.noMatch (r.none.map (·.exp))] })
  /- 336-338: the report has been made in the loop -/
  | .matched e, .report => .ok (w, .reported e, { ev := [.fullMatch e] })
  /- 339, ControlPolicy.hpp 208-222: not locked -/
  | .reported e, .consume => do
    let x ← w.deref e
    let w' ← w.consume e
    return (w', .idle, { reads := .exp e :: x.seqLocs, writes := .exp e :: x.seqLocs })
  /- 276-289: the report on an unfulfilled expectation looks at the sequences, too -/
  | .idle, .remove e =>
    match w.exps[e]? with
    | none => .error (.client "destruction of a non-existing expectation")
    | some x =>
      if !x.alive then .error (.client "destruction of a dead expectation")
      else
        match w.colls[x.coll]? with
        | none => .error (.ub "null storage")
        | some es => do
          check (es.contains e) "remove: assert(iter != end)"
          return ({ w with colls := w.colls.set x.coll (es.erase e) }, .removed e,
            { ev := .destroyed e :: (if x.isSatisfied then [] else [.unfulfilled e]),
              reads := .exp e :: (if x.isSatisfied then [] else x.seqLocs), writes := [.storage x.coll], mutex := some x.coll })
  /- the members of `Model` (622-623) are destroyed, among them the `std::shared_ptr`s to the sequences -/
  | .removed e, .release =>
    match w.exps[e]? with
    | none => .error (.ub "use of a non-existing expectation")
    | some x => do
      let (w', ev) ← World.releaseAll { w with exps := w.exps.set e { x with alive := false } } (x.control.entries.map (·.1))
      return (w', .idle, { ev := ev, writes := .exp e :: ended ev })
  /- 710-713, 619-622 -/
  | .idle, .query e =>
    match w.exps[e]? with
    | none => .error (.client "use of a dead object")
    | some x =>
      if x.alive then .ok (w, .idle, { answer := some x.isSatisfied, reads := [.exp e] })
      else .error (.client "use of a dead object")
  | _, _ => .error (.client "the thread is somewhere else")

/-- A thread alone: what is left, and what was seen. -/
def alone (w : World α) (p : Phase) : List (Act α) → M (World α × Phase × List Log)
  | [] => .ok (w, p, [])
  | a :: as => do
    let (w', p', log) ← step w p a
    let (w'', p'', logs) ← alone w' p' as
    return (w'', p'', log :: logs)

/-- Several threads on one instance of the library. -/
structure State (ι α : Type) where
  world : World α
  phase : ι → Phase

variable {ι : Type}

/-- Before the threads start. -/
def State.init : State ι α := { world := .init, phase := fun _ => .idle }

/-- Thread `i` makes a step. -/
def State.step [DecidableEq ι] (s : State ι α) (i : ι) (a : Act α) : M (State ι α × Log) := do
  let (w, p, log) ← Threads.step s.world (s.phase i) a
  return ({ world := w, phase := fun k => if k = i then p else s.phase k }, log)

/-- The threads make steps in the given order. -/
def State.run [DecidableEq ι] (s : State ι α) : List (ι × Act α) → M (State ι α × List (ι × Log))
  | [] => .ok (s, [])
  | (i, a) :: as => do
    let (s', log) ← s.step i a
    let (s'', logs) ← s'.run as
    return (s'', (i, log) :: logs)

end Mimic.Threads
