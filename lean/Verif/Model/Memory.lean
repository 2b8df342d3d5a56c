import Verif.Model.Fragile
import Verif.Model.Reach

/-!
# Running out of memory

Models what `/repo/include/mimic++/Expectation.hpp` 27-46, 258-289 and 300-352,
`/repo/include/mimic++/ExpectationBuilder.hpp` 154-185 and `/repo/include/mimic++/Sequence.hpp` 90-110 do when an allocation
fails. `/repo/include/mimic++/Reporter.hpp` 538-612 decides which of the functions that emit reports may let an exception out.

An operation allocates at a number of points. Each of them is represented by a flag which says that at least one of the
allocations made there fails, i.e. that `std::bad_alloc` is thrown there. Functions that are `noexcept` terminate the
program then. `std::ranges::find`, `erase`, `pick_best_match` and the `consume` of the control policy do not allocate.

Simplifications: what the client's side effects and finalizers do (they run after the expectation has been consumed) is
not part of this; if the message of a rejected description cannot be stored, `std::bad_alloc` comes out in place of
`std::invalid_argument`, and this counts as rejected, too; the reporter object exists
(`get_reporter`, Reporter.hpp 539-545, makes one on its first use, and is `noexcept`).
-/

set_option autoImplicit false

namespace Mimic.Memory

/-- The points where a call allocates. -/
structure CallPoints where
  /-- Expectation.hpp 502-521 within 36: the state of the control policy, the outcomes and descriptions of expectation `e`
  (and whatever its matchers allocate). -/
  asking : Nat → Bool
  /-- Expectation.hpp 38-43: the reports about the call and about expectation `e`, and the reporter called with them. -/
  telling : Nat → Bool
  /-- Expectation.hpp 316-324: storing the report of expectation `e` in one of the three vectors. -/
  keeping : Nat → Bool
  /-- Expectation.hpp 337, 347, 352: `make_call_report`. -/
  report : Bool
  /-- Expectation.hpp 336, 346, 351: what the reporter allocates. -/
  reporter : Bool

/-- Nothing fails. -/
def CallPoints.good : CallPoints := ⟨fun _ => false, fun _ => false, fun _ => false, false, false⟩

/-- The points where the creation of an expectation allocates. -/
structure CreatePoints where
  /-- Sequence.hpp 185-198: a new entry in a sequence. -/
  attaching : Bool
  /-- ExpectationBuilder.hpp 177-184: the expectation object, and the control block of the `std::shared_ptr` made from it. -/
  object : Bool
  /-- Expectation.hpp 653-665 (`ScopedExpectation`'s constructor) and 605-617, 266 (`push`). -/
  handle : Bool

/-- The points where the end of an expectation or of a sequence object allocates. -/
structure EndPoints where
  /-- Expectation.hpp 286-287: the report about the expectation, and the reporter called with it. -/
  telling : Bool
  /-- Sequence.hpp 103-108: the message about an unfulfilled sequence, and the reporter called with it. -/
  ending : Bool

/-- How an operation ends. -/
inductive End where
  /-- as usual -/
  | done (ev : List Event)
  /-- `std::bad_alloc` comes out; this was observed besides -/
  | threw (ev : List Event)
  /-- `std::bad_alloc` comes out of the creation of an expectation; the model gives this attempt the number `e` -/
  | failed (e : Nat)
deriving DecidableEq, Repr

/-- The loop over the expectations has ended. -/
inductive Scanned where
  /-- all expectations have been asked -/
  | all (r : Scan)
  /-- a report could not be stored; these expectations had been reported as throwing -/
  | exhausted (thrown : List Nat)

/-- Expectation.hpp 308-331 with 27-46: the loop over the expectations, youngest first. `make_match_report` is `noexcept`
and catches what its `try` block throws, but not what its handler throws. -/
def scan {α : Type} (w : World α) (a : α) (p : CallPoints) : List Nat → M Scanned
  | [] => .ok (.all { full := [], inapplicable := [], none := [], thrown := [] })
  | e :: rest => do
    let x ← w.deref e
    let rep ← x.matchReport e w.seqs a
    match if p.asking e then Option.none else rep with
    | Option.none =>
      if p.telling e then .error (.terminate "make_match_report is noexcept")
      else
        match ← scan w a p rest with
        | .exhausted t => return .exhausted (e :: t)
        | .all r => return .all { r with thrown := e :: r.thrown }
    | some rep =>
      if p.keeping e then return .exhausted []
      else
        match ← scan w a p rest with
        | .exhausted t => return .exhausted t
        | .all r =>
          match evaluateMatchReport rep with
          | .none => return .all { r with none := rep :: r.none }
          | .inapplicable => return .all { r with inapplicable := rep :: r.inapplicable }
          | .full => return .all { r with full := rep :: r.full }

/-- Expectation.hpp 300-352: `handle_call`. `report_full_match` is `noexcept` (Reporter.hpp 585-594), but its arguments
are made by the caller; the other two functions are not. -/
def handleCall {α : Type} (w : World α) (coll : Nat) (a : α) (p : CallPoints) : M (World α × End) :=
  match w.colls[coll]? with
  | none => .error (.client "call on a non-existing mock")
  | some es => do
    match ← scan w a p es.reverse with
    | .exhausted t => return (w, .threw (t.map Event.unhandled))
    | .all r =>
      let unhandled := r.thrown.map Event.unhandled
      if !r.full.isEmpty then
        let best ← pickBestMatch r.full
        if p.report then return (w, .threw unhandled)
        else if p.reporter then .error (.terminate "report_full_match is noexcept")
        else
          let w' ← w.consume best.exp
          return (w', .done (unhandled ++ [.fullMatch best.exp]))
      else if p.report || p.reporter then return (w, .threw unhandled)
      else if !r.inapplicable.isEmpty then
        return (w, .done (unhandled ++ [.inapplicable (r.inapplicable.map (·.exp))]))
      else
        return (w, .done (unhandled ++ [.noMatch (r.none.map (·.exp))]))

/-- ExpectationBuilder.hpp 154-185 and Expectation.hpp 605-665. The constructor of the control policy, which attaches the
expectation to its sequences, is `noexcept` (ControlPolicy.hpp 169-181), so are those of `ScopedExpectation` and `Model`.
Between them the expectation object is made: if this fails, nothing is detached from the sequences. -/
def expect {α : Type} (w : World α) (coll : Nat) (min max : Int) (tags : List Nat) (policies : List (Policy α))
    (p : CreatePoints) : M (World α × End) :=
  match w.colls[coll]? with
  | none => .error (.client "expectation on a non-existing mock")
  | some _ =>
    if tags.all w.hasHandle && isInt min && isInt max then
      match TimesConfig.make min max, seqConfig tags with
      | some t, some tags' =>
        if p.attaching && !tags'.isEmpty then .error (.terminate "the constructor of ControlPolicy is noexcept")
        else if p.object then do
          let (w', _) ← Fragile.finalizeThrows w coll t tags' policies
          return (w', .failed w.exps.length)
        else if p.handle then .error (.terminate "the constructor of ScopedExpectation is noexcept")
        else do
          let (w', ev) ← w.expect coll min max tags policies
          return (w', .done ev)
      | _, _ => return (w, .done [.rejected])
    else .error (.client "in_sequence with a dead sequence object, or a limit that is no int")

/-- Whether an observation is the error a sequence reports at its end. -/
def isSequenceError : Event → Bool
  | .sequenceError .. => true
  | _ => false

/-- Sequence.hpp 90-110 and the contract of `std::shared_ptr`, whose destructor is `noexcept`: an exception that comes out
of the destructor of a sequence terminates the program. -/
def ends {α : Type} (p : EndPoints) (r : World α × List Event) : M (World α × List Event) :=
  if p.ending && r.2.any isSequenceError then .error (.terminate "the destructor of std::shared_ptr is noexcept") else .ok r

/-- Expectation.hpp 600-603, 276-289: the expectation is erased before the report is made; neither `remove` nor `~Model`
(which is `noexcept(false)`) catches anything, and the expectation object is destroyed in any case. -/
def destroy {α : Type} (w : World α) (e : Nat) (p : EndPoints) : M (World α × End) := do
  let r ← w.destroyExp e
  let (w', ev) ← ends p r
  if p.telling && ev.contains (.unfulfilled e) then return (w', .threw (ev.filter (· ≠ .unfulfilled e)))
  else return (w', .done ev)

/-- What a client can do, and where memory runs out meanwhile. -/
inductive MOp (α : Type) where
  /-- `fails`: Sequence.hpp 280-282, `std::make_shared` -/
  | newSequence (strategy : Strategy) (fails : Bool)
  | dropSequence (s : Nat) (p : EndPoints)
  /-- `fails`: Mock.hpp 527-534, `std::make_shared` for the expectation collection -/
  | newMock (fails : Bool)
  | expect (coll : Nat) (min max : Int) (seqs : List Nat) (policies : List (Policy α)) (p : CreatePoints)
  | call (coll : Nat) (a : α) (p : CallPoints)
  | destroy (e : Nat) (p : EndPoints)

/-- One client operation (the functions named at `MOp`). -/
def step {α : Type} (w : World α) : MOp α → M (World α × End)
  | .newSequence st fails =>
    if fails then .ok (w, .threw []) else do
      let (w', ev) ← w.step (.newSequence st)
      return (w', .done ev)
  | .dropSequence s p => do
    let r ← w.step (.dropSequence s)
    let (w', ev) ← ends p r
    return (w', .done ev)
  | .newMock fails =>
    if fails then .ok (w, .threw []) else do
      let (w', ev) ← w.step .newMock
      return (w', .done ev)
  | .expect coll min max tags policies p => expect w coll min max tags policies p
  | .call coll a p => handleCall w coll a p
  | .destroy e p => destroy w e p

/-- Operations performed so far and how they ended, oldest first. -/
abbrev MTrace (α : Type) := List (MOp α × End)

/-- Histories of a program that may run out of memory at any time (the steps are those of `step`). -/
inductive MReach {α : Type} : MTrace α → World α → Prop where
  | init : MReach [] World.init
  | step {tr : MTrace α} {w w' : World α} {op : MOp α} {out : End} :
    MReach tr w → Memory.step w op = .ok (w', out) → MReach (tr ++ [(op, out)]) w'

end Mimic.Memory
