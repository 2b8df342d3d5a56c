import Verif.Model.Display

/-!
# Reporters that call mocks, together with printers and side effects

Models a custom reporter (an implementation of `IReporter`, `/repo/include/mimic++/Reporter.hpp` 55-158, or a `BasicReporter` with
functions of its own, 333-413) that calls mocked functions when it receives a report; for example one that hands reports on to a
logger, which is mocked itself. Printers of arguments (`Model/Display.lean`), side effects and finalizers (`Model/Calls.lean`) may call mocks
at the same time. Where the library emits its reports:

* `make_match_report` (Expectation.hpp 27-46) reports the exception of a policy (39-42) from within the matching loop, while the
  storage's mutex `m_ExpectationsMx` is held (307-331);
* `handle_call` reports how it decided (335-337, 343-345, 348-350) when the mutex is not held any more, and before the chosen
  expectation is consumed (338);
* `remove` reports an unfulfilled expectation (284-288) while the mutex is held (278), after the expectation has left the storage (282);
* `~BasicSequence` reports an error (Sequence.hpp 101-108) while the sequence still exists, and no mutex is held.

Side effects and finalizers are run after the expectation has been consumed, when no mutex is held (338-339, 529-534).

Simplifications: those of `Model/Display.lean`. The reporter returns normally from
`report_full_match`, `report_unhandled_exception`, `report_unfulfilled_expectation` and `report_error` (`Model/TestRun.lean` is about
reporters that throw there), and catches exceptions of the mocks it calls. The reports of one operation are listed together, though
calls made by the reporter come in between. The reporter, printers, side effects and finalizers neither create nor withdraw expectations
(`Model/Calls.lean` has side effects that do).
-/

set_option autoImplicit false

namespace Mimic.Notify

open Mimic.Display (Show Rec print tooDeep)

variable {α : Type}

/-- What a report is about: a call of a mock, an expectation of a mock, or a sequence. -/
inductive About (α : Type) where
  | call (m : Nat) (a : α)
  | expectation (m : Nat)
  | sequence (s : Nat)

/-- What client code does when the library runs it: the calls it makes, depending on how they end. -/
structure Hooks (α : Type) where
  /-- Printing the arguments of a call of a mock (`make_call_report`, Reports.hpp 242-263). -/
  shows : Nat → α → Show α
  /-- What the reporter does with a report. -/
  tells : About α → Event → Show α
  /-- What an expectation of a mock carries out when it resolves a call: side effects and the finalizer. -/
  acts : Nat → Nat → α → Show α

/-- One after the other. -/
def andThen : Show α → Show α → Show α
  | .done, q => q
  | .call m a next, q => .call m a fun r => andThen (next r) q

/-- What happens when a report is made: if it is about a call, its arguments are printed (Expectation.hpp 40, 336, 344, 349), then the
reporter gets the report. -/
def Hooks.report (hooks : Hooks α) : About α → Event → Show α
  | .call m a, ev => andThen (hooks.shows m a) (hooks.tells (.call m a) ev)
  | x, ev => hooks.tells x ev

instance : CoeFun (Hooks α) (fun _ => About α → Event → Show α) := ⟨Hooks.report⟩

/-- What happens once it is known which expectation resolves a call (none if it is not resolved). -/
def Hooks.effects (hooks : Hooks α) (m : Nat) (a : α) : Option Nat → Show α
  | some e => hooks.acts m e a
  | none => .done

/-- Expectation.hpp 307-331: the matching loop; `p e` is what the reporter does if a policy of expectation `e` throws (39-42). -/
def scan (rec : Rec α) (p : Nat → Show α) (a : α) (w : World α) : List Nat → M (World α × Trace α × Scan)
  | [] => .ok (w, [], { full := [], inapplicable := [], none := [], thrown := [] })
  | e :: rest =>
    match w.deref e with
    | .error x => .error x
    | .ok x =>
      match x.matchReport e w.seqs a with
      | .error x => .error x
      | .ok none =>
        match print rec w (p e) with
        | .error x => .error x
        | .ok (w', tr) =>
          match scan rec p a w' rest with
          | .error x => .error x
          | .ok (w'', tr', r) => .ok (w'', tr ++ tr', { r with thrown := e :: r.thrown })
      | .ok (some rep) =>
        match scan rec p a w rest with
        | .error x => .error x
        | .ok (w', tr, r) =>
          match evaluateMatchReport rep with
          | .none => .ok (w', tr, { r with none := rep :: r.none })
          | .inapplicable => .ok (w', tr, { r with inapplicable := rep :: r.inapplicable })
          | .full => .ok (w', tr, { r with full := rep :: r.full })

/-- Expectation.hpp 332-350: which report is emitted after the loop. -/
def conclude (r : Scan) : M Event :=
  if !r.full.isEmpty then
    match pickBestMatch r.full with
    | .error x => .error x
    | .ok best => .ok (.fullMatch best.exp)
  else if !r.inapplicable.isEmpty then .ok (.inapplicable (r.inapplicable.map (·.exp)))
  else .ok (.noMatch (r.none.map (·.exp)))

/-- Expectation.hpp 338: `exp.consume(call)`, which is only reached after `report_full_match`. -/
def commit (w : World α) : Event → M (World α × Option Nat)
  | .fullMatch e =>
    match w.consume e with
    | .error x => .error x
    | .ok w' => .ok (w', some e)
  | _ => .ok (w, none)

/-- Expectation.hpp 300-352: `handle_call`, given how calls are carried out from within the loop and after it. The expectation's side
effects (529-534) and its finalizer (339, 541-544) are run after the control policy's `consume`, without the mutex.
`held` are the mocks whose mutex is locked by this thread. -/
def body (hooks : Hooks α) (held : List Nat) (inside after : Rec α) : Rec α := fun w m a =>
  match w.colls[m]? with
  | none => .error (.client "call on a non-existing mock")
  | some es =>
    if held.contains m then .error (.ub "a std::mutex is locked twice by one thread")
    else
      match scan inside (fun e => hooks (.call m a) (.unhandled e)) a w es.reverse with
      | .error x => .error x
      | .ok (w', tr, r) =>
        match conclude r with
        | .error x => .error x
        | .ok ev =>
          match print after w' (hooks (.call m a) ev) with
          | .error x => .error x
          | .ok (w'', tr') =>
            match commit w'' ev with
            | .error x => .error x
            | .ok (w₃, res) =>
              match print after w₃ (hooks.effects m a res) with
              | .error x => .error x
              | .ok (w₄, tr'') => .ok (w₄, tr ++ tr' ++ [(.call m a, r.thrown.map Event.unhandled ++ [ev])] ++ tr'', res)

/-- `handle_call`; calls may be nested up to a certain depth. -/
def call (hooks : Hooks α) : Nat → List Nat → Rec α
  | 0, _ => fun _ _ _ => .error tooDeep
  | fuel + 1, held => fun w m a => body hooks held (call hooks fuel (m :: held)) (call hooks fuel held) w m a

/-- The end of sequence object `s`. -/
def kill (w : World α) (s : Nat) : World α := { w with seqs := w.seqs.modify s (fun c => { c with alive := false }) }

/-- Release of one `std::shared_ptr` to sequence `s`, with `~BasicSequence` (Sequence.hpp 90-109) if it was the last. -/
def release (hooks : Hooks α) (fuel : Nat) (w : World α) (s : Nat) : M (World α × Trace α × List Event) :=
  if w.owned s then .ok (w, [], [])
  else
    match w.seqs.deref s with
    | .error x => .error x
    | .ok q =>
      match q.destruct with
      | .error x => .error x
      | .ok none => .ok (kill w s, [], [.sequenceDestroyed s])
      | .ok (some (k, n)) =>
        match print (call hooks fuel []) w (hooks (.sequence s) (.sequenceError s k n)) with
        | .error x => .error x
        | .ok (w', tr) => .ok (kill w' s, tr, [.sequenceError s k n, .sequenceDestroyed s])

/-- Destruction of the tuple of sequence pointers of an expectation (ControlPolicy.hpp 238-239). -/
def releaseAll (hooks : Hooks α) (fuel : Nat) (w : World α) : List Nat → M (World α × Trace α × List Event)
  | [] => .ok (w, [], [])
  | s :: rest =>
    match release hooks fuel w s with
    | .error x => .error x
    | .ok (w', tr, ev) =>
      match releaseAll hooks fuel w' rest with
      | .error x => .error x
      | .ok (w'', tr', ev') => .ok (w'', tr ++ tr', ev ++ ev')

/-- Expectation.hpp 276-289: `remove`, up to the end of the critical section. The expectation is marked as dead at once, because nobody
can reach it any more. -/
def remove (hooks : Hooks α) (fuel : Nat) (w : World α) (e : Nat) (x : Exp α) : M (World α × Trace α × List Event) :=
  match w.colls[x.coll]? with
  | none => .error (.ub "null storage")
  | some es =>
    if es.contains e then
      let w₁ : World α :=
        { w with
          colls := w.colls.set x.coll (es.erase e)
          exps := w.exps.set e { x with alive := false } }
      if x.isSatisfied then .ok (w₁, [], [])
      else
        match print (call hooks fuel [x.coll]) w₁ (hooks (.expectation x.coll) (.unfulfilled e)) with
        | .error x => .error x
        | .ok (w₂, tr) => .ok (w₂, tr, [.unfulfilled e])
    else .error (.ub "remove: assert(iter != end)")

/-- Expectation.hpp 600-603 (`~Model`): `remove`, then the expectation object is destroyed. -/
def destroy (hooks : Hooks α) (fuel : Nat) (w : World α) (e : Nat) : M (World α × Trace α) :=
  match w.exps[e]? with
  | none => .error (.client "destruction of a non-existing expectation")
  | some x =>
    if !x.alive then .error (.client "destruction of a dead expectation")
    else
      match remove hooks fuel w e x with
      | .error x => .error x
      | .ok (w₁, tr, ev) =>
        match releaseAll hooks fuel w₁ (x.control.entries.map (·.1)) with
        | .error x => .error x
        | .ok (w₂, tr', ev') => .ok (w₂, tr ++ tr' ++ [(.destroy e, .destroyed e :: ev ++ ev')])

/-- The end of the client's sequence object `s`. -/
def drop (hooks : Hooks α) (fuel : Nat) (w : World α) (s : Nat) : M (World α × Trace α) :=
  if w.hasHandle s then
    match release hooks fuel { w with seqs := w.seqs.modify s (fun c => { c with handle := false }) } s with
    | .error x => .error x
    | .ok (w', tr, ev) => .ok (w', tr ++ [(.dropSequence s, ev)])
  else .error (.client "destruction of a dead sequence object")

/-- One client operation; calls may be nested up to `fuel` deep. -/
def step (hooks : Hooks α) (fuel : Nat) (w : World α) : Op α → M (World α × Trace α)
  | .call m a =>
    match call hooks fuel [] w m a with
    | .error x => .error x
    | .ok (w', tr, _) => .ok (w', tr)
  | .destroy e => destroy hooks fuel w e
  | .dropSequence s => drop hooks fuel w s
  | op =>
    match w.step op with
    | .error x => .error x
    | .ok (w', ev) => .ok (w', [(op, ev)])

/-- Client operations performed so far, each with the operations of the library that it consisted of, oldest first. -/
abbrev NTrace (α : Type) := List (Op α × Trace α)

/-- Histories. -/
inductive NReach (hooks : Hooks α) : NTrace α → World α → Prop where
  | init : NReach hooks [] World.init
  | step {nh : NTrace α} {w w' : World α} {op : Op α} {tr : Trace α} {fuel : Nat} :
    NReach hooks nh w → step hooks fuel w op = .ok (w', tr) → NReach hooks (nh ++ [(op, tr)]) w'

end Mimic.Notify
