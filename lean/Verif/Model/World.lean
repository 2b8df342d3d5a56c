import Verif.Model.Expectation

/-!
# The world: sequences, storages and expectations under arbitrary client histories

Models `ExpectationCollection` (`/repo/include/mimic++/Expectation.hpp` 200-357), the lifetime part of
`ScopedExpectation` (567-645), `BasicExpectationBuilder::finalize`
(`/repo/include/mimic++/ExpectationBuilder.hpp` 154-185) and the lifetime of sequences
(`/repo/include/mimic++/Sequence.hpp` 254-283).

This file is the single-threaded semantics of the library with respect to matching. A client program
is an arbitrary list of operations. The mutex of `ExpectationCollection` has no effect here; see
`Model/Concurrent.lean` for schedules.
-/

set_option autoImplicit false

namespace Mimic

/-- Everything the library keeps. `colls[c]` is `m_Expectations` of storage `c` (Expectation.hpp 355),
as a list of expectation numbers. -/
structure World (α : Type) where
  seqs : Seqs
  exps : List (Exp α)
  colls : List (List Nat)

/-- The world before the test starts. -/
def World.init {α : Type} : World α := { seqs := [], exps := [], colls := [] }

/-- What a client (a test) can do. -/
inductive Op (α : Type) where
  /-- Define a `LazySequence` or a `GreedySequence`. -/
  | newSequence (strategy : Strategy)
  /-- End of life of such an object. -/
  | dropSequence (s : Nat)
  /-- Create a mock (one storage). -/
  | newMock
  /-- `ScopedExpectation e = mock.expect_call(...) and times(min, max) and in_sequences(tags...)`. -/
  | expect (coll : Nat) (min max : Int) (tags : List Nat) (policies : List (Policy α))
  /-- Call the mock. -/
  | call (coll : Nat) (a : α)
  /-- End of life of a `ScopedExpectation`. -/
  | destroy (e : Nat)

/-- What can be observed: reports to the reporter, exceptions thrown by the library to the client,
and the visible creation and destruction of objects. -/
inductive Event where
  | sequenceCreated (s : Nat) (strategy : Strategy)
  | sequenceDestroyed (s : Nat)
  /-- `report_error("Unfulfilled sequence. k out of n expectation(s) are satisfied.")` -/
  | sequenceError (s k n : Nat)
  | mockCreated (c : Nat)
  | created (e : Nat)
  /-- `std::invalid_argument` while building an expectation. -/
  | rejected
  | destroyed (e : Nat)
  /-- `report_unfulfilled_expectation` -/
  | unfulfilled (e : Nat)
  /-- `report_unhandled_exception` -/
  | unhandled (e : Nat)
  /-- `report_full_match` -/
  | fullMatch (e : Nat)
  /-- `report_inapplicable_matches`, listing these expectations -/
  | inapplicable (es : List Nat)
  /-- `report_no_matches`, listing these expectations -/
  | noMatch (es : List Nat)
deriving DecidableEq, Repr

/-- The local variables of `handle_call` (Expectation.hpp 304-306) plus the unhandled-exception
reports emitted so far (28-45). -/
structure Scan where
  full : List MatchReport
  inapplicable : List MatchReport
  none : List MatchReport
  thrown : List Nat

/-- Access to an expectation through the storage: undefined behaviour if it is gone. -/
def World.deref {α : Type} (w : World α) (e : Nat) : M (Exp α) :=
  match w.exps[e]? with
  | some x => if x.alive then .ok x else .error (.ub "use of a destroyed expectation")
  | none => .error (.ub "use of a non-existing expectation")

/-- Expectation.hpp 308-331: the matching loop; the argument list is the storage in iteration order
(the caller reverses it). -/
def scan {α : Type} (w : World α) (a : α) : List Nat → M Scan
  | [] => .ok { full := [], inapplicable := [], none := [], thrown := [] }
  | e :: rest => do
    let x ← w.deref e
    let rep ← x.matchReport e w.seqs a
    let r ← scan w a rest
    match rep with
    | Option.none => return { r with thrown := e :: r.thrown }
    | some rep =>
      match evaluateMatchReport rep with
      | .none => return { r with none := rep :: r.none }
      | .inapplicable => return { r with inapplicable := rep :: r.inapplicable }
      | .full => return { r with full := rep :: r.full }

/-- `BasicExpectation::consume` (Expectation.hpp 526-535), the control policy part: updates the
sequences and the counter of expectation `e`. -/
def World.consume {α : Type} (w : World α) (e : Nat) : M (World α) := do
  let x ← w.deref e
  let (h, c) ← x.control.consume w.seqs
  return { w with seqs := h, exps := w.exps.set e { x with control := c } }

/-- Expectation.hpp 300-352: `handle_call`, up to and including the control policy's `consume`.
The result is the new world, the emitted reports, and the expectation that resolved the call.
If there is none, the reporter functions are `[[noreturn]]` (Reporter.hpp 547-590) and the call ends
with an exception. -/
def World.handleCall {α : Type} (w : World α) (coll : Nat) (a : α) :
    M (World α × List Event × Option Nat) :=
  match w.colls[coll]? with
  | none => .error (.client "call on a non-existing mock")
  | some es => do
    let r ← scan w a es.reverse
    let unhandled := r.thrown.map Event.unhandled
    if !r.full.isEmpty then
      let best ← pickBestMatch r.full
      let w' ← w.consume best.exp
      return (w', unhandled ++ [.fullMatch best.exp], some best.exp)
    else if !r.inapplicable.isEmpty then
      return (w, unhandled ++ [.inapplicable (r.inapplicable.map (·.exp))], none)
    else
      return (w, unhandled ++ [.noMatch (r.none.map (·.exp))], none)

/-- Whether expectation `x` holds a `std::shared_ptr` to sequence `s`. -/
def Exp.holds {α : Type} (x : Exp α) (s : Nat) : Bool :=
  x.control.entries.any (fun en => en.1 == s)

/-- Whether some `std::shared_ptr` to sequence `s` is left: one is held by the client's sequence
object, one by every living expectation attached to it. This is the contract of `std::shared_ptr`. -/
def World.owned {α : Type} (w : World α) (s : Nat) : Bool :=
  (match w.seqs[s]? with | some c => c.handle | none => false)
  || w.exps.any (fun x => x.alive && x.holds s)

/-- Release of one `std::shared_ptr` to sequence `s`: destroys the sequence if it was the last. -/
def World.release {α : Type} (w : World α) (s : Nat) : M (World α × List Event) :=
  if w.owned s then .ok (w, [])
  else do
    let q ← w.seqs.deref s
    let err ← q.destruct
    let w' := { w with seqs := w.seqs.modify s (fun c => { c with alive := false }) }
    match err with
    | some (k, n) => return (w', [.sequenceError s k n, .sequenceDestroyed s])
    | none => return (w', [.sequenceDestroyed s])

/-- Destruction of the tuple of sequence pointers of an expectation (ControlPolicy.hpp 238-239). The
standard leaves the order open; the model uses the order of the tuple. -/
def World.releaseAll {α : Type} (w : World α) : List Nat → M (World α × List Event)
  | [] => .ok (w, [])
  | s :: rest => do
    let (w', ev) ← w.release s
    let (w'', ev') ← w'.releaseAll rest
    return (w'', ev ++ ev')

/-- Expectation.hpp 600-603 (`~Model`), 276-289 (`remove`) and the destruction of the expectation
object. `remove` searches the storage, asserts that the expectation is there, erases it and then
checks whether it is satisfied. -/
def World.destroyExp {α : Type} (w : World α) (e : Nat) : M (World α × List Event) := do
  match w.exps[e]? with
  | none => .error (.client "destruction of a non-existing expectation")
  | some x =>
    if !x.alive then .error (.client "destruction of a dead expectation")
    else
      match w.colls[x.coll]? with
      | none => .error (.ub "null storage")
      | some es =>
        check (es.contains e) "remove: assert(iter != end)"
        let w₁ : World α :=
          { w with
            colls := w.colls.set x.coll (es.erase e)
            exps := w.exps.set e { x with alive := false } }
        let unf := if x.isSatisfied then [] else [Event.unfulfilled e]
        let (w₂, ev) ← w₁.releaseAll (x.control.entries.map (·.1))
        return (w₂, .destroyed e :: unf ++ ev)

/-- Whether the client's sequence object `s` exists. -/
def World.hasHandle {α : Type} (w : World α) (s : Nat) : Bool :=
  match w.seqs[s]? with
  | some c => c.handle
  | none => false

/-- Building and finalizing an expectation: `times` (ControlPolicy.hpp 56-69) and `in_sequences`
(Sequence.hpp 334-356) may throw `std::invalid_argument` before anything else happens;
`finalize` (ExpectationBuilder.hpp 154-185) then constructs the control policy, which attaches to the
sequences, and `Model`'s constructor (Expectation.hpp 605-617) pushes the expectation
(Expectation.hpp 258-267; its assertion holds trivially as the object is new).
The limits are C++ `int`s, so only representable numbers can occur.
Simplification: building and finalizing is one step; `Model/Builder.lean` treats the builder. -/
def World.expect {α : Type} (w : World α) (coll : Nat) (min max : Int) (tags : List Nat)
    (policies : List (Policy α)) : M (World α × List Event) := do
  match w.colls[coll]? with
  | none => .error (.client "expectation on a non-existing mock")
  | some es =>
    if tags.all w.hasHandle && isInt min && isInt max then
      match TimesConfig.make min max, seqConfig tags with
      | some t, some tags =>
        let (h, c) ← Control.make t tags w.seqs
        let e := w.exps.length
        check (!es.contains e) "push: assert(find == end)"
        let w' : World α :=
          { seqs := h
            exps := w.exps ++ [{ coll := coll, control := c, policies := policies, alive := true }]
            colls := w.colls.set coll (es ++ [e]) }
        return (w', [.created e])
      | _, _ => return (w, [.rejected])
    else .error (.client "in_sequence with a dead sequence object, or a limit that is no int")

/-- One client operation. -/
def World.step {α : Type} (w : World α) : Op α → M (World α × List Event)
  | .newSequence st =>
    .ok ({ w with seqs := w.seqs ++ [{ seq := Sequence.new st, handle := true, alive := true }] },
      [.sequenceCreated w.seqs.length st])
  | .dropSequence s =>
    if w.hasHandle s then
      World.release { w with seqs := w.seqs.modify s (fun c => { c with handle := false }) } s
    else .error (.client "destruction of a dead sequence object")
  | .newMock => .ok ({ w with colls := w.colls ++ [[]] }, [.mockCreated w.colls.length])
  | .expect coll min max tags policies => w.expect coll min max tags policies
  | .call coll a => do
    let (w', ev, _) ← w.handleCall coll a
    return (w', ev)
  | .destroy e => w.destroyExp e

/-- A whole client program: the final world and everything that was observed. -/
def World.run {α : Type} (w : World α) : List (Op α) → M (World α × List Event)
  | [] => .ok (w, [])
  | op :: ops => do
    let (w', ev) ← w.step op
    let (w'', ev') ← w'.run ops
    return (w'', ev ++ ev')

/-- A whole client program on a fresh world. -/
def runProgram {α : Type} (ops : List (Op α)) : M (World α × List Event) :=
  World.init.run ops

end Mimic
