import Verif.Model.Nested

/-!
# Matchers that change what they look at

Models `ExpectationCollection::handle_call` (`/repo/include/mimic++/Expectation.hpp` 300-352) together with `make_match_report`
(27-46) and `BasicExpectation::matches` (502-521) for matchers that may change the arguments of a call. A requirement gets the
argument as a non-const lvalue: `expect::arg` and `expect::args` apply the matcher to `std::add_lvalue_reference_t` of the parameter
(ExpectationPolicies.hpp 184-190, 311-357, 405-425), and the hook passes `T& target` on (Matcher.hpp 31-69). If the parameter is a
reference, that is the caller's object; else it is the parameter of the call operator. The documentation asks matchers not to make
use of this (Matcher.hpp 311-312).

`α` is everything the arguments of a call refer to. As in `Model/Nested.lean`, the policies of the base model are bookkeeping.

Simplification: a matcher depends on nothing but the arguments and keeps no state of its own (take `α` to be the arguments together
with such state to include it).
-/

set_option autoImplicit false

namespace Mimic.Touch

open Mimic.Nested (Seen asked look)

variable {α : Type}

/-- A matcher: what it leaves of the arguments, and its answer (`none` if it throws). -/
abbrev Matcher (α : Type) := α → α × Option Bool

/-- Expectation.hpp 510-518: the policies from left to right, all of them unless one throws. -/
def askAll : List (Matcher α) → α → α × Option Bool
  | [], a => (a, some true)
  | p :: ps, a =>
    match p a with
    | (a', none) => (a', none)
    | (a', some b) =>
      let r := askAll ps a'
      (r.1, r.2.map (b && ·))

/-- The library, and the matchers of all expectations (`m_Policies`, Expectation.hpp 558). -/
structure Store (α : Type) where
  w : World (Seen α)
  asks : List (List (Matcher α))

def Store.init : Store α := { w := World.init, asks := [] }

/-- The matchers of expectation `e`. -/
def Store.matchers (s : Store α) (e : Nat) : List (Matcher α) := (s.asks[e]?).getD []

/-- What the matching loop comes to: the arguments as they are then, the collected reports, what each expectation said, and what the
arguments were when the reports about exceptions were made (make_call_report in Expectation.hpp 40-41). -/
structure Looked (α : Type) where
  left : α
  scan : Scan
  ans : List (Nat × Option Bool)
  thrownAt : List α

/-- Expectation.hpp 307-331: the matching loop. The control state is computed before the policies are asked (506-508). -/
def scan (s : Store α) : List Nat → α → M (Looked α)
  | [], a => .ok { left := a, scan := { full := [], inapplicable := [], none := [], thrown := [] }, ans := [], thrownAt := [] }
  | e :: rest, a =>
    match s.w.deref e with
    | .error x => .error x
    | .ok x =>
      match x.control.state s.w.seqs with
      | .error x => .error x
      | .ok st =>
        match askAll (s.matchers e) a with
        | (a', b) =>
          match scan s rest a' with
          | .error x => .error x
          | .ok l =>
            match b with
            | none =>
              .ok { l with scan := { l.scan with thrown := e :: l.scan.thrown }, ans := (e, none) :: l.ans, thrownAt := a' :: l.thrownAt }
            | some b =>
              let rep : MatchReport := { exp := e, control := st, results := [(b, none)] }
              match evaluateMatchReport rep with
              | .none => .ok { l with scan := { l.scan with none := rep :: l.scan.none }, ans := (e, some b) :: l.ans }
              | .inapplicable =>
                .ok { l with scan := { l.scan with inapplicable := rep :: l.scan.inapplicable }, ans := (e, some b) :: l.ans }
              | .full => .ok { l with scan := { l.scan with full := rep :: l.scan.full }, ans := (e, some b) :: l.ans }

/-- What a call comes to: the operation as the base model sees it with its reports, the arguments each of these reports shows
(`make_call_report`, Expectation.hpp 40-41, 337-351), and the arguments afterwards. -/
structure Done (α : Type) where
  op : Op (Seen α)
  events : List Event
  shown : List α
  left : α

/-- Expectation.hpp 300-352: `handle_call`, up to and including the control policy's `consume`. -/
def call (s : Store α) (m : Nat) (a : α) : M (Store α × Done α) :=
  match s.w.colls[m]? with
  | none => .error (.client "call on a non-existing mock")
  | some es =>
    match scan s es.reverse a with
    | .error x => .error x
    | .ok l =>
      let r := l.scan
      let unhandled := r.thrown.map Event.unhandled
      let op : Op (Seen α) := .call m (l.left, look l.ans)
      let shown := l.thrownAt ++ [l.left]
      if !r.full.isEmpty then
        match pickBestMatch r.full with
        | .error x => .error x
        | .ok best =>
          match s.w.consume best.exp with
          | .error x => .error x
          | .ok w' =>
            .ok ({ s with w := w' }, { op := op, events := unhandled ++ [.fullMatch best.exp], shown := shown, left := l.left })
      else if !r.inapplicable.isEmpty then
        .ok (s, { op := op, events := unhandled ++ [.inapplicable (r.inapplicable.map (·.exp))], shown := shown, left := l.left })
      else
        .ok (s, { op := op, events := unhandled ++ [.noMatch (r.none.map (·.exp))], shown := shown, left := l.left })

/-- What a client can do. -/
inductive TOp (α : Type) where
  | newSequence (strategy : Strategy)
  | dropSequence (s : Nat)
  | newMock
  | expect (m : Nat) (min max : Int) (tags : List Nat) (asks : List (Matcher α))
  | call (m : Nat) (a : α)
  | destroy (e : Nat)

/-- What an operation came to: as the base model sees it, the reports it made, and, for a call, the arguments each of these shows and
those afterwards. -/
structure Came (α : Type) where
  op : Op (Seen α)
  events : List Event
  shown : List α := []
  left : Option α := none

/-- An operation without matchers. -/
def Store.plain (s : Store α) (op : Op (Seen α)) : M (Store α × Came α) :=
  match s.w.step op with
  | .error x => .error x
  | .ok (w', ev) => .ok ({ s with w := w' }, { op := op, events := ev })

/-- One client operation. -/
def Store.step (s : Store α) : TOp α → M (Store α × Came α)
  | .newSequence st => s.plain (.newSequence st)
  | .dropSequence q => s.plain (.dropSequence q)
  | .newMock => s.plain .newMock
  | .destroy e => s.plain (.destroy e)
  | .expect m min max tags asks =>
    match s.w.step (.expect m min max tags [asked s.w.exps.length]) with
    | .error x => .error x
    | .ok (w', ev) =>
      .ok ({ w := w', asks := if ev = [.created s.w.exps.length] then s.asks ++ [asks] else s.asks },
        { op := .expect m min max tags [asked s.w.exps.length], events := ev })
  | .call m a =>
    match call s m a with
    | .error x => .error x
    | .ok (s', d) => .ok (s', { op := d.op, events := d.events, shown := d.shown, left := some d.left })

/-- Client operations performed so far, each with what it came to, oldest first. -/
abbrev TTrace (α : Type) := List (TOp α × Came α)

/-- Histories. -/
inductive TReach : TTrace α → Store α → Prop where
  | init : TReach [] Store.init
  | step {th : TTrace α} {s s' : Store α} {op : TOp α} {c : Came α} :
    TReach th s → s.step op = .ok (s', c) → TReach (th ++ [(op, c)]) s'

/-- `std::ranges::equal` on a target that can be passed only once (such as a `std::ranges::subrange` of
`std::istreambuf_iterator`s), as used by `matches::range::eq` (Matcher.hpp 820-841), which demands no more than
`std::ranges::range_reference_t<Target>`: what is left of the target, and the answer. The comparator is `std::equal_to<>`. -/
def passEqual {τ : Type} [DecidableEq τ] : List τ → List τ → List τ × Bool
  | [], expected => ([], expected.isEmpty)
  | x :: target, [] => (x :: target, false)
  | x :: target, y :: expected => if x = y then passEqual target expected else (x :: target, false)

/-- `matches::range::eq(expected)` for such a target. -/
def passEq {τ : Type} [DecidableEq τ] (expected : List τ) : Matcher (List τ) := fun target =>
  ((passEqual target expected).1, some (passEqual target expected).2)

end Mimic.Touch
