import Verif.Model.Reach

/-!
# Matchers that call mocks

Models `ExpectationCollection::handle_call` (`/repo/include/mimic++/Expectation.hpp` 300-352) together with `make_match_report`
(27-46) and `BasicExpectation::matches` (502-521) for matchers that are programs of their own: a predicate may call other mocks
while it looks at the arguments of a call. The storage's mutex `m_ExpectationsMx` (356) is a `std::mutex` and is held during the
whole loop (307-331), so a second call of the same mock from within a matcher locks it twice, which is undefined behaviour.

The policies of `Model/World.lean` are pure functions of the call. Here they are only bookkeeping: expectation number `e` has the
one policy `asked e`, which looks up what `e`'s matchers said.

Simplifications: what a mock returns is represented by the expectation that resolved the call (or that none did, in which case the
call ended with an exception, which the matcher may catch); the reports about exceptions of matchers (43) are listed together with
the other report of their call, though calls made by later matchers come in between; matchers neither create nor withdraw
expectations.
-/

set_option autoImplicit false

namespace Mimic.Nested

variable {α : Type}

/-- What a matcher does with a call: the calls it makes, depending on how they end, and its answer. -/
inductive Ask (α : Type) where
  | answer (b : Bool)
  | throws
  | call (m : Nat) (a : α) (next : Option Nat → Ask α)

/-- A call together with what was said about it by the matchers of each expectation (`none`: one threw). -/
abbrev Seen (α : Type) := α × (Nat → Option Bool)

/-- The bookkeeping policy of expectation `e`. -/
def asked (e : Nat) : Policy (Seen α) := { accepts := fun c => c.2 e }

/-- The library, and the matchers of all expectations (`m_Policies`, Expectation.hpp 558). -/
structure Store (α : Type) where
  w : World (Seen α)
  asks : List (List (α → Ask α))

def Store.init : Store α := { w := World.init, asks := [] }

/-- How nested calls are carried out. -/
abbrev Rec (α : Type) := Store α → Nat → α → M (Store α × Trace (Seen α) × Option Nat)

/-- One matcher looks at a call. -/
def ask (rec : Rec α) (s : Store α) : Ask α → M (Store α × Trace (Seen α) × Option Bool)
  | .answer b => .ok (s, [], some b)
  | .throws => .ok (s, [], none)
  | .call m a next =>
    match rec s m a with
    | .error x => .error x
    | .ok (s', tr, r) =>
      match ask rec s' (next r) with
      | .error x => .error x
      | .ok (s'', tr', b) => .ok (s'', tr ++ tr', b)

/-- Expectation.hpp 510-518: the policies from left to right, all of them unless one throws. -/
def askAll (rec : Rec α) (a : α) (s : Store α) : List (α → Ask α) → M (Store α × Trace (Seen α) × Option Bool)
  | [] => .ok (s, [], some true)
  | p :: ps =>
    match ask rec s (p a) with
    | .error x => .error x
    | .ok (s', tr, none) => .ok (s', tr, none)
    | .ok (s', tr, some b) =>
      match askAll rec a s' ps with
      | .error x => .error x
      | .ok (s'', tr', r) => .ok (s'', tr ++ tr', r.map (b && ·))

/-- The matchers of expectation `e`. -/
def Store.matchers (s : Store α) (e : Nat) : List (α → Ask α) := (s.asks[e]?).getD []

/-- Expectation.hpp 307-331: the matching loop. The control state is computed before the policies are asked (506-508). -/
def scan (rec : Rec α) (a : α) (s : Store α) :
    List Nat → M (Store α × Trace (Seen α) × Scan × List (Nat × Option Bool))
  | [] => .ok (s, [], { full := [], inapplicable := [], none := [], thrown := [] }, [])
  | e :: rest =>
    match s.w.deref e with
    | .error x => .error x
    | .ok x =>
      match x.control.state s.w.seqs with
      | .error x => .error x
      | .ok st =>
        match askAll rec a s (s.matchers e) with
        | .error x => .error x
        | .ok (s', tr, b) =>
          match scan rec a s' rest with
          | .error x => .error x
          | .ok (s'', tr', r, ans) =>
            match b with
            | none => .ok (s'', tr ++ tr', { r with thrown := e :: r.thrown }, (e, none) :: ans)
            | some b =>
              let rep : MatchReport := { exp := e, control := st, results := [(b, none)] }
              match evaluateMatchReport rep with
              | .none => .ok (s'', tr ++ tr', { r with none := rep :: r.none }, (e, some b) :: ans)
              | .inapplicable => .ok (s'', tr ++ tr', { r with inapplicable := rep :: r.inapplicable }, (e, some b) :: ans)
              | .full => .ok (s'', tr ++ tr', { r with full := rep :: r.full }, (e, some b) :: ans)

/-- What was said about each expectation. -/
def look (ans : List (Nat × Option Bool)) (e : Nat) : Option Bool :=
  match ans.find? (fun p => p.1 == e) with
  | some p => p.2
  | none => some false

/-- Expectation.hpp 300-352: `handle_call`, up to and including the control policy's `consume`. The result also lists all calls
that were made meanwhile, in the order in which they ended. `held` are the mocks whose mutex is locked by this thread. -/
def call : Nat → List Nat → Rec α
  | 0, _ => fun _ _ _ => .error (.client "nested deeper than there are mocks")
  | fuel + 1, held => fun s m a =>
    match s.w.colls[m]? with
    | none => .error (.client "call on a non-existing mock")
    | some es =>
      if held.contains m then .error (.ub "a std::mutex is locked twice by one thread")
      else
        match scan (call fuel (m :: held)) a s es.reverse with
        | .error x => .error x
        | .ok (s', tr, r, ans) =>
          let unhandled := r.thrown.map Event.unhandled
          if !r.full.isEmpty then
            match pickBestMatch r.full with
            | .error x => .error x
            | .ok best =>
              match s'.w.consume best.exp with
              | .error x => .error x
              | .ok w' =>
                .ok ({ s' with w := w' }, tr ++ [(.call m (a, look ans), unhandled ++ [.fullMatch best.exp])], some best.exp)
          else if !r.inapplicable.isEmpty then
            .ok (s', tr ++ [(.call m (a, look ans), unhandled ++ [.inapplicable (r.inapplicable.map (·.exp))])], none)
          else
            .ok (s', tr ++ [(.call m (a, look ans), unhandled ++ [.noMatch (r.none.map (·.exp))])], none)

/-- What a client can do. -/
inductive NOp (α : Type) where
  | newSequence (strategy : Strategy)
  | dropSequence (s : Nat)
  | newMock
  | expect (m : Nat) (min max : Int) (tags : List Nat) (asks : List (α → Ask α))
  | call (m : Nat) (a : α)
  | destroy (e : Nat)

/-- An operation without matchers. -/
def Store.plain (s : Store α) (op : Op (Seen α)) : M (Store α × Trace (Seen α)) :=
  match s.w.step op with
  | .error x => .error x
  | .ok (w', ev) => .ok ({ s with w := w' }, [(op, ev)])

/-- One client operation. -/
def Store.step (s : Store α) : NOp α → M (Store α × Trace (Seen α))
  | .newSequence st => s.plain (.newSequence st)
  | .dropSequence q => s.plain (.dropSequence q)
  | .newMock => s.plain .newMock
  | .destroy e => s.plain (.destroy e)
  | .expect m min max tags asks =>
    match s.w.step (.expect m min max tags [asked s.w.exps.length]) with
    | .error x => .error x
    | .ok (w', ev) =>
      .ok ({ w := w', asks := if ev = [.created s.w.exps.length] then s.asks ++ [asks] else s.asks },
        [(.expect m min max tags [asked s.w.exps.length], ev)])
  | .call m a =>
    match call (s.w.colls.length + 1) [] s m a with
    | .error x => .error x
    | .ok (s', tr, _) => .ok (s', tr)

/-- Client operations performed so far, each with the operations of the library that it consisted of, oldest first. -/
abbrev NTrace (α : Type) := List (NOp α × Trace (Seen α))

/-- Histories. -/
inductive NReach : NTrace α → Store α → Prop where
  | init : NReach [] Store.init
  | step {nh : NTrace α} {s s' : Store α} {op : NOp α} {tr : Trace (Seen α)} :
    NReach nh s → s.step op = .ok (s', tr) → NReach (nh ++ [(op, tr)]) s'

end Mimic.Nested
