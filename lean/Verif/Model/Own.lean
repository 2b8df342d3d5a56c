import Verif.Model.Nested

/-!
# Policies and finalizers of the user's own

Models `BasicExpectation` (`/repo/include/mimic++/Expectation.hpp` 407-560) for arbitrary policies and finalizers: whatever meets the
concepts `expectation_policy_for` (359-373) and `finalize_policy_for` (375-385) can be attached to an expectation
(ExpectationBuilder.hpp 60-152, README.md 305). Such objects may keep state: `consume` and `finalize_call` are not `const`, and
`is_satisfied` and `matches` may depend on it.

As in `Model/Nested.lean`, the policies of the base model are bookkeeping: `World` decides from what the policies say.

Simplifications: `matches` and `is_satisfied`, which are `const`, change nothing (`Model/Touch.lean` is about matchers that do). The
objects share no state with one another, except by way of the arguments of the call. What `describe` says is left out.
-/

set_option autoImplicit false

namespace Mimic.Own

open Mimic.Nested (Seen asked)

variable {σ α ρ : Type}

/-- Expectation.hpp 359-373: a policy object. `accepts` is `matches`, `none` if it throws. `consume` may change the policy and what the
arguments refer to; `none` if it throws. -/
structure Policy (σ α : Type) where
  state : σ
  accepts : σ → α → Option Bool
  satisfied : σ → Bool
  consume : σ → α → Option (σ × α)

/-- Expectation.hpp 375-385: a finalizer object. `ρ` is what a call may end with: a value or an exception. -/
structure Finalizer (σ α ρ : Type) where
  state : σ
  finalize : σ → α → σ × ρ

/-- Expectation.hpp 558-559: `m_Policies` and `m_Finalizer`. -/
structure Inner (σ α ρ : Type) where
  policies : List (Policy σ α)
  fin : Finalizer σ α ρ

/-- The library and the inner objects of all expectations. -/
structure Store (σ α ρ : Type) where
  w : World (Seen α)
  inner : List (Inner σ α ρ)

def Store.init : Store σ α ρ := { w := World.init, inner := [] }

/-- Expectation.hpp 510-518: all policies are asked from left to right unless one throws; together they accept or refuse
(Reports.hpp 457-463). -/
def askAll : List (Policy σ α) → α → Option Bool
  | [], _ => some true
  | p :: ps, a =>
    match p.accepts p.state a with
    | none => none
    | some b => (askAll ps a).map (b && ·)

/-- Expectation.hpp 526-535: the policies consume the call, from left to right. -/
def consumeAll : List (Policy σ α) → α → Option (List (Policy σ α) × α)
  | [], a => some ([], a)
  | p :: ps, a =>
    match p.consume p.state a with
    | none => none
    | some (t, a') =>
      match consumeAll ps a' with
      | none => none
      | some (ps', left) => some ({ p with state := t } :: ps', left)

/-- The inner objects of expectation `e`. -/
def Store.policies (s : Store σ α ρ) (e : Nat) : List (Policy σ α) :=
  match s.inner[e]? with
  | some i => i.policies
  | none => []

/-- Expectation.hpp 490-496: the part of `is_satisfied` that is up to the policies. -/
def allSatisfied (ps : List (Policy σ α)) : Bool := ps.all (fun p => p.satisfied p.state)

/-- What a client can do. -/
inductive OOp (σ α ρ : Type) where
  | newSequence (strategy : Strategy)
  | dropSequence (s : Nat)
  | newMock
  /-- `ScopedExpectation e = mock.expect_call(...) and ...` with these policies and this finalizer -/
  | expect (m : Nat) (min max : Int) (tags : List Nat) (inner : Inner σ α ρ)
  | call (m : Nat) (a : α)
  /-- `e.is_satisfied()` -/
  | ask (e : Nat)
  | destroy (e : Nat)

/-- What an operation came to: as the base model sees it, the reports it made, the result of a call that was resolved, what the
arguments are afterwards, and what `is_satisfied` said. -/
structure Came (α ρ : Type) where
  base : Option (Op (Seen α) × List Event)
  events : List Event
  result : Option ρ := none
  left : Option α := none
  answer : Option Bool := none

/-- An operation that does not concern policies. -/
def Store.plain (s : Store σ α ρ) (op : Op (Seen α)) : M (Store σ α ρ × Came α ρ) :=
  match s.w.step op with
  | .error x => .error x
  | .ok (w', ev) => .ok ({ s with w := w' }, { base := some (op, ev), events := ev })

/-- Expectation.hpp 300-352: `handle_call`, with 526-535 (`consume`; its lambda is `noexcept`) and 540-544 (`finalize_call`). -/
def Store.call (s : Store σ α ρ) (m : Nat) (a : α) : M (Store σ α ρ × Came α ρ) :=
  let said : Seen α := (a, fun e => askAll (s.policies e) a)
  match s.w.handleCall m said with
  | .error x => .error x
  | .ok (w', ev, none) => .ok ({ s with w := w' }, { base := some (.call m said, ev), events := ev, left := some a })
  | .ok (w', ev, some e) =>
    match s.inner[e]? with
    | none => .error (.ub "use of a non-existing expectation")
    | some i =>
      match consumeAll i.policies a with
      | none => .error (.terminate "a policy throws while it consumes a call")
      | some (ps, left) =>
        let r := i.fin.finalize i.fin.state left
        .ok ({ w := w', inner := s.inner.set e { policies := ps, fin := { i.fin with state := r.1 } } },
          { base := some (.call m said, ev), events := ev, result := some r.2, left := some left })

/-- Expectation.hpp 276-289 and 600-603: as in the base model, but the report about an unfulfilled expectation is also made if a policy
is not satisfied (487-497). It is the first one after the expectation is removed. -/
def Store.destroy (s : Store σ α ρ) (e : Nat) : M (Store σ α ρ × Came α ρ) :=
  match s.w.step (.destroy e) with
  | .error x => .error x
  | .ok (w', ev) =>
    .ok ({ s with w := w' },
      { base := some (.destroy e, ev)
        events := if allSatisfied (s.policies e) || ev.contains (.unfulfilled e) then ev
          else ev.take 1 ++ .unfulfilled e :: ev.drop 1 })

/-- One client operation. -/
def Store.step (s : Store σ α ρ) : OOp σ α ρ → M (Store σ α ρ × Came α ρ)
  | .newSequence st => s.plain (.newSequence st)
  | .dropSequence q => s.plain (.dropSequence q)
  | .newMock => s.plain .newMock
  | .expect m min max tags inner =>
    match s.w.step (.expect m min max tags [asked s.w.exps.length]) with
    | .error x => .error x
    | .ok (w', ev) =>
      .ok ({ w := w', inner := if ev = [.created s.w.exps.length] then s.inner ++ [inner] else s.inner },
        { base := some (.expect m min max tags [asked s.w.exps.length], ev), events := ev })
  | .call m a => s.call m a
  | .ask e =>
    match s.w.exps[e]? with
    | none => .error (.client "is_satisfied of a non-existing expectation")
    | some x =>
      if x.alive then
        /- Expectation.hpp 487-497, 710-713 -/
        .ok (s, { base := none, events := [], answer := some (x.control.isSatisfied && allSatisfied (s.policies e)) })
      else .error (.client "is_satisfied of a dead expectation")
  | .destroy e => s.destroy e

/-- Client operations performed so far, each with what it came to, oldest first. -/
abbrev OTrace (σ α ρ : Type) := List (OOp σ α ρ × Came α ρ)

/-- Histories. -/
inductive OReach : OTrace σ α ρ → Store σ α ρ → Prop where
  | init : OReach [] Store.init
  | step {th : OTrace σ α ρ} {s s' : Store σ α ρ} {op : OOp σ α ρ} {c : Came α ρ} :
    OReach th s → s.step op = .ok (s', c) → OReach (th ++ [(op, c)]) s'

end Mimic.Own
