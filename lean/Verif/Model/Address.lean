import Verif.Model.World

/-!
# Addresses

The model of `Model/World.lean` numbers sequences and expectations in the order of their creation and compares numbers. The library compares
addresses: of sequences (`tag`, Sequence.hpp 200-206) in `has_better_rating` (401-425) and in the constructor of `Config` (334-356), and of
expectations (`std::shared_ptr`) in `ExpectationCollection::push` and `remove` (Expectation.hpp 258-289). An address may be used again when
the object that was there is gone. This file repeats the functions of the library in which addresses are compared or kept, with addresses.
The rest is taken from `Model/World.lean`.
-/

set_option autoImplicit false

namespace Mimic.Address

variable {α : Type}

/-- Where the allocator puts the sequences and expectations of a test: the address of the first, the second, ... object. -/
structure Place where
  seq : Nat → Nat
  exp : Nat → Nat

/-- ControlPolicy.hpp 118-141: the loop that collects ratings and inapplicable tags; a tag is the address of the sequence. -/
def collectRatings (pl : Place) (h : Seqs) : List (Nat × Int) → M (List Rating × List Nat)
  | [] => .ok ([], [])
  | (s, id) :: rest => do
    let q ← h.deref s
    match ← q.priorityOf id with
    | some p =>
      let (rs, is) ← collectRatings pl h rest
      return ({ priority := p, tag := pl.seq s } :: rs, is)
    | none =>
      let (rs, is) ← collectRatings pl h rest
      return (rs, pl.seq s :: is)

/-- ControlPolicy.hpp 107-114. -/
def derefTags (pl : Place) (h : Seqs) : List (Nat × Int) → M (List Nat)
  | [] => .ok []
  | (s, _) :: rest => do
    let _ ← h.deref s
    let ts ← derefTags pl h rest
    return pl.seq s :: ts

/-- ControlPolicy.hpp 93-160 and 224-232: `make_control_state`. -/
def controlState (pl : Place) (c : Control) (h : Seqs) : M ControlState := do
  if c.count = c.max then
    return .saturated c.min c.max c.count (← derefTags pl h c.entries)
  else
    let (ratings, inapplicable) ← collectRatings pl h c.entries
    if inapplicable.isEmpty then
      return .applicable c.min c.max c.count ratings
    else
      return .inapplicable c.min c.max c.count ratings inapplicable

/-- Expectation.hpp 502-521 and 27-46: `BasicExpectation::matches` called through `make_match_report`. -/
def matchReport (pl : Place) (e : Nat) (x : Exp α) (h : Seqs) (a : α) : M (Option MatchReport) := do
  let st ← controlState pl x.control h
  match evalPolicies a x.policies with
  | none => return none
  | some rs => return some { exp := e, control := st, results := rs }

/-- Expectation.hpp 308-331: the matching loop. -/
def scan (pl : Place) (w : World α) (a : α) : List Nat → M Scan
  | [] => .ok { full := [], inapplicable := [], none := [], thrown := [] }
  | e :: rest => do
    let x ← w.deref e
    let rep ← matchReport pl e x w.seqs a
    let r ← scan pl w a rest
    match rep with
    | Option.none => return { r with thrown := e :: r.thrown }
    | some rep =>
      match evaluateMatchReport rep with
      | .none => return { r with none := rep :: r.none }
      | .inapplicable => return { r with inapplicable := rep :: r.inapplicable }
      | .full => return { r with full := rep :: r.full }

/-- Expectation.hpp 300-352: `handle_call`. The reports contain the ratings with addresses; `pickBestMatch` (48-71) compares those. -/
def handleCall (pl : Place) (w : World α) (coll : Nat) (a : α) : M (World α × List Event × Option Nat) :=
  match w.colls[coll]? with
  | none => .error (.client "call on a non-existing mock")
  | some es => do
    let r ← scan pl w a es.reverse
    let unhandled := r.thrown.map Event.unhandled
    if !r.full.isEmpty then
      let best ← pickBestMatch r.full
      let w' ← w.consume best.exp
      return (w', unhandled ++ [.fullMatch best.exp], some best.exp)
    else if !r.inapplicable.isEmpty then
      return (w, unhandled ++ [.inapplicable (r.inapplicable.map (·.exp))], none)
    else
      return (w, unhandled ++ [.noMatch (r.none.map (·.exp))], none)

/-- Sequence.hpp 334-356: the constructor of `Config` sorts the addresses and looks for neighbours that are equal. -/
def seqConfig (pl : Place) (ss : List Nat) : Option (List Nat) :=
  if 1 < ss.length ∧ hasAdjacentDup (sortTags (ss.map pl.seq)) then none
  else some ss

/-- `World.expect`: the builder (Sequence.hpp 334-356, ExpectationBuilder.hpp 154-185) and `push` (Expectation.hpp 258-267), which asserts
that no pointer in the storage is equal to the new one. -/
def expect (pl : Place) (w : World α) (coll : Nat) (min max : Int) (ss : List Nat) (policies : List (Policy α)) :
    M (World α × List Event) := do
  match w.colls[coll]? with
  | none => .error (.client "expectation on a non-existing mock")
  | some es =>
    if ss.all w.hasHandle && isInt min && isInt max then
      match TimesConfig.make min max, seqConfig pl ss with
      | some t, some ss =>
        let (h, c) ← Control.make t ss w.seqs
        let e := w.exps.length
        check (!(es.map pl.exp).contains (pl.exp e)) "push: assert(find == end)"
        let w' : World α :=
          { seqs := h
            exps := w.exps ++ [{ coll := coll, control := c, policies := policies, alive := true }]
            colls := w.colls.set coll (es ++ [e]) }
        return (w', [.created e])
      | _, _ => return (w, [.rejected])
    else .error (.client "in_sequence with a dead sequence object, or a limit that is no int")

/-- `World.destroyExp`: `remove` (Expectation.hpp 276-289) looks for the first pointer in the storage that is equal to the given one, asserts
that there is one, and erases it. -/
def destroyExp (pl : Place) (w : World α) (e : Nat) : M (World α × List Event) := do
  match w.exps[e]? with
  | none => .error (.client "destruction of a non-existing expectation")
  | some x =>
    if !x.alive then .error (.client "destruction of a dead expectation")
    else
      match w.colls[x.coll]? with
      | none => .error (.ub "null storage")
      | some es =>
        check ((es.map pl.exp).contains (pl.exp e)) "remove: assert(iter != end)"
        let w₁ : World α :=
          { w with
            colls := w.colls.set x.coll (es.eraseP (fun k => pl.exp k == pl.exp e))
            exps := w.exps.set e { x with alive := false } }
        let unf := if x.isSatisfied then [] else [Event.unfulfilled e]
        let (w₂, ev) ← w₁.releaseAll (x.control.entries.map (·.1))
        return (w₂, .destroyed e :: unf ++ ev)

/-- One operation of the client. -/
def step (pl : Place) (w : World α) : Op α → M (World α × List Event)
  | .expect coll min max ss policies => expect pl w coll min max ss policies
  | .call coll a => do
    let (w', ev, _) ← handleCall pl w coll a
    return (w', ev)
  | .destroy e => destroyExp pl w e
  | op => w.step op

/-- A whole program. -/
def run (pl : Place) (w : World α) : List (Op α) → M (World α × List Event)
  | [] => .ok (w, [])
  | op :: ops => do
    let (w', ev) ← step pl w op
    let (w'', ev') ← run pl w' ops
    return (w'', ev ++ ev')

end Mimic.Address
