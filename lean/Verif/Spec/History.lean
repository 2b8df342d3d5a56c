import Verif.Model.World

/-!
# Specification: what a history of client operations must do

A small reference semantics of mimic++'s matching, written from the documentation and independent of
the implementation: there are no cursors, entry states, ratings, priorities or collected reports.
The state is just the list of expectations in creation order with the number of calls each has
resolved. It shares with the model only the vocabulary of client operations (`Op`), policies
(`Policy`) and observable events (`Event`).
-/

set_option autoImplicit false

namespace Mimic.Spec

/-- An expectation as the client knows it. `id` is its creation number, `count` the number of calls it
has resolved, `seqs` the sequences it is attached to. -/
structure Exp (α : Type) where
  id : Nat
  mock : Nat
  min : Int
  max : Int
  seqs : List Nat
  policies : List (Policy α)
  count : Nat
  alive : Bool

/-- A sequence as the client knows it: its kind and whether the sequence object still exists. -/
structure Seq where
  strategy : Strategy
  handle : Bool
deriving DecidableEq, Repr

/-- The state of the reference semantics. -/
structure State (α : Type) where
  seqs : List Seq
  exps : List (Exp α)
  mocks : Nat

variable {α : Type}

def State.init : State α := { seqs := [], exps := [], mocks := 0 }

/-- All expectations ever attached to sequence `s`, in order of attachment (= creation). -/
def State.attached (S : State α) (s : Nat) : List (Exp α) :=
  S.exps.filter (fun x => x.seqs.contains s)

/-- The history rule: an expectation is applicable iff it is below its upper limit and in each of its
sequences everything attached earlier has reached its lower limit and nothing attached later has
resolved a call yet. -/
def State.applicable (S : State α) (x : Exp α) : Bool :=
  decide ((x.count : Int) < x.max)
  && x.seqs.all (fun s => (S.attached s).all (fun y =>
      (!decide (y.id < x.id) || decide (y.min ≤ (y.count : Int)))
      && (!decide (x.id < y.id) || y.count == 0)))

/-- Some policy of `x` throws while looking at the call. -/
def Exp.throws (x : Exp α) (a : α) : Bool :=
  x.policies.any (fun p => p.accepts a == none)

/-- All policies of `x` accept the call. -/
def Exp.accepts (x : Exp α) (a : α) : Bool :=
  x.policies.all (fun p => p.accepts a == some true)

/-- The number of sequences of `x` of the given kind. -/
def State.kindCount (S : State α) (x : Exp α) (st : Strategy) : Nat :=
  (x.seqs.filter (fun s => (S.seqs[s]?.map (·.strategy)) == some st)).length

/-- The older candidate `y` is taken instead of the younger candidate `x`: `y` is attached to all
sequences of `x`, and `x` is attached to more lazy than greedy sequences. -/
def State.displaces (S : State α) (y x : Exp α) : Bool :=
  x.seqs.all (fun s => y.seqs.contains s)
  && decide (S.kindCount x .greedy < S.kindCount x .lazy)

/-- The choice among applicable candidates, scanning from the youngest (`x`) to the oldest. -/
def State.select (S : State α) : Exp α → List (Exp α) → Exp α
  | x, [] => x
  | x, y :: ys => if S.displaces y x then S.select y ys else S.select x ys

/-- Living expectations of mock `m`, youngest first. -/
def State.candidates (S : State α) (m : Nat) : List (Exp α) :=
  (S.exps.filter (fun x => x.alive && x.mock == m)).reverse

/-- The count of expectation number `e` grows by one; nothing else changes. -/
def State.countMatch (S : State α) (e : Nat) : State α :=
  { S with exps := S.exps.map (fun x => if x.id = e then { x with count := x.count + 1 } else x) }

/-- Outcome of a call. -/
def State.call (S : State α) (m : Nat) (a : α) : State α × List Event × Option Nat :=
  let cands := S.candidates m
  let unhandled := (cands.filter (·.throws a)).map (fun x => Event.unhandled x.id)
  let accepting := cands.filter (·.accepts a)
  match accepting.filter S.applicable with
  | x :: older =>
    let b := S.select x older
    (S.countMatch b.id, unhandled ++ [.fullMatch b.id], some b.id)
  | [] =>
    if accepting.isEmpty then
      (S, unhandled ++ [.noMatch ((cands.filter (fun x => !x.throws a)).map (·.id))], none)
    else
      (S, unhandled ++ [.inapplicable (accepting.map (·.id))], none)

/-- Somebody still refers to sequence `s`. -/
def State.owned (S : State α) (s : Nat) : Bool :=
  (match S.seqs[s]? with | some q => q.handle | none => false)
  || S.exps.any (fun x => x.alive && x.seqs.contains s)

/-- `x` has resolved fewer calls than required. -/
def Exp.unfulfilled (x : Exp α) : Bool := decide ((x.count : Int) < x.min)

/-- What is observed when sequence `s` ends: an error iff some attached expectation is unfulfilled,
stating the position of the first such one and the number of attached ones. -/
def State.sequenceEnd (S : State α) (s : Nat) : List Event :=
  (match (S.attached s).findIdx? (·.unfulfilled) with
    | some k => [Event.sequenceError s k (S.attached s).length]
    | none => [])
  ++ [.sequenceDestroyed s]

/-- The given sequences lost an owner: those without any owner end. -/
def State.release (S : State α) (ss : List Nat) : List Event :=
  ss.flatMap (fun s => if S.owned s then [] else S.sequenceEnd s)

/-- `expect::times(min, max)` is legal. -/
def validTimes (min max : Int) : Prop := 0 ≤ min ∧ min ≤ max

instance (min max : Int) : Decidable (validTimes min max) := by
  unfold validTimes; infer_instance

def State.hasHandle (S : State α) (s : Nat) : Bool :=
  match S.seqs[s]? with | some q => q.handle | none => false

/-- Expectation number `e` goes out of scope. -/
def State.withdraw (S : State α) (e : Nat) : State α :=
  { S with exps := S.exps.map (fun x => if x.id = e then { x with alive := false } else x) }

/-- One client operation; `none` when the client uses an object that does not exist. -/
def State.step (S : State α) : Op α → Option (State α × List Event)
  | .newSequence st =>
    some ({ S with seqs := S.seqs ++ [{ strategy := st, handle := true }] },
      [.sequenceCreated S.seqs.length st])
  | .dropSequence s =>
    if S.hasHandle s then
      let S' := { S with seqs := S.seqs.modify s (fun q => { q with handle := false }) }
      some (S', S'.release [s])
    else none
  | .newMock => some ({ S with mocks := S.mocks + 1 }, [.mockCreated S.mocks])
  | .expect m min max tags policies =>
    if m < S.mocks ∧ tags.all S.hasHandle ∧ isInt min ∧ isInt max then
      if validTimes min max ∧ tags.Nodup then
        let x : Exp α :=
          { id := S.exps.length, mock := m, min := min, max := max, seqs := tags,
            policies := policies, count := 0, alive := true }
        some ({ S with exps := S.exps ++ [x] }, [.created x.id])
      else some (S, [.rejected])
    else none
  | .call m a =>
    if m < S.mocks then
      let r := S.call m a
      some (r.1, r.2.1)
    else none
  | .destroy e =>
    match S.exps.find? (fun x => x.id == e && x.alive) with
    | none => none
    | some x =>
      let S' := S.withdraw e
      some (S',
        .destroyed e
        :: (if x.unfulfilled || !(x.policies.all (·.isSatisfied)) then [Event.unfulfilled e] else [])
        ++ S'.release x.seqs)

/-- A whole client program. -/
def State.run (S : State α) : List (Op α) → Option (State α × List Event)
  | [] => some (S, [])
  | op :: ops =>
    match S.step op with
    | none => none
    | some (S', ev) =>
      match S'.run ops with
      | none => none
      | some (S'', ev') => some (S'', ev ++ ev')

end Mimic.Spec
