import Verif.Model.Reach

/-!
# Specification vocabulary on histories

Everything here is a function of the observable history alone (operations of the client and what they
reported). Nothing of the library's internal state is mentioned.
-/

set_option autoImplicit false

namespace Mimic

variable {α : Type}

/-- What the client asked for when creating an expectation. -/
structure Decl (α : Type) where
  mock : Nat
  min : Int
  max : Int
  seqs : List Nat
  policies : List (Policy α)

/-- All observations of a history, oldest first. -/
def Trace.events (tr : Trace α) : List Event := tr.flatMap (·.2)

/-- What expectation number `e` was created with. -/
def Trace.decl (tr : Trace α) (e : Nat) : Option (Decl α) :=
  tr.findSome? (fun st =>
    match st with
    | (.expect mock min max seqs policies, ev) =>
      if Event.created e ∈ ev then some { mock, min, max, seqs, policies } else none
    | _ => none)

/-- How many calls expectation `e` has resolved. -/
def Trace.matched (tr : Trace α) (e : Nat) : Nat := tr.events.count (.fullMatch e)

/-- Expectation `e` exists and has not gone out of scope. -/
def Trace.live (tr : Trace α) (e : Nat) : Prop :=
  (∃ d, tr.decl e = some d) ∧ Event.destroyed e ∉ tr.events

/-- Expectation `e` was attached to sequence `s` (the creation number is the order of attachment). -/
def Trace.attached (tr : Trace α) (e s : Nat) : Prop := ∃ d, tr.decl e = some d ∧ s ∈ d.seqs

/-- Sequence `s` was defined as a lazy / greedy one. -/
def Trace.kind (tr : Trace α) (s : Nat) (st : Strategy) : Prop := Event.sequenceCreated s st ∈ tr.events

/-- The client's sequence object `s` is still there. -/
def Trace.handle (tr : Trace α) (s : Nat) : Prop :=
  (∃ st, tr.kind s st) ∧ ∀ ev, (Op.dropSequence s, ev) ∉ tr

/-- Someone still refers to sequence `s`: the client's object or a living expectation. -/
def Trace.referenced (tr : Trace α) (s : Nat) : Prop :=
  tr.handle s ∨ ∃ e, tr.live e ∧ tr.attached e s

/-- Expectation `e` has resolved fewer calls than its lower limit. -/
def Trace.tooFew (tr : Trace α) (e : Nat) : Prop :=
  ∃ d, tr.decl e = some d ∧ (tr.matched e : Int) < d.min

/-- Every policy of a living expectation `e` of mock `m` accepts the call `a`. -/
def Trace.accepts (tr : Trace α) (m : Nat) (a : α) (e : Nat) : Prop :=
  tr.live e ∧ ∃ d, tr.decl e = some d ∧ d.mock = m ∧ ∀ p ∈ d.policies, p.accepts a = some true

/-- Some policy of a living expectation `e` of mock `m` throws when it looks at the call `a`. -/
def Trace.throws (tr : Trace α) (m : Nat) (a : α) (e : Nat) : Prop :=
  tr.live e ∧ ∃ d, tr.decl e = some d ∧ d.mock = m ∧ ∃ p ∈ d.policies, p.accepts a = none

/-- The order rule for one sequence: everything attached earlier has reached its lower limit, nothing
attached later has resolved a call. -/
def Trace.turn (tr : Trace α) (e s : Nat) : Prop :=
  (∀ e', e' < e → tr.attached e' s → ¬ tr.tooFew e') ∧
  (∀ e', e < e' → tr.attached e' s → tr.matched e' = 0)

/-- Expectation `e` is applicable: below its upper limit and in turn in all its sequences. -/
def Trace.applicable (tr : Trace α) (e : Nat) : Prop :=
  (∃ d, tr.decl e = some d ∧ (tr.matched e : Int) < d.max) ∧ ∀ s, tr.attached e s → tr.turn e s

/-- `e` could resolve the call `a` of mock `m`. -/
def Trace.candidate (tr : Trace α) (m : Nat) (a : α) (e : Nat) : Prop :=
  tr.accepts m a e ∧ tr.applicable e

/-- `es` lists exactly the expectations with property `P`, youngest first. -/
def YoungestFirst (P : Nat → Prop) (es : List Nat) : Prop :=
  es.Pairwise (· > ·) ∧ ∀ e, e ∈ es ↔ P e

/-- `es` lists exactly the expectations with property `P`, oldest first. -/
def OldestFirst (P : Nat → Prop) (es : List Nat) : Prop :=
  es.Pairwise (· < ·) ∧ ∀ e, e ∈ es ↔ P e

/-- How many of the given sequences were defined as `st` ones. -/
def Trace.kindCount (tr : Trace α) (ss : List Nat) (st : Strategy) : Nat :=
  ss.countP (fun s => decide (Event.sequenceCreated s st ∈ tr.events))

/-- Candidate `x` gives way to the older candidate `y`: `y` is attached to all sequences of `x`, and
`x` is attached to more lazy than greedy sequences. -/
def Trace.givesWay (tr : Trace α) (x y : Nat) : Prop :=
  ∃ d, tr.decl x = some d ∧ (∀ s ∈ d.seqs, tr.attached y s) ∧
    tr.kindCount d.seqs .greedy < tr.kindCount d.seqs .lazy

/-- The choice among candidates: `Chosen x older r` means that starting from `x` and looking at the
older candidates one by one, `r` is finally chosen. -/
inductive Trace.Chosen (tr : Trace α) : Nat → List Nat → Nat → Prop where
  | done (x : Nat) : Trace.Chosen tr x [] x
  | move {x y r : Nat} {ys : List Nat} :
    tr.givesWay x y → Trace.Chosen tr y ys r → Trace.Chosen tr x (y :: ys) r
  | stay {x y r : Nat} {ys : List Nat} :
    ¬ tr.givesWay x y → Trace.Chosen tr x ys r → Trace.Chosen tr x (y :: ys) r

/-- The client only uses things that exist (and passes `int`s as limits). -/
def Trace.valid (tr : Trace α) : Op α → Prop
  | .newSequence _ => True
  | .newMock => True
  | .dropSequence s => tr.handle s
  | .expect m min max seqs _ =>
    Event.mockCreated m ∈ tr.events ∧ (∀ s ∈ seqs, tr.handle s) ∧
      (-2147483648 ≤ min ∧ min ≤ 2147483647) ∧ (-2147483648 ≤ max ∧ max ≤ 2147483647)
  | .call m _ => Event.mockCreated m ∈ tr.events
  | .destroy e => tr.live e

end Mimic
