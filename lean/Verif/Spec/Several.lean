import Verif.Spec.Language
import Verif.Spec.Trace

/-!
# Specification: tests with any number of sequences

What a test with any expectations and any sequences asks for, without saying anything about how calls are distributed one after the other:
how many calls each expectation gets, and that in each sequence they come in the order in which the expectations were declared.
-/

set_option autoImplicit false

namespace Mimic.Several

variable {α : Type}

/-- One expectation: the mock, the limits, its sequences, and its policies. -/
structure Part (α : Type) where
  mock : Nat
  min : Int
  max : Int
  seqs : List Nat
  policies : List (Policy α)

/-- The expectation is for this call: a call `(m, a)` is a call of mock `m` with arguments `a`. -/
def Part.takes (p : Part α) (c : Nat × α) : Bool :=
  c.1 == p.mock && p.policies.all (fun q => q.accepts c.2 == some true)

/-- They have a sequence in common. -/
def share (p q : Part α) : Bool := p.seqs.any (fun s => q.seqs.contains s)

/-- No call fits two expectations. -/
def Unambiguous (parts : List (Part α)) (calls : List (Nat × α)) : Prop :=
  ∀ c ∈ calls, parts.Pairwise (fun p q => ¬ (p.takes c = true ∧ q.takes c = true))

/-- The calls are as wanted: each fits an expectation; each expectation gets as many as its limits say; and if two expectations have a
sequence in common, no call of the one declared later comes before a call of the one declared earlier. -/
structure Fulfils (parts : List (Part α)) (calls : List (Nat × α)) : Prop where
  expected : ∀ c ∈ calls, ∃ p ∈ parts, p.takes c = true
  counts : ∀ p ∈ parts, p.min ≤ (calls.countP p.takes : Int) ∧ (calls.countP p.takes : Int) ≤ p.max
  order : parts.Pairwise (fun p q => share p q = true → calls.Pairwise (fun c d => ¬ (q.takes c = true ∧ p.takes d = true)))

/-- The calls can be distributed as wanted: `who` says for each call the number of an expectation that it fits. -/
structure Distribution (parts : List (Part α)) (calls : List (Nat × α)) (who : List Nat) : Prop where
  length : who.length = calls.length
  fits : ∀ (k e : Nat) (c : Nat × α), who[k]? = some e → calls[k]? = some c → ∃ p, parts[e]? = some p ∧ p.takes c = true
  counts : ∀ (e : Nat) (p : Part α), parts[e]? = some p → p.min ≤ (who.count e : Int) ∧ (who.count e : Int) ≤ p.max
  order : ∀ (e e' : Nat) (p p' : Part α), parts[e]? = some p → parts[e']? = some p' → e < e' → share p p' = true →
    who.Pairwise (fun x y => ¬ (x = e' ∧ y = e))

/-- The test: the sequences, the mocks, the expectations, the calls, and the end of everything in any order. -/
def test (kinds : List Strategy) (mocks : Nat) (parts : List (Part α)) (calls : List (Nat × α)) (ends : List (Op α)) : List (Op α) :=
  kinds.map .newSequence ++ List.replicate mocks .newMock
    ++ parts.map (fun p => .expect p.mock p.min p.max p.seqs p.policies)
    ++ calls.map (fun c => .call c.1 c.2)
    ++ ends

/-- The ends of all sequences and expectations. -/
def allEnds (kinds : List Strategy) (parts : List (Part α)) : List (Op α) :=
  (List.range kinds.length).map .dropSequence ++ (List.range parts.length).map .destroy

/-! ## Any history

Here expectations, calls and ends may follow each other in any order, for example because of nested scopes. -/

/-- Step `i` of the history is a call that fits expectation `e`, which is in force then. -/
def Fits (tr : Trace α) (i e : Nat) : Prop :=
  ∃ m a ev, tr[i]? = some (Op.call m a, ev) ∧ Trace.accepts (tr.take i) m a e

/-- The calls of the history are as wanted. -/
structure AsWanted (tr : Trace α) : Prop where
  expected : ∀ (i m : Nat) (a : α) (ev : List Event), tr[i]? = some (Op.call m a, ev) → ∃ e, Fits tr i e
  counts : ∀ (e : Nat) (d : Decl α), tr.decl e = some d →
    ∃ steps : List Nat, OldestFirst (fun i => Fits tr i e) steps ∧ d.min ≤ (steps.length : Int) ∧ (steps.length : Int) ≤ d.max
  order : ∀ e e' s, e < e' → tr.attached e s → tr.attached e' s → ∀ i j, Fits tr i e → Fits tr j e' → i < j

end Mimic.Several
