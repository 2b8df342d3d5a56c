import Verif.Model.World

/-!
# Specification: tests with one sequence as patterns for calls

A test with one sequence says which calls it expects, in which order, and how often. Read as a pattern it is a regular
expression: the concatenation of one part for each expectation, `part{min,max}`.
-/

set_option autoImplicit false

namespace Mimic.Language

variable {α : Type}

/-- One expectation of the sequence: the mock, the limits, and its policies. -/
structure Part (α : Type) where
  mock : Nat
  min : Int
  max : Int
  policies : List (Policy α)

/-- The expectation is for this call: a call `(m, a)` is a call of mock `m` with arguments `a`. -/
def Part.takes (p : Part α) (c : Nat × α) : Bool :=
  c.1 == p.mock && p.policies.all (fun q => q.accepts c.2 == some true)

/-- The words of the regular expression: a block of calls for each part, in this order, with as many calls as the limits
allow. -/
inductive Word : List (Part α) → List (Nat × α) → Prop where
  | nil : Word [] []
  | cons {p : Part α} {ps : List (Part α)} {block rest : List (Nat × α)} :
    p.min ≤ block.length → (block.length : Int) ≤ p.max → (∀ c ∈ block, p.takes c = true) → Word ps rest →
    Word (p :: ps) (block ++ rest)

/-- No call fits two parts. -/
def Unambiguous (parts : List (Part α)) (calls : List (Nat × α)) : Prop :=
  ∀ c ∈ calls, parts.Pairwise (fun p q => ¬ (p.takes c = true ∧ q.takes c = true))

/-- Matching with possessive quantifiers (`part{min,max}+` in Perl's notation): each part takes as many calls as it can,
and never gives one back. -/
def possessive : List (Part α) → List (Nat × α) → Bool
  | [], calls => calls.isEmpty
  | p :: ps, calls =>
    let n := ((calls.take p.max.toNat).takeWhile p.takes).length
    decide (p.min ≤ n) && possessive ps (calls.drop n)

/-- Where the next call goes. The first of the given parts has taken `n` calls, the others none. A part can be left when
it has taken enough. A lazy sequence stays where it is if it can, a greedy one leaves if it can. -/
def next (st : Strategy) (n : Nat) : List (Part α) → Nat × α → Option (Nat × List (Part α))
  | [], _ => none
  | p :: ps, c =>
    let stay := if p.takes c && decide ((n : Int) < p.max) then some (n + 1, p :: ps) else none
    let leave := if p.min ≤ n then next st 0 ps c else none
    match st with
    | .lazy => stay <|> leave
    | .greedy => leave <|> stay

/-- Nothing is missing. -/
def finished (n : Nat) : List (Part α) → Bool
  | [] => true
  | p :: ps => decide (p.min ≤ n) && finished 0 ps

/-- The calls one after the other, without second thoughts. -/
def accepted (st : Strategy) (n : Nat) (parts : List (Part α)) : List (Nat × α) → Bool
  | [] => finished n parts
  | c :: cs =>
    match next st n parts c with
    | some (n', parts') => accepted st n' parts' cs
    | none => false

/-- The test: a sequence, some mocks, the expectations, the calls, and the end of everything in any order. -/
def test (st : Strategy) (mocks : Nat) (parts : List (Part α)) (calls : List (Nat × α)) (ends : List (Op α)) : List (Op α) :=
  .newSequence st :: List.replicate mocks .newMock
    ++ parts.map (fun p => .expect p.mock p.min p.max [0] p.policies)
    ++ calls.map (fun c => .call c.1 c.2)
    ++ ends

/-- The ends of all expectations and of the sequence. -/
def allEnds (parts : List (Part α)) : List (Op α) := .dropSequence 0 :: (List.range parts.length).map .destroy

/-- A report that makes a test fail. -/
def failure : Event → Bool
  | .noMatch _ => true
  | .inapplicable _ => true
  | .unfulfilled _ => true
  | .sequenceError _ _ _ => true
  | _ => false

/-- The test passes: there is no such report. -/
def passes (evs : List Event) : Prop := ∀ ev ∈ evs, failure ev = false

end Mimic.Language
