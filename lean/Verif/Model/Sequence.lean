import Verif.Model.Base

/-!
# `BasicSequence`, its strategies and `has_better_rating`

Models `/repo/include/mimic++/Sequence.hpp` 79-252 and 285-425.
-/

set_option autoImplicit false

namespace Mimic

/-- Sequence.hpp 209-214: `BasicSequence::State`. -/
inductive EState where
  | unsatisfied
  | satisfied
  | saturated
deriving DecidableEq, Repr

/-- The template parameter `priorityStrategy`: Sequence.hpp 227-239 (`LazyStrategy`) and 241-252
(`GreedyStrategy`). -/
inductive Strategy where
  | lazy
  | greedy
deriving DecidableEq, Repr

/-- Sequence.hpp 85-225: the data members of `BasicSequence` (216-217), with the strategy, which is
a template argument in the code, carried as data. `sequence::Id` is an `enum class : int`
(Fwd.hpp 218-221) and is modelled by `Int`. -/
structure Sequence where
  strategy : Strategy
  entries : List EState
  cursor : Int
deriving DecidableEq, Repr

/-- Sequence.hpp 111-112: the default constructor. -/
def Sequence.new (strategy : Strategy) : Sequence :=
  { strategy := strategy, entries := [], cursor := 0 }

/-- Sequence.hpp 95-99 and 168-172: the predicate used by destructor and `is_consumable`. -/
def EState.done (s : EState) : Bool :=
  s == .satisfied || s == .saturated

/-- Sequence.hpp 219-224: `is_valid`. -/
def Sequence.isValid (s : Sequence) (id : Int) : Bool :=
  decide (0 ≤ id) && decide (id < s.entries.length)

/-- `m_Entries[index]`, undefined behaviour when out of range. -/
def Sequence.entry (s : Sequence) (id : Int) : M EState :=
  if id < 0 then .error (.ub "m_Entries[negative]")
  else match s.entries[id.toNat]? with
    | some e => .ok e
    | none => .error (.ub "m_Entries[out of range]")

/-- Assignment to `m_Entries[index]`, undefined behaviour when out of range. -/
def Sequence.setEntry (s : Sequence) (id : Int) (e : EState) : M Sequence :=
  if 0 ≤ id ∧ id < s.entries.length
  then .ok { s with entries := s.entries.set id.toNat e }
  else .error (.ub "m_Entries[out of range] = ...")

/-- Sequence.hpp 158-176: `is_consumable`. The iterator range `[begin + cursor, begin + index)` is
evaluated only when `m_Cursor <= index` (short-circuit); a negative cursor would be undefined
behaviour. -/
def Sequence.isConsumable (s : Sequence) (id : Int) : M Bool := do
  check (s.isValid id) "is_consumable: assert(is_valid(id))"
  let state ← s.entry id
  if s.cursor ≤ id then
    check (decide (0 ≤ s.cursor)) "is_consumable: begin() + negative cursor"
    return ((s.entries.take id.toNat).drop s.cursor.toNat).all EState.done
      && (state == .unsatisfied || state == .satisfied)
  else
    return false

/-- Sequence.hpp 227-252: the two strategies' `operator ()`. -/
def Strategy.priority (st : Strategy) (id cursor : Int) : M Int := do
  check (decide (cursor ≤ id)) "strategy: assert(cursor <= index)"
  let d ← toInt (id - cursor)
  match st with
  | .lazy => toInt (intMax - d)
  | .greedy => return d

/-- Sequence.hpp 119-133: `priority_of`. -/
def Sequence.priorityOf (s : Sequence) (id : Int) : M (Option Int) := do
  check (s.isValid id) "priority_of: assert(is_valid(id))"
  if ← s.isConsumable id then
    return some (← s.strategy.priority id s.cursor)
  else
    return none

/-- Sequence.hpp 135-143: `set_satisfied`. -/
def Sequence.setSatisfied (s : Sequence) (id : Int) : M Sequence := do
  check (s.isValid id) "set_satisfied: assert(is_valid(id))"
  check (decide (s.cursor ≤ id)) "set_satisfied: assert(cursor <= id)"
  let element ← s.entry id
  check (element == .unsatisfied) "set_satisfied: assert(element == unsatisfied)"
  s.setEntry id .satisfied

/-- Sequence.hpp 145-156: `set_saturated`. -/
def Sequence.setSaturated (s : Sequence) (id : Int) : M Sequence := do
  check (s.isValid id) "set_saturated: assert(is_valid(id))"
  check (decide (s.cursor ≤ id)) "set_saturated: assert(cursor <= index)"
  let element ← s.entry id
  check (element == .unsatisfied || element == .satisfied)
    "set_saturated: assert(element == unsatisfied || element == satisfied)"
  s.setEntry id .saturated

/-- Sequence.hpp 178-183: `consume`. -/
def Sequence.consume (s : Sequence) (id : Int) : M Sequence := do
  check (← s.isConsumable id) "consume: assert(is_consumable(id))"
  return { s with cursor := id }

/-- Sequence.hpp 185-198: `add`. `none` stands for the thrown `std::runtime_error`.
`std::in_range<int>(size)` is `size ≤ INT_MAX`. -/
def Sequence.add (s : Sequence) : Option (Sequence × Int) :=
  if (s.entries.length : Int) ≤ intMax then
    let entries := s.entries ++ [EState.unsatisfied]
    some ({ s with entries := entries }, (entries.length : Int) - 1)
  else none

/-- Sequence.hpp 90-109: the destructor. `some (k, n)` stands for the reported error
"Unfulfilled sequence. k out of n expectation(s) are satisfied."; the starting iterator
`cbegin() + m_Cursor` must lie inside the vector. -/
def Sequence.destruct (s : Sequence) : M (Option (Nat × Nat)) := do
  check (decide (0 ≤ s.cursor) && decide (s.cursor ≤ s.entries.length))
    "~BasicSequence: cbegin() + cursor out of range"
  let rest := s.entries.drop s.cursor.toNat
  match rest.findIdx? (fun e => !e.done) with
  | some i => return some (s.cursor.toNat + i, s.entries.length)
  | none => return none

/-- Fwd.hpp 223-230: `sequence::rating`. A tag is the address of a sequence; the model uses the
index into its table of sequences. -/
structure Rating where
  priority : Int
  tag : Nat
deriving DecidableEq, Repr

/-- Sequence.hpp 401-425: the loop of `has_better_rating`, with the accumulator `rating`. The
accumulator is bounded by the number of ratings (the number of sequences of one expectation, a
template pack), so no overflow check is modelled here. -/
def hasBetterRatingLoop (rhs : List Rating) : List Rating → Int → Bool
  | [], rating => decide (0 ≤ rating)
  | l :: ls, rating =>
    match rhs.find? (fun r => r.tag == l.tag) with
    | some r => hasBetterRatingLoop rhs ls (rating + (if l.priority < r.priority then -1 else 1))
    | none => true

/-- Sequence.hpp 401-425: `has_better_rating`. -/
def hasBetterRating (lhs rhs : List Rating) : Bool :=
  hasBetterRatingLoop rhs lhs 0

/-- Adjacent duplicates: what `std::ranges::unique` looks for (it returns a non-empty subrange
exactly if at least one element was dropped). -/
def hasAdjacentDup : List Nat → Bool
  | a :: b :: l => a == b || hasAdjacentDup (b :: l)
  | _ => false

/-- Insertion step of a sort. -/
def insertSorted (a : Nat) : List Nat → List Nat
  | [] => [a]
  | b :: l => if a ≤ b then a :: b :: l else b :: insertSorted a l

/-- `std::ranges::sort` on tags. Any sorting algorithm yields the same list, as tags are plain
integers; insertion sort is used. -/
def sortTags : List Nat → List Nat
  | [] => []
  | a :: l => insertSorted a (sortTags l)

/-- Sequence.hpp 334-356: the constructor of `Config` from a pack of sequences. `none` stands for the
thrown `std::invalid_argument`. The `if constexpr (1 < sequenceCount)` is kept. -/
def seqConfig (tags : List Nat) : Option (List Nat) :=
  if 1 < tags.length ∧ hasAdjacentDup (sortTags tags) then none
  else some tags

/-- Sequence.hpp 314-329: `Config::concat`. -/
def seqConfigConcat (a b : List Nat) : Option (List Nat) :=
  seqConfig (a ++ b)

end Mimic
