import Verif.Model.Times
import Verif.Model.Sequence

/-!
# `ControlPolicy`

Models `/repo/include/mimic++/ControlPolicy.hpp` 26-47 and 93-262.

Sequences are shared between expectations through `std::shared_ptr`. The model keeps all sequence
objects in one table (`Seqs`); the position in the table plays the role of the address, i.e. of the
tag (Sequence.hpp 200-206). Simplification: positions are never reused, whereas an allocator may
reuse the address of a dead sequence. Tags are compared only between sequences that are alive at the
same time; `Model/Address.lean` compares addresses.
-/

set_option autoImplicit false

namespace Mimic

/-- A sequence object together with the facts that decide about its lifetime: `alive` until the last
`std::shared_ptr` is gone; `handle` while the client's `LazySequence`/`GreedySequence` object
(Sequence.hpp 254-283, 371-391) exists. -/
structure SeqCell where
  seq : Sequence
  handle : Bool
  alive : Bool
deriving DecidableEq, Repr

/-- The table of all sequence objects ever created. -/
abbrev Seqs := List SeqCell

/-- Dereferencing a `std::shared_ptr` to a sequence: undefined behaviour for a dead object. -/
def Seqs.deref (h : Seqs) (s : Nat) : M Sequence :=
  match h[s]? with
  | some c => if c.alive then .ok c.seq else .error (.ub "use of a destroyed sequence")
  | none => .error (.ub "use of a non-existing sequence")

/-- Writing through a `std::shared_ptr` to a sequence. -/
def Seqs.store (h : Seqs) (s : Nat) (q : Sequence) : Seqs :=
  h.modify s (fun c => { c with seq := q })

/-- Applies a mutating member function to the sequence object with address `s`. -/
def Seqs.apply (h : Seqs) (s : Nat) (f : Sequence → M Sequence) : M Seqs := do
  let q ← h.deref s
  let q' ← f q
  return h.store s q'

/-- ControlPolicy.hpp 235-239: the data members of `ControlPolicy`. `entries` are the pairs of
sequence pointer and id. -/
structure Control where
  min : Int
  max : Int
  count : Int
  entries : List (Nat × Int)
deriving DecidableEq, Repr

/-- ControlPolicy.hpp 26-47: `make_sequence_entries`. The function is `noexcept`, so an exception
from `add()` terminates. -/
def makeSequenceEntries (h : Seqs) : List Nat → M (Seqs × List (Nat × Int))
  | [] => .ok (h, [])
  | s :: rest => do
    let q ← h.deref s
    match q.add with
    | none => .error (.terminate "make_sequence_entries is noexcept, add() threw")
    | some (q', id) =>
      let (h', entries) ← makeSequenceEntries (h.store s q') rest
      return (h', (s, id) :: entries)

/-- Calls a mutating member function on every attached sequence, in order (the fold expressions in
ControlPolicy.hpp 212-217, 245-250 and 254-259). -/
def forEntries (f : Sequence → Int → M Sequence) : List (Nat × Int) → Seqs → M Seqs
  | [], h => .ok h
  | (s, id) :: rest, h => do
    let h' ← h.apply s (fun q => f q id)
    forEntries f rest h'

/-- ControlPolicy.hpp 241-261: `update_sequence_states`. -/
def Control.updateSequenceStates (c : Control) (h : Seqs) : M Seqs :=
  if c.count = c.min then forEntries Sequence.setSatisfied c.entries h
  else if c.count = c.max then forEntries Sequence.setSaturated c.entries h
  else .ok h

/-- ControlPolicy.hpp 169-181: the constructor. -/
def Control.make (t : TimesConfig) (tags : List Nat) (h : Seqs) : M (Seqs × Control) := do
  let (h', entries) ← makeSequenceEntries h tags
  let c : Control := { min := t.min, max := t.max, count := 0, entries := entries }
  let h'' ← c.updateSequenceStates h'
  return (h'', c)

/-- ControlPolicy.hpp 183-188: `is_satisfied`. -/
def Control.isSatisfied (c : Control) : Bool :=
  decide (c.min ≤ c.count) && decide (c.count ≤ c.max)

/-- ControlPolicy.hpp 190-194: `is_saturated`. -/
def Control.isSaturated (c : Control) : Bool :=
  decide (c.count = c.max)

/-- The fold `(... && std::get<0>(entries)->is_consumable(std::get<1>(entries)))`,
ControlPolicy.hpp 200-205, with its short-circuit. -/
def allConsumable (h : Seqs) : List (Nat × Int) → M Bool
  | [] => .ok true
  | (s, id) :: rest => do
    let q ← h.deref s
    if ← q.isConsumable id then allConsumable h rest else return false

/-- ControlPolicy.hpp 196-206: `is_applicable`. -/
def Control.isApplicable (c : Control) (h : Seqs) : M Bool :=
  if c.count < c.max then allConsumable h c.entries else .ok false

/-- ControlPolicy.hpp 208-222: `consume`. -/
def Control.consume (c : Control) (h : Seqs) : M (Seqs × Control) := do
  check (← c.isApplicable h) "ControlPolicy::consume: assert(is_applicable())"
  let h' ← forEntries Sequence.consume c.entries h
  let n ← toInt (c.count + 1)
  let c' : Control := { c with count := n }
  let h'' ← c'.updateSequenceStates h'
  return (h'', c')

/-- Reports.hpp 39-76: `control_state_t`. -/
inductive ControlState where
  | inapplicable (min max count : Int) (ratings : List Rating) (inapplicable : List Nat)
  | applicable (min max count : Int) (ratings : List Rating)
  | saturated (min max count : Int) (tags : List Nat)
deriving DecidableEq, Repr

/-- ControlPolicy.hpp 118-141: the loop that collects ratings and inapplicable tags. -/
def collectRatings (h : Seqs) : List (Nat × Int) → M (List Rating × List Nat)
  | [] => .ok ([], [])
  | (s, id) :: rest => do
    let q ← h.deref s
    match ← q.priorityOf id with
    | some p =>
      let (rs, is) ← collectRatings h rest
      return ({ priority := p, tag := s } :: rs, is)
    | none =>
      let (rs, is) ← collectRatings h rest
      return (rs, s :: is)

/-- Dereferences every attached sequence to obtain its tag (ControlPolicy.hpp 107-114). -/
def derefTags (h : Seqs) : List (Nat × Int) → M (List Nat)
  | [] => .ok []
  | (s, _) :: rest => do
    let _ ← h.deref s
    let ts ← derefTags h rest
    return s :: ts

/-- ControlPolicy.hpp 93-160 and 224-232: `make_control_state` / `ControlPolicy::state`. -/
def Control.state (c : Control) (h : Seqs) : M ControlState := do
  if c.count = c.max then
    return .saturated c.min c.max c.count (← derefTags h c.entries)
  else
    let (ratings, inapplicable) ← collectRatings h c.entries
    if inapplicable.isEmpty then
      return .applicable c.min c.max c.count ratings
    else
      return .inapplicable c.min c.max c.count ratings inapplicable

end Mimic
