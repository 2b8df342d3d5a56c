import Verif.Spec.Trace

/-!
# Specification: distributing calls among expectations
-/

set_option autoImplicit false

namespace Mimic.Assign

variable {α : Type}

/-- A call: the mock and the arguments. -/
abbrev Call (α : Type) := Nat × α

/-- How often expectation `e` is used. -/
def uses (ps : List (Call α × Nat)) (e : Nat) : Nat := (ps.map (·.2)).count e

/-- Somebody distributes the calls `cs` among the living expectations: each call is given to one that accepts it, and no upper limit is
exceeded. In which order the calls are made does not matter. -/
structure Distributes (tr : Trace α) (cs : List (Call α)) (ps : List (Call α × Nat)) : Prop where
  calls : ps.map (·.1) = cs
  accepted : ∀ p ∈ ps, tr.accepts p.1.1 p.1.2 p.2
  limit : ∀ e d, tr.live e → tr.decl e = some d → ((tr.matched e + uses ps e : Nat) : Int) ≤ d.max

/-- In addition, all lower limits are reached. -/
structure Satisfies (tr : Trace α) (cs : List (Call α)) (ps : List (Call α × Nat)) : Prop extends Distributes tr cs ps where
  enough : ∀ e d, tr.live e → tr.decl e = some d → d.min ≤ ((tr.matched e + uses ps e : Nat) : Int)

/-- The calls are made one after the other, and each of them is resolved by an expectation. -/
def Resolved (tr : Trace α) (cs : List (Call α)) (tr' : Trace α) : Prop :=
  (∃ w, Reach (tr ++ tr') w) ∧ tr'.map (·.1) = cs.map (fun c => Op.call c.1 c.2) ∧ ∀ st ∈ tr', ∃ e, Event.fullMatch e ∈ st.2

/-- There is a call that both accept. -/
def Overlap (tr : Trace α) (e e' : Nat) : Prop := ∃ m a, tr.accepts m a e ∧ tr.accepts m a e'

/-- Expectations that overlap were declared in this order: first the general one, then the special one. -/
def SpecialLast (tr : Trace α) : Prop :=
  ∀ e' e, e' < e → Overlap tr e e' → ∀ m a, tr.accepts m a e → tr.accepts m a e'

/-- No living expectation of the mocks is in a sequence. -/
def Free (tr : Trace α) (cs : List (Call α)) : Prop :=
  ∀ c ∈ cs, Event.mockCreated c.1 ∈ tr.events ∧ ∀ e d, tr.live e → tr.decl e = some d → d.mock = c.1 → d.seqs = []

/-- A special expectation wants an exact number of calls. -/
def SpecialExact (tr : Trace α) : Prop :=
  ∀ e' e d, e' < e → Overlap tr e e' → tr.decl e = some d → d.min = d.max

end Mimic.Assign
