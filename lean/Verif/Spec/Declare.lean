import Verif.Spec.Tell

/-!
# Specification: the order of declarations
-/

set_option autoImplicit false

namespace Mimic.Declare

variable {α : Type}

/-- The declarations have nothing to do with each other: they name no common sequence, and no call fits both. -/
structure Unrelated (d d' : Decl α) : Prop where
  seqs : ∀ s ∈ d.seqs, s ∉ d'.seqs
  calls : d.mock = d'.mock → ∀ a, ¬ (Policy.says d.policies a = some true ∧ Policy.says d'.policies a = some true)

/-- The library accepts the declaration. -/
structure Legal (d : Decl α) : Prop where
  low : 0 ≤ d.min
  order : d.min ≤ d.max
  distinct : d.seqs.Nodup

/-- The numbers of the two expectations are exchanged. -/
def swap (j k : Nat) : Nat := if k = j then j + 1 else if k = j + 1 then j else k

/-- The rest of the test refers to the same expectations. -/
def renameOp (j : Nat) : Op α → Op α
  | .destroy e => .destroy (swap j e)
  | o => o

/-- The same report about the same expectations. -/
def rename (j : Nat) : Event → Event
  | .created e => .created (swap j e)
  | .destroyed e => .destroyed (swap j e)
  | .unfulfilled e => .unfulfilled (swap j e)
  | .unhandled e => .unhandled (swap j e)
  | .fullMatch e => .fullMatch (swap j e)
  | .inapplicable es => .inapplicable (es.map (swap j))
  | .noMatch es => .noMatch (es.map (swap j))
  | ev => ev

/-- The same report; expectations that do not match are possibly listed in another order. -/
inductive Like (j : Nat) : Event → Event → Prop where
  | same (x : Event) : Like j x (rename j x)
  | noMatch {es es' : List Nat} : es'.Perm (es.map (swap j)) → Like j (.noMatch es) (.noMatch es')

/-- The same is reported; when several expectations throw during one call, possibly in another order. -/
inductive Same (j : Nat) : List Event → List Event → Prop where
  | nil : Same j [] []
  | cons {us us' evs evs' : List Event} {x y : Event} : (∀ u ∈ us, ∃ e, u = .unhandled e) → us'.Perm (us.map (rename j)) →
    Like j x y → Same j evs evs' → Same j (us ++ x :: evs) (us' ++ y :: evs')

/-- The operation refers to other numbers of expectations. -/
def renumber (σ : Nat → Nat) : Op α → Op α
  | .destroy e => .destroy (σ e)
  | o => o

/-- The declarations `ds`, which follow `n` others, became `ds'`: `σ` tells the new number of each expectation. -/
structure Moved (n : Nat) (ds ds' : List (Decl α)) (σ : Nat → Nat) : Prop where
  inj : ∀ a b, σ a = σ b → a = b
  fixed : ∀ k, k < n ∨ n + ds.length ≤ k → σ k = k
  moved : ∀ i, i < ds.length → ∃ i', i' < ds'.length ∧ σ (n + i) = n + i' ∧ ds'[i']? = ds[i]?

end Mimic.Declare
