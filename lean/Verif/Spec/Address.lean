import Verif.Model.Address
import Verif.Spec.Trace
import Verif.Model.Reach

/-!
# Specification: what the allocator promises
-/

set_option autoImplicit false

namespace Mimic.Address

variable {α : Type}

/-- The sequence has been created and is not yet destroyed. -/
def Exists (tr : Trace α) (s : Nat) : Prop := (∃ st, Event.sequenceCreated s st ∈ tr.events) ∧ Event.sequenceDestroyed s ∉ tr.events

/-- Objects that exist at the same time have different addresses. -/
structure Apart (pl : Place) (tr : Trace α) : Prop where
  seqs : ∀ s t, Exists tr s → Exists tr t → pl.seq s = pl.seq t → s = t
  exps : ∀ e f, tr.live e → tr.live f → pl.exp e = pl.exp f → e = f

/-- While the program runs, the allocator keeps its promise. -/
def Honest (pl : Place) (ops : List (Op α)) : Prop :=
  ∀ (tr : Trace α) (w : World α), Reach tr w → tr.map (·.1) <+: ops → Apart pl tr

end Mimic.Address
