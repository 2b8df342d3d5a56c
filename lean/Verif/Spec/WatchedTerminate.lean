import Verif.Spec.Watched

/-!
# Specification: exceptions in the middle of operations on watched objects
-/

set_option autoImplicit false

namespace Mimic

variable {α : Type}

/-- The watchers that one operation brings into being. -/
def createdBy (log : List (WEvent α)) : List Nat :=
  log.filterMap (fun x => match x with | .object o _ => some o | _ => none)

/-- The watchers that the operations bring into being, oldest first. -/
def WTrace.createdIn (tr : WTrace α) : List Nat := tr.flatMap (fun st => createdBy st.2)

/-- The operations `ops` on the single watchers are carried out one after the other until one of them ends with an exception, or all are
carried out, and then the client's own part fails. -/
def FailsIn (ops : List (WOp α)) (fails : Bool) (b : WTrace α) : Prop :=
  (∃ b0 st, b = b0 ++ [st] ∧ b.map (·.1) <+: ops ∧ (∀ x ∈ b0, completed x.2) ∧ ¬ completed st.2) ∨
  (fails = true ∧ b.map (·.1) = ops ∧ ∀ x ∈ b, completed x.2)

end Mimic
