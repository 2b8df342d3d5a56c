import Verif.Model.Builder

/-!
# Specification of builder expressions: the ingredients, in the order they were written
-/

set_option autoImplicit false

namespace Mimic

variable {α φ : Type}

/-- The policies mentioned, in order. -/
def policiesOf (is : List (Item α φ)) : List (Policy α) :=
  is.filterMap (fun i => match i with | .policy p => some p | _ => none)

/-- The finalizers mentioned, in order. -/
def finalizersOf (is : List (Item α φ)) : List φ :=
  is.filterMap (fun i => match i with | .finalizer f => some f | _ => none)

/-- The limits mentioned, in order. -/
def timesOf (is : List (Item α φ)) : List (Int × Int) :=
  is.filterMap (fun i => match i with | .times a b => some (a, b) | _ => none)

/-- All sequences mentioned, in order, over all `in_sequence(s)` items. -/
def sequencesOf (is : List (Item α φ)) : List Nat :=
  is.flatMap (fun i => match i with | .sequences ss => ss | _ => [])

/-- From state `bw` the client performs the operations `l` and arrives at `bw'`. -/
inductive BSteps (bw : BWorld α φ) : BTrace α φ → BWorld α φ → Prop where
  | nil : BSteps bw [] bw
  | snoc {l : BTrace α φ} {bw' bw'' : BWorld α φ} {op : BOp α φ} {ev : List Event} :
    BSteps bw l bw' → bw'.step op = .ok (bw'', ev) → BSteps bw (l ++ [(op, ev)]) bw''

end Mimic
