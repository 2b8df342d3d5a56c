import Verif.Spec.Trace

/-!
# Specification: the order in which the sequences of an expectation are named
-/

set_option autoImplicit false

namespace Mimic.Reorder

variable {α : Type}

/-- `op` and `op'` are the same operation, except that a created expectation may name its sequences in another order. -/
inductive SameOp : Op α → Op α → Prop where
  | same (op : Op α) : SameOp op op
  | expect (m : Nat) (min max : Int) {tags tags' : List Nat} (policies : List (Policy α)) : tags.Perm tags' →
    SameOp (.expect m min max tags policies) (.expect m min max tags' policies)

/-- `x` tells about the end of sequence `s`. -/
def EndOf (s : Nat) (x : Event) : Prop := x = .sequenceDestroyed s ∨ ∃ k n, x = .sequenceError s k n

/-- The same is observed while `op` is carried out, except for the order in which the sequences end that are kept only by an expectation
that goes out of scope. -/
inductive SameEvents : Op α → List Event → List Event → Prop where
  | same (op : Op α) (ev : List Event) : SameEvents op ev ev
  | destroy (e : Nat) (head : List Event) {ss ss' : List Nat} (ends : Nat → List Event) : ss.Perm ss' →
    (∀ s, ∀ x ∈ ends s, EndOf s x) → SameEvents (.destroy e) (head ++ ss.flatMap ends) (head ++ ss'.flatMap ends)

/-- Two histories that are the same in this sense. -/
inductive SameTrace : Trace α → Trace α → Prop where
  | init : SameTrace [] []
  | step {tr tr' : Trace α} {op op' : Op α} {ev ev' : List Event} : SameTrace tr tr' → SameOp op op' → SameEvents op ev ev' →
    SameTrace (tr ++ [(op, ev)]) (tr' ++ [(op', ev')])

/-- Two programs that are the same in this sense. -/
inductive SameProgram : List (Op α) → List (Op α) → Prop where
  | nil : SameProgram [] []
  | cons {op op' : Op α} {ops ops' : List (Op α)} : SameOp op op' → SameProgram ops ops' → SameProgram (op :: ops) (op' :: ops')

end Mimic.Reorder
