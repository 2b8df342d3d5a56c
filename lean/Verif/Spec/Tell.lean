import Verif.Spec.Trace
import Verif.Spec.Alike

/-!
# Specification: declarations that mean the same
-/

set_option autoImplicit false

namespace Mimic.Tell

variable {α : Type}

/-- The declaration of an expectation as an operation. -/
def op (d : Decl α) : Op α := .expect d.mock d.min d.max d.seqs d.policies

/-- What somebody learns who only looks at reports and exceptions. -/
def reported : Event → Bool
  | .rejected | .unfulfilled _ | .sequenceError .. | .unhandled _ | .fullMatch _ | .inapplicable _ | .noMatch _ => true
  | _ => false

/-- Whatever comes before and after the declaration: with `d'` instead of `d` the test runs, too, and the same is reported, apart from
the order. -/
def Replaceable (d d' : Decl α) : Prop :=
  ∀ (before after : List (Op α)) (w : World α) (evs : List Event), runProgram (before ++ op d :: after) = .ok (w, evs) →
    ∃ w' evs', runProgram (before ++ op d' :: after) = .ok (w', evs') ∧ (evs.filter reported).Perm (evs'.filter reported)

/-- No test can tell the declarations from each other. -/
def Interchangeable (d d' : Decl α) : Prop := Replaceable d d' ∧ Replaceable d' d

/-- The declaration is accepted by the library, and its requirements are satisfied at the end, as all those of the library are. -/
structure Proper (d : Decl α) : Prop where
  low : 0 ≤ d.min
  order : d.min ≤ d.max
  high : d.max ≤ 2147483647
  distinct : d.seqs.Nodup
  content : ∀ p ∈ d.policies, p.isSatisfied = true

end Mimic.Tell
