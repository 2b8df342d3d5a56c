import Verif.Spec.Loosen
import Verif.Spec.Language

/-!
# Specification: more lenient tests
-/

set_option autoImplicit false

namespace Mimic.Lenient

variable {α : Type}

/-- The second operation asks for less: an expectation may need fewer calls and take more, may be attached to fewer sequences, and its policies
accept what was accepted before and are satisfied where they were before. -/
inductive Less : Op α → Op α → Prop where
  | expect {m : Nat} {min max min' max' : Int} {tags tags' : List Nat} {ps ps' : List (Policy α)} (hmin : 0 ≤ min' ∧ min' ≤ min)
      (hmax : max ≤ max' ∧ isInt max') (htags : tags'.Sublist tags)
      (haccepts : ∀ a, (∀ p ∈ ps, p.accepts a = some true) → ∀ p ∈ ps', p.accepts a = some true)
      (hsatisfied : (∀ p ∈ ps, p.isSatisfied = true) → ∀ p ∈ ps', p.isSatisfied = true) :
      Less (.expect m min max tags ps) (.expect m min' max' tags' ps')
  | other {o : Op α} (h : ∀ m min max tags ps, o ≠ .expect m min max tags ps) : Less o o

/-- The second program is the first one with expectations that ask for less. -/
def Program (ops ops' : List (Op α)) : Prop :=
  ops'.length = ops.length ∧ ∀ (i : Nat) o o', ops[i]? = some o → ops'[i]? = some o' → Less o o'

/-- Which expectations resolved calls, one after the other. -/
def taken (evs : List Event) : List Event := evs.filter fun | .fullMatch _ => true | _ => false

end Mimic.Lenient
