import Verif.Spec.Custom

/-!
# Lemmas about custom matchers
-/

set_option autoImplicit false

namespace Mimic.Custom

variable {τ : Type}

theorem hookMatches_iff (c : Class τ) (const : Bool) (f : τ → Option Bool) : c.hookMatches const = some f ↔ c.answers const f := by
  unfold Class.hookMatches Class.answers
  cases c.traitsMatches const <;> simp

theorem hookDescribe_iff (c : Class τ) (d : String) : c.hookDescribe = some d ↔ c.described d := by
  unfold Class.hookDescribe Class.described
  cases c.traitsDescribe <;> simp

theorem allOf_every (f : τ → Option Bool) (xs : List τ) : Every f xs (allOf f xs) := by
  induction xs with
  | nil => exact .nil
  | cons x xs ih =>
    simp only [allOf, bind, Option.bind]
    cases h : f x with
    | none => exact .thrown h
    | some b =>
      cases b with
      | false => exact .refused h
      | true => exact .accepted h ih

theorem anyOf_any (f : τ → Option Bool) (xs : List τ) : Any f xs (anyOf f xs) := by
  induction xs with
  | nil => exact .nil
  | cons x xs ih =>
    simp only [anyOf, bind, Option.bind]
    cases h : f x with
    | none => exact .thrown h
    | some b =>
      cases b with
      | true => exact .accepted h
      | false => exact .refused h ih

end Mimic.Custom
