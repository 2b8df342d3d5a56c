import Verif.Model.Custom

/-!
# Specification: what a custom matcher means
-/

set_option autoImplicit false

namespace Mimic.Custom

variable {τ : Type}

/-- `c` answers with `f`: that is what its traits do, or, if they have nothing for such targets, what its member does. -/
def Class.answers (c : Class τ) (const : Bool) (f : τ → Option Bool) : Prop :=
  c.traitsMatches const = some f ∨ c.traitsMatches const = none ∧ c.memberMatches const = some f

/-- `c` is described by `d`, likewise. -/
def Class.described (c : Class τ) (d : String) : Prop :=
  c.traitsDescribe = some d ∨ c.traitsDescribe = none ∧ c.memberDescribe = some d

/-- Asking `f` about all elements in turn, until it refuses one or throws. -/
inductive Every (f : τ → Option Bool) : List τ → Option Bool → Prop where
  | nil : Every f [] (some true)
  | thrown {x : τ} {xs : List τ} : f x = none → Every f (x :: xs) none
  | refused {x : τ} {xs : List τ} : f x = some false → Every f (x :: xs) (some false)
  | accepted {x : τ} {xs : List τ} {r : Option Bool} : f x = some true → Every f xs r → Every f (x :: xs) r

/-- Asking `f` about all elements in turn, until it accepts one or throws. -/
inductive Any (f : τ → Option Bool) : List τ → Option Bool → Prop where
  | nil : Any f [] (some false)
  | thrown {x : τ} {xs : List τ} : f x = none → Any f (x :: xs) none
  | accepted {x : τ} {xs : List τ} : f x = some true → Any f (x :: xs) (some true)
  | refused {x : τ} {xs : List τ} {r : Option Bool} : f x = some false → Any f xs r → Any f (x :: xs) r

/-- The traits of `c`, if there are any for const targets, do what its member does. -/
def Class.consistent (c : Class τ) : Prop := ∀ f, c.traitsMatches true = some f → c.memberMatches true = some f

end Mimic.Custom
