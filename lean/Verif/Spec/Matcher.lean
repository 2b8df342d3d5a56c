import Verif.Model.Matcher

/-!
# Specification vocabulary for matchers
-/

set_option autoImplicit false

namespace Mimic

/-- The result of a matcher whose predicate neither throws nor is undefined. -/
def PMatcher.accepts {T A : Type} (m : PMatcher Id T A) (t : T) : Bool := m.matches t

/-- How a string matcher relates target and pattern. -/
def StrKind.rel {C : Type} (k : StrKind) (target pattern : List C) : Prop :=
  match k with
  | .eq => target = pattern
  | .startsWith => ∃ rest, target = pattern ++ rest
  | .endsWith => ∃ rest, target = rest ++ pattern
  | .contains => ∃ before after, target = before ++ pattern ++ after

/-- How a string matcher, and its negation, say what they want of the target. -/
def StrKind.says : StrKind → String × String
  | .eq => ("is equal to ", "is not equal to ")
  | .startsWith => ("starts with ", "starts not with ")
  | .endsWith => ("ends with ", "ends not with ")
  | .contains => ("contains ", "contains not ")

/-- Likewise if they ignore the case. -/
def StrKind.saysFolded : StrKind → String × String
  | .eq => ("is case-insensitively equal to ", "is case-insensitively not equal to ")
  | .startsWith => ("case-insensitively starts with ", "case-insensitively starts not with ")
  | .endsWith => ("case-insensitively ends with ", "case-insensitively ends not with ")
  | .contains => ("case-insensitively contains ", "case-insensitively contains not ")

/-- ASCII upper case of a character code; everything else is left alone. -/
def upper (c : Int) : Int := if 97 ≤ c ∧ c ≤ 122 then c - 32 else c

/-- The values of the type `char`. -/
def isChar (signed : Bool) (c : Int) : Prop := if signed then -128 ≤ c ∧ c ≤ 127 else 0 ≤ c ∧ c ≤ 255

/-- Two ranges agree element by element. -/
def Elementwise {A B : Type} (comp : A → B → Bool) (as : List A) (bs : List B) : Prop :=
  as.length = bs.length ∧ ∀ (i : Nat) (a : A) (b : B), as[i]? = some a → bs[i]? = some b → comp a b = true

/-- A comparator that is an equivalence relation. -/
structure IsEquiv {A : Type} (comp : A → A → Bool) : Prop where
  refl : ∀ a, comp a a = true
  symm : ∀ a b, comp a b = true → comp b a = true
  trans : ∀ a b c, comp a b = true → comp b c = true → comp a c = true

/-- A strict weak order. -/
structure IsStrictWeak {A : Type} (rel : A → A → Bool) : Prop where
  irrefl : ∀ a, rel a a = false
  trans : ∀ a b c, rel a b = true → rel b c = true → rel a c = true
  incomp : ∀ a b c, rel a b = false → rel b c = false → rel a c = false

end Mimic
