import Verif.Model.Expectation

/-!
# Matchers

Models `/repo/include/mimic++/Matcher.hpp` and the case folding of `/repo/include/mimic++/String.hpp` (390-425, without
the experimental unicode variant 427-480).

A predicate is evaluated in a functor `F`: `Option` where it may throw, `M` where it may be undefined, `Id` where neither
is of interest.
-/

set_option autoImplicit false

namespace Mimic

/-! ## Formatting -/

/-- `std::vformat` (Printer.hpp 40-90: `format` is `std` or `fmt`) for the format strings that occur: literal text,
`{{`, `}}`, and `{}`; `none`: `std::format_error`. Simplification: a replacement field with content (`{0}`, `{:>5}`) is
an error; the library's own format strings have none, and in the description of `matches::predicate`, which has no
arguments, every replacement field is an error. -/
def vformatChars : List Char → List String → Option (List Char)
  | [], _ => some []
  | '{' :: '{' :: r, as => (vformatChars r as).map ('{' :: ·)
  | '{' :: '}' :: r, a :: as => (vformatChars r as).map (a.toList ++ ·)
  | '{' :: _, _ => none
  | '}' :: '}' :: r, as => (vformatChars r as).map ('}' :: ·)
  | '}' :: _, _ => none
  | c :: r, as => (vformatChars r as).map (c :: ·)

def vformat (fmt : String) (args : List String) : Option String := (vformatChars fmt.toList args).map String.ofList

/-! ## The generic matcher -/

/-- Matcher.hpp 155-279: `PredicateMatcher`; the additional arguments are one value of type `A`, and `print` is their
textual representation (`arg_storage::as_describe_arg`, 126-149; `none`: printing throws). -/
structure PMatcher (F : Type → Type) (T A : Type) where
  pred : T → A → F Bool
  fmt : String
  invFmt : String
  arg : A
  print : A → Option (List String)

variable {F : Type → Type} {T A : Type}

/-- 191-210. -/
def PMatcher.matches (m : PMatcher F T A) (t : T) : F Bool := m.pred t m.arg

/-- 212-228; `none`: `std::format_error`. -/
def PMatcher.describe (m : PMatcher F T A) : Option String := (m.print m.arg).bind (vformat m.fmt)

/-- 230-278: `operator !`, `make_inverted`: `std::not_fn`, and the two descriptions swapped. -/
def PMatcher.invert [Functor F] (m : PMatcher F T A) : PMatcher F T A where
  pred t a := not <$> m.pred t a
  fmt := m.invFmt
  invFmt := m.fmt
  arg := m.arg
  print := m.print

/-- The comparison operators of a target type with a value type; user-defined ones may be inconsistent and may throw. -/
structure Comparisons (F : Type → Type) (T A : Type) where
  eq : T → A → F Bool
  ne : T → A → F Bool
  lt : T → A → F Bool
  le : T → A → F Bool
  gt : T → A → F Bool
  ge : T → A → F Bool

/-- The operators of a type with (Lean) order relations. -/
def Comparisons.of (T : Type) [DecidableEq T] [LT T] [LE T] [∀ a b : T, Decidable (a < b)] [∀ a b : T, Decidable (a ≤ b)] :
    Comparisons Id T T where
  eq a b := decide (a = b)
  ne a b := decide (a ≠ b)
  lt a b := decide (a < b)
  le a b := decide (a ≤ b)
  gt a b := decide (b < a)
  ge a b := decide (b ≤ a)

section
variable (ops : Comparisons F T A) (p : A → String) (v : A)

/-- Matcher.hpp 350-358. -/
def matchEq : PMatcher F T A := ⟨ops.eq, "== {}", "!= {}", v, fun a => some [p a]⟩
/-- 367-375. -/
def matchNe : PMatcher F T A := ⟨ops.ne, "!= {}", "== {}", v, fun a => some [p a]⟩
/-- 384-392. -/
def matchLt : PMatcher F T A := ⟨ops.lt, "< {}", ">= {}", v, fun a => some [p a]⟩
/-- 401-409. -/
def matchLe : PMatcher F T A := ⟨ops.le, "<= {}", "> {}", v, fun a => some [p a]⟩
/-- 418-426. -/
def matchGt : PMatcher F T A := ⟨ops.gt, "> {}", "<= {}", v, fun a => some [p a]⟩
/-- 435-443. -/
def matchGe : PMatcher F T A := ⟨ops.ge, ">= {}", "< {}", v, fun a => some [p a]⟩
end

/-- 455-466: `matches::predicate`. -/
def matchPredicate (pr : T → F Bool) (description : String := "passes predicate")
    (invertedDescription : String := "fails predicate") : PMatcher F T Unit :=
  ⟨fun t _ => pr t, description, invertedDescription, (), fun _ => some []⟩

/-- 476-488: `matches::instance`; targets and pointers are addresses. -/
def matchInstance (p : Nat → String) (addr : Nat) : PMatcher Id Nat Nat :=
  ⟨fun t a => (t == a : Bool), "is instance at {}", "is not instance at {}", addr, fun a => some [p a]⟩

/-- ExpectationPolicies.hpp 364-377: `arg_requirement_describer<index>`. -/
def argDescriber (index : Nat) (d : String) : String := "expect: arg[" ++ toString index ++ "] " ++ d

/-! ## Algorithms of the standard library -/

section
variable {B : Type} {G : Type → Type} [Monad G]

/-- `std::ranges::equal` on sized ranges. -/
def rangesEqualFrom (eq : A → B → G Bool) : List A → List B → G Bool
  | a :: as, b :: bs => do if ← eq a b then rangesEqualFrom eq as bs else pure false
  | _, _ => pure true

def rangesEqual (eq : A → B → G Bool) (as : List A) (bs : List B) : G Bool :=
  if as.length ≠ bs.length then pure false else rangesEqualFrom eq as bs

/-- `std::ranges::mismatch`: the remaining ranges. -/
def rangesMismatch (eq : A → B → G Bool) : List A → List B → G (List A × List B)
  | a :: as, b :: bs => do if ← eq a b then rangesMismatch eq as bs else pure (a :: as, b :: bs)
  | as, bs => pure (as, bs)

/-- `std::ranges::search`: the first subrange that equals `bs`, or an empty one. -/
def rangesSearch (eq : A → B → G Bool) : List A → List B → G (List A)
  | [], _ => pure []
  | a :: as, bs =>
    if (a :: as).length < bs.length then pure []
    else do
      let r ← rangesMismatch eq (a :: as) bs
      if r.2.isEmpty then pure ((a :: as).take bs.length) else rangesSearch eq as bs

/-- `std::ranges::all_of`. -/
def allOf (f : A → G Bool) : List A → G Bool
  | [] => pure true
  | a :: as => do if ← f a then allOf f as else pure false

/-- `std::ranges::any_of`. -/
def anyOf (f : A → G Bool) : List A → G Bool
  | [] => pure false
  | a :: as => do if ← f a then pure true else anyOf f as

end

/-- `std::ranges::is_permutation` after the common prefix: every element that was not seen before (`seen`) must occur as
often in the rest of the first range as in the second one. -/
def permLoop (comp : A → A → Bool) (bs : List A) : List A → List A → Bool
  | _, [] => true
  | seen, a :: as =>
    if seen.any (comp a) then permLoop comp bs (seen ++ [a]) as
    else
      let n := bs.countP (comp a)
      if n = 0 || (a :: as).countP (comp a) ≠ n then false
      else permLoop comp bs (seen ++ [a]) as

/-- `std::ranges::is_permutation` on sized ranges. -/
def isPermutation (comp : A → A → Bool) : List A → List A → Bool
  | a :: as, b :: bs =>
    if comp a b then isPermutation comp as bs
    else if (a :: as).length ≠ (b :: bs).length then false
    else permLoop comp (b :: bs) [] (a :: as)
  | as, bs => as.isEmpty && bs.isEmpty

/-- `std::ranges::is_sorted`. -/
def isSorted (rel : A → A → Bool) : List A → Bool
  | a :: b :: r => !rel b a && isSorted rel (b :: r)
  | _ => true

/-! ## String matchers -/

/-- What can be used as a string: a `std::basic_string` or `std::basic_string_view`, or a pointer to (an array of)
characters; `buf` is the memory from there to the end of the object. -/
inductive StrArg (C : Type) where
  | str (s : List C)
  | cstr (buf : List C)

/-- String.hpp 264-325, Matcher.hpp 507-513: `make_view`. A C string ends at the first zero character. -/
def StrArg.view {C : Type} [DecidableEq C] (nul : C) : StrArg C → M (List C)
  | .str s => .ok s
  | .cstr buf => if nul ∈ buf then .ok (buf.takeWhile (· ≠ nul)) else .error (.ub "unterminated string")

section
variable {C : Type} (eq : C → C → M Bool)

/-- Matcher.hpp 594-638: `str::eq`, on views. -/
def strEq (target pattern : List C) : M Bool := rangesEqual eq target pattern

/-- 642-691: `str::starts_with`. -/
def strStartsWith (target pattern : List C) : M Bool := do
  let r ← rangesMismatch eq target pattern
  return r.2.isEmpty

/-- 696-747: `str::ends_with`. -/
def strEndsWith (target pattern : List C) : M Bool := do
  let r ← rangesMismatch eq target.reverse pattern.reverse
  return r.2.isEmpty

/-- 752-800: `str::contains`. -/
def strContains (target pattern : List C) : M Bool :=
  if pattern.isEmpty then return true
  else do
    let r ← rangesSearch eq target pattern
    return !r.isEmpty

end

/-- The four kinds of string matchers. -/
inductive StrKind where
  | eq
  | startsWith
  | endsWith
  | contains
deriving DecidableEq, Repr

def strMatch {C : Type} (k : StrKind) (eq : C → C → M Bool) : List C → List C → M Bool :=
  match k with
  | .eq => strEq eq
  | .startsWith => strStartsWith eq
  | .endsWith => strEndsWith eq
  | .contains => strContains eq

/-- `==` of characters. -/
def charEq {C : Type} [DecidableEq C] (a b : C) : M Bool := .ok (decide (a = b))

/-- `std::toupper` in the "C" locale: only defined for `EOF` (-1) and the values of `unsigned char`. -/
def toupper (c : Int) : M Int :=
  if c = -1 ∨ (0 ≤ c ∧ c ≤ 255) then .ok (if 97 ≤ c ∧ c ≤ 122 then c - 32 else c)
  else .error (.ub "toupper")

/-- Conversion of an `unsigned char` to `char`. -/
def toChar (signed : Bool) (b : Int) : Int := if signed ∧ 128 ≤ b then b - 256 else b

/-- String.hpp 412-421: the character is passed as `int`, with its sign. -/
def foldChar (signed : Bool) (c : Int) : M Int := do
  let u ← toupper c
  return toChar signed (u % 256)

/-- Comparison of two lazily folded characters. -/
def foldedEq (signed : Bool) (a b : Int) : M Bool := do
  let a' ← foldChar signed a
  let b' ← foldChar signed b
  return decide (a' = b')

/-- 592-613, 640-664, 694-719, 750-774: the case-sensitive matchers. `print` is the printed pattern. -/
def strMatcher {C : Type} [DecidableEq C] (nul : C) (k : StrKind) (print : StrArg C → String) (pattern : StrArg C) :
    PMatcher M (StrArg C) (StrArg C) where
  pred t p := do strMatch k charEq (← t.view nul) (← p.view nul)
  fmt := match k with
    | .eq => "is equal to {}" | .startsWith => "starts with {}" | .endsWith => "ends with {}" | .contains => "contains {}"
  invFmt := match k with
    | .eq => "is not equal to {}" | .startsWith => "starts not with {}" | .endsWith => "ends not with {}"
    | .contains => "contains not {}"
  arg := pattern
  print a := some [print a]

/-- 616-638, 667-691, 722-747, 777-800: the case-insensitive ones, for `char`. -/
def strMatcherCI (signed : Bool) (k : StrKind) (print : StrArg Int → String) (pattern : StrArg Int) :
    PMatcher M (StrArg Int) (StrArg Int) where
  pred t p := do strMatch k (foldedEq signed) (← t.view 0) (← p.view 0)
  fmt := match k with
    | .eq => "is case-insensitively equal to {}" | .startsWith => "case-insensitively starts with {}"
    | .endsWith => "case-insensitively ends with {}" | .contains => "case-insensitively contains {}"
  invFmt := match k with
    | .eq => "is case-insensitively not equal to {}" | .startsWith => "case-insensitively starts not with {}"
    | .endsWith => "case-insensitively ends not with {}" | .contains => "case-insensitively contains not {}"
  arg := pattern
  print a := some [print a]

/-! ## Range matchers -/

section
variable {B E X : Type}

/-- Matcher.hpp 822-846: `range::eq`. -/
def rangeEq (comp : E → B → Bool) (print : List B → String) (expected : List B) : PMatcher Id (List E) (List B) :=
  ⟨fun t r => rangesEqual (G := Id) comp t r, "elements are {}", "elements are not {}", expected, fun a => some [print a]⟩

/-- 852-875: `range::unordered_eq`. -/
def rangeUnorderedEq (comp : E → E → Bool) (print : List E → String) (expected : List E) : PMatcher Id (List E) (List E) :=
  ⟨fun t r => isPermutation comp t r, "is a permutation of {}", "is not a permutation of {}", expected, fun a => some [print a]⟩

/-- 880-896: `range::is_sorted`. -/
def rangeIsSorted (rel : E → E → Bool) : PMatcher Id (List E) Unit :=
  ⟨fun t _ => isSorted rel t, "is a sorted range", "is an unsorted range", (), fun _ => some []⟩

/-- 902-912: `range::is_empty`. -/
def rangeIsEmpty : PMatcher Id (List E) Unit :=
  ⟨fun t _ => t.isEmpty, "is an empty range", "is not an empty range", (), fun _ => some []⟩

/-- 919-932: `range::has_size`; `std::cmp_equal` compares the mathematical values. -/
def rangeHasSize (print : Int → String) (expected : Int) : PMatcher Id (List E) Int :=
  ⟨fun t n => decide (n = (t.length : Int)), "has size of {}", "has different size than {}", expected, fun a => some [print a]⟩

/-- 940-962: `range::each_element`; the description contains that of the element matcher. -/
def rangeEachElement [Monad F] (m : PMatcher F E X) : PMatcher F (List E) (PMatcher F E X) :=
  ⟨fun t m => allOf m.matches t, "each el in range: el {}", "not each el in range: el {}", m, fun m => m.describe.map ([·])⟩

/-- 969-991: `range::any_element`. -/
def rangeAnyElement [Monad F] (m : PMatcher F E X) : PMatcher F (List E) (PMatcher F E X) :=
  ⟨fun t m => anyOf m.matches t, "any el in range: el {}", "none el in range: el {}", m, fun m => m.describe.map ([·])⟩

end

end Mimic
