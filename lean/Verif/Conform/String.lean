import Verif.Model.CaseFold

/-!
# The repository's own tests of strings, carried out by the model

Transcribes the test cases of `/repo/test/unit-tests/String.cpp` about values: 200-313 (views) and 378-622 (case folding). The traits
(14-198, 315-376) are decided by the compiler. The folding of single code points is a parameter of the model; here it is what the
standard says about the characters of the tests.
-/

set_option autoImplicit false

namespace Mimic.Conform.Strings

open Mimic.Fold

def codes (s : String) : List Nat := s.toList.map Char.toNat
def chars (s : String) : List Int := s.toList.map fun c => (c.toNat : Int)

/-- 200-313: pointers, arrays and string objects have the same view. -/
example : let hello := codes "Hello, World!"
    ((StrArg.cstr (hello ++ [0])).view 0).toOption = some hello ∧ ((StrArg.str hello).view 0).toOption = some hello := by decide +kernel

/-- 378-407: case folding of `char` strings. -/
example : ∀ signed ∈ [true, false], ∀ p ∈ [("", ""), (" !1337\t", " !1337\t"), ("hElLo, wOrLd!", "HeLlO, WoRlD!")],
    ((chars p.1).mapM (foldChar signed)).toOption = ((chars p.2).mapM (foldChar signed)).toOption ∧
    ((chars p.1).mapM (foldChar signed)).toOption.isSome := by decide +kernel

/-- CaseFolding.txt, for the characters of the tests. -/
def folding (c : Nat) : List Nat :=
  if 0x41 ≤ c ∧ c ≤ 0x5A then [c + 32]
  else if c = 0xDF then [0x73, 0x73]
  else if c = 0x1CA ∨ c = 0x1CB then [0x1CC]
  else [c]

def table : List (String × String) :=
  [("", ""), (" !1337\t", " !1337\t"), ("hElLo, wOrLd!", "HeLlO, WoRlD!"), ("ss", "ß"), ("SS", "ß"), ("ǋ", "Ǌ"),
    ("ǌ", "ǌ")]

/-- 476-622: case folding of the other strings, in each of the encodings. -/
example : ∀ p ∈ table,
    (casefold take8 utf8 folding ((codes p.1).flatMap utf8)).toOption = (casefold take8 utf8 folding ((codes p.2).flatMap utf8)).toOption ∧
    (casefold take16 utf16 folding ((codes p.1).flatMap utf16)).toOption = (casefold take16 utf16 folding ((codes p.2).flatMap utf16)).toOption ∧
    (casefold take32 utf32 folding ((codes p.1).flatMap utf32)).toOption = (casefold take32 utf32 folding ((codes p.2).flatMap utf32)).toOption := by
  decide +kernel

/-- It is not folded away. -/
example : (casefold take8 utf8 folding ((codes "ß").flatMap utf8)).toOption = some (codes "ss") := by decide +kernel

end Mimic.Conform.Strings
