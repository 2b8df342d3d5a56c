import Verif.Model.Matcher
import Verif.Model.Printer
import Verif.Conform.Sequence

/-!
# The repository's own tests of matchers, carried out by the model

Transcribes the test cases of `/repo/test/unit-tests/Matcher.cpp` 263-817, `matchers/RangeMatchers.cpp` and
`matchers/String{Eq,StartsWith,EndsWith,Contains}.cpp` (not those for the experimental unicode matchers).
-/

set_option autoImplicit false

namespace Mimic.Conform

/-- `mimicpp::print`, where it is defined. -/
def printed (v : Val) : String := String.ofList ((value (print v)).getD [])

def printInt (i : Int) : String := printed (.int i)
def printInts (is : List Int) : String := printed (.range (is.map .int))

/-- Both descriptions, that of the matcher and that of the inverted one. -/
def described {F : Type → Type} [Functor F] {T A : Type} (m : PMatcher F T A) : Option String × Option String :=
  (m.describe, m.invert.describe)

/-- The matcher accepts the first targets and not the second ones, and the inverted one conversely. -/
def tells {T A : Type} (m : PMatcher Id T A) (yes no : List T) : Bool :=
  yes.all (fun t => m.matches t && !m.invert.matches t) && no.all (fun t => !m.matches t && m.invert.matches t)

/-- 263-337: `PredicateMatcher`. -/
example : ∀ b ∈ [false, true], tells (matchPredicate (F := Id) (fun (i : Int) => (i == 42) == b) "Hello, World!" "not Hello, World!")
      (if b then [42] else [1337]) (if b then [1337] else [42]) ∧
    described (matchPredicate (F := Id) (fun (i : Int) => (i == 42) == b) "Hello, World!" "not Hello, World!") =
      (some "Hello, World!", some "not Hello, World!") ∧
    described (matchPredicate (F := Id) (fun (i : Int) => (i == 42) == b)) = (some "passes predicate", some "fails predicate") :=
  by decide +kernel

def intMax : Int := 2147483647

def ops : Comparisons Id Int Int := .of Int

set_option maxRecDepth 20000 in
/-- 362-648: the comparisons. -/
example : tells (matchEq ops printInt 42) [42] [1337] ∧ described (matchEq ops printInt 42) = (some "== 42", some "!= 42") ∧
    tells (matchNe ops printInt 42) [1337] [42] ∧ described (matchNe ops printInt 42) = (some "!= 42", some "== 42") ∧
    tells (matchLt ops printInt 42) [-2147483648, -1, 0, 1, 41] [42, 43, intMax] ∧
    described (matchLt ops printInt 42) = (some "< 42", some ">= 42") ∧
    tells (matchLe ops printInt 42) [-2147483648, -1, 0, 1, 42] [43, intMax] ∧
    described (matchLe ops printInt 42) = (some "<= 42", some "> 42") ∧
    tells (matchGt ops printInt 42) [43, intMax] [-2147483648, -1, 0, 1, 41, 42] ∧
    described (matchGt ops printInt 42) = (some "> 42", some "<= 42") ∧
    tells (matchGe ops printInt 42) [42, 43, intMax] [-2147483648, -1, 0, 1, 41] ∧
    described (matchGe ops printInt 42) = (some ">= 42", some "< 42") := by decide +kernel

/-- The comparisons of `std::optional<int>` with `std::nullopt`. -/
def nulloptOps : Comparisons Id (Option Int) Unit where
  eq o _ := o.isNone
  ne o _ := o.isSome
  lt _ _ := false
  le o _ := o.isNone
  gt o _ := o.isSome
  ge _ _ := true

/-- 650-720: comparisons with values of other types. -/
example : tells (matchEq nulloptOps (fun _ => "nullopt") ()) [none] [some 42] ∧
    tells (matchNe nulloptOps (fun _ => "nullopt") ()) [some 42] [none] ∧
    tells (matchLt nulloptOps (fun _ => "nullopt") ()) [] [none, some 42] ∧
    tells (matchLe nulloptOps (fun _ => "nullopt") ()) [none] [some 42] ∧
    tells (matchGt nulloptOps (fun _ => "nullopt") ()) [some 42] [none] ∧
    tells (matchGe nulloptOps (fun _ => "nullopt") ()) [none, some 42] [] := by decide +kernel

/-- 783-817: `instance`. -/
example : tells (matchInstance (fun a => printed (.pointer a)) 0xA0) [0xA0] [0xB0] ∧
    described (matchInstance (fun a => printed (.pointer a)) 0xA0) =
      (some "is instance at 0x00000000000000a0", some "is not instance at 0x00000000000000a0") := by decide +kernel

def same (a b : Int) : Bool := a == b

/-- RangeMatchers.cpp 17-120. -/
example : tells (rangeEq same printInts []) [[]] [[42]] ∧ (rangeEq same printInts []).describe = some "elements are {  }" ∧
    tells (rangeEq same printInts [1337, 42]) [[1337, 42]] [[42, 1337], [42]] ∧
    described (rangeEq same printInts [1337, 42]) = (some "elements are { 1337, 42 }", some "elements are not { 1337, 42 }") :=
  by decide +kernel

/-- 122-227. -/
example : tells (rangeUnorderedEq same printInts []) [[]] [[42]] ∧
    (rangeUnorderedEq same printInts []).describe = some "is a permutation of {  }" ∧
    tells (rangeUnorderedEq same printInts [1337, 42]) [[1337, 42], [42, 1337]] [[42]] ∧
    described (rangeUnorderedEq same printInts [1337, 42]) =
      (some "is a permutation of { 1337, 42 }", some "is not a permutation of { 1337, 42 }") := by decide +kernel

/-- 229-308; the last line is about a relation that is asked about `(42, 1337)` only. -/
example : tells (rangeIsSorted (fun a b : Int => a < b)) [[], [42, 1337]] [[1337, 42]] ∧
    described (rangeIsSorted (fun a b : Int => a < b)) = (some "is a sorted range", some "is an unsorted range") ∧
    tells (rangeIsSorted (fun a b : Int => !(a == 42 && b == 1337))) [[1337, 42]] [] := by decide +kernel

/-- 310-362. -/
example : tells (rangeIsEmpty (E := Int)) [[]] [[42]] ∧
    described (rangeIsEmpty (E := Int)) = (some "is an empty range", some "is not an empty range") := by decide +kernel

/-- 364-415. -/
example : tells (rangeHasSize (E := Int) printInt 2) [[42, 1337]] [[42]] ∧ tells (rangeHasSize (E := Int) printInt 1) [] [[], [42, 1337]] ∧
    described (rangeHasSize (E := Int) printInt 2) = (some "has size of 2", some "has different size than 2") := by decide +kernel

/-- 417-482. -/
example : tells (rangeEachElement (F := Id) (matchGe ops printInt 42)) [[], [42, 1337]] [] ∧
    (∀ t ∈ [42, 1337], tells (rangeEachElement (F := Id) (matchGt ops printInt t)) [] [[42, 1337]]) ∧
    described (rangeEachElement (F := Id) (matchGe ops printInt 42)) =
      (some "each el in range: el >= 42", some "not each el in range: el >= 42") := by decide +kernel

/-- 484-548. -/
example : (∀ t ∈ [42, 1337], tells (rangeAnyElement (F := Id) (matchGe ops printInt t)) [[42, 1337]] []) ∧
    tells (rangeAnyElement (F := Id) (matchGt ops printInt 1337)) [] [[], [42, 1337]] ∧
    described (rangeAnyElement (F := Id) (matchGt ops printInt 1337)) =
      (some "any el in range: el > 1337", some "none el in range: el > 1337") := by decide +kernel

/-! ## Strings -/

/-- A text as the values of its characters. -/
def codes (s : String) : List Int := s.toList.map (fun c => (c.toNat : Int))

/-- The four ways to pass a pattern: a pointer, an array, a string, a view. -/
def forms (s : String) : List (StrArg Int) := [.cstr (codes s ++ [0]), .str (codes s)]

/-- What is printed for the text. -/
def viewed : StrArg Int → List Nat
  | .str s => s.map (·.toNat)
  | .cstr b => (b.takeWhile (· ≠ 0)).map (·.toNat)

def printStr (a : StrArg Int) : String := printed (.string ((viewed a).map Char.ofNat))
def printWide (literal : String) (a : StrArg Int) : String := printed (.wide (lit literal) (viewed a))

def tellsStr (m : PMatcher M (StrArg Int) (StrArg Int)) (yes no : List String) : Bool :=
  yes.all (fun t => (forms t).all (fun a => value (m.matches a) == some true && value (m.invert.matches a) == some false)) &&
    no.all (fun t => (forms t).all (fun a => value (m.matches a) == some false && value (m.invert.matches a) == some true))

/-- The matchers for the pattern in all forms have the descriptions, accept the first targets and not the second ones. -/
def strTest (m : StrArg Int → PMatcher M (StrArg Int) (StrArg Int)) (pattern : String) (ds : String × String) (yes no : List String) :
    Bool :=
  (forms pattern).all (fun p => tellsStr (m p) yes no && described (m p) == (some ds.1, some ds.2))

/-- StringEq.cpp 18-288. -/
example : strTest (strMatcher 0 .eq printStr) "" ("is equal to \"\"", "is not equal to \"\"") [""] [" "] ∧
    strTest (strMatcher 0 .eq (printWide "L")) "" ("is equal to L\"\"", "is not equal to L\"\"") [""] [" "] ∧
    strTest (strMatcher 0 .eq (printWide "u8")) "" ("is equal to u8\"\"", "is not equal to u8\"\"") [""] [" "] ∧
    strTest (strMatcher 0 .eq printStr) "Hello, World!" ("is equal to \"Hello, World!\"", "is not equal to \"Hello, World!\"")
      ["Hello, World!"] ["Hello, WOrld!"] := by decide +kernel

example : strTest (strMatcher 0 .eq (printWide "L")) "Hello"
      ("is equal to L\"0x48, 0x65, 0x6c, 0x6c, 0x6f\"", "is not equal to L\"0x48, 0x65, 0x6c, 0x6c, 0x6f\"") ["Hello"] ["HellO"] :=
  by decide +kernel

/-- 290-316, 434-510. -/
example : strTest (strMatcherCI true .eq printStr) ""
      ("is case-insensitively equal to \"\"", "is case-insensitively not equal to \"\"") [""] [" "] ∧
    strTest (strMatcherCI true .eq printStr) "Hello, World!"
      ("is case-insensitively equal to \"Hello, World!\"", "is case-insensitively not equal to \"Hello, World!\"")
      ["Hello, World!", "hello, World!", "Hello, world!", "HelLo, world!"] [" hello, world!", "hello, world! ", "hello,world!"] :=
  by decide +kernel

/-- StringStartsWith.cpp. -/
example : strTest (strMatcher 0 .startsWith printStr) "" ("starts with \"\"", "starts not with \"\"") ["", " "] [] ∧
    strTest (strMatcher 0 .startsWith printStr) "Hello, " ("starts with \"Hello, \"", "starts not with \"Hello, \"")
      ["Hello, ", "Hello, World!"] [" Hello, ", "Hello,", "hello, ", "ello, "] ∧
    strTest (strMatcherCI true .startsWith printStr) ""
      ("case-insensitively starts with \"\"", "case-insensitively starts not with \"\"") ["", " "] [] ∧
    strTest (strMatcherCI true .startsWith printStr) "Hello, "
      ("case-insensitively starts with \"Hello, \"", "case-insensitively starts not with \"Hello, \"")
      ["Hello, ", "hello, ", "hElLO, ", "hElLO, World!"] [" Hello, ", "Hello,", "ello, "] := by decide +kernel

/-- StringEndsWith.cpp. -/
example : strTest (strMatcher 0 .endsWith printStr) "" ("ends with \"\"", "ends not with \"\"") ["", " "] [] ∧
    strTest (strMatcher 0 .endsWith printStr) ", World!" ("ends with \", World!\"", "ends not with \", World!\"")
      [", World!", "Hello, World!"] [", World! ", " World!", ", worlD!", ", World"] ∧
    strTest (strMatcherCI true .endsWith printStr) ""
      ("case-insensitively ends with \"\"", "case-insensitively ends not with \"\"") ["", " "] [] ∧
    strTest (strMatcherCI true .endsWith printStr) ", World!"
      ("case-insensitively ends with \", World!\"", "case-insensitively ends not with \", World!\"")
      [", World!", ", WorlD!", "Hello, World!Hello, WoRlD!"] [", World! ", " World!", ", World"] := by decide +kernel

/-- StringContains.cpp. -/
example : strTest (strMatcher 0 .contains printStr) "" ("contains \"\"", "contains not \"\"") ["", " "] [] ∧
    strTest (strMatcher 0 .contains printStr) "lo, Wo" ("contains \"lo, Wo\"", "contains not \"lo, Wo\"")
      ["lo, Wo", "Hello, World!"] ["Hello, W", "o, World!", "lo, wo"] ∧
    strTest (strMatcherCI true .contains printStr) ""
      ("case-insensitively contains \"\"", "case-insensitively contains not \"\"") ["", " "] [] ∧
    strTest (strMatcherCI true .contains printStr) "lo, Wo"
      ("case-insensitively contains \"lo, Wo\"", "case-insensitively contains not \"lo, Wo\"")
      ["lo, Wo", "Lo, Wo", "lo, wo", "HelLO, wOrld!"] ["Hello, W", "o, World!"] := by decide +kernel

end Mimic.Conform
