import Verif.Model.Compare

/-!
# The repository's own tests of comparisons, carried out by the model

Transcribes `/repo/test/unit-tests/Call.cpp` 19-53 and the test cases of `/repo/test/unit-tests/Reports.cpp` that compare (14-260, 461-877)
or print reports without source location (1276-1290). `std::source_location::current()` is another line each time.
-/

set_option autoImplicit false

namespace Mimic.Conform.Compare

open Mimic.Compare

def names : Nat → Text := fun a => if a = 0 then lit "main.cpp" else lit "main"

def line (n : Nat) : Loc := ⟨0, 1, n, 2⟩

/-- `==` says the same in either direction. -/
def both {A : Type} (eq : A → A → Bool) (expected : Bool) (l r : A) : Bool := (eq l r == expected) && (eq r l == expected)

/-- Call.cpp 34-52. -/
def info (a : Nat) (c : ValueCategory) (k : Constness) (l : Loc) : Info 1 := ⟨fun _ => a, c, k, l⟩

example : both (infoEq names) false (info 1 .any .any (line 1)) (info 2 .any .any (line 1)) ∧
    both (infoEq names) false (info 1 .any .any (line 1)) (info 1 .lvalue .any (line 1)) ∧
    both (infoEq names) false (info 1 .any .any (line 1)) (info 1 .any .asConst (line 1)) ∧
    both (infoEq names) false (info 1 .any .any (line 1)) (info 1 .any .any (line 2)) ∧
    both (infoEq names) true (info 1 .any .any (line 1)) (info 1 .any .any (line 1)) := by decide

/-! Reports.cpp 14-110 -/

def ratings : List Rating := [⟨1337, 1338⟩, ⟨1339, 1340⟩]
def otherRatings : List (List Rating) := [[], [⟨1337, 1338⟩], [⟨1339, 1340⟩], [⟨1339, 1340⟩, ⟨1337, 1338⟩]]

example : both controlEq true (.inapplicable 43 44 42 ratings [1341, 1342]) (.inapplicable 43 44 42 ratings [1341, 1342]) ∧
    (∀ i ∈ [-2147483648, 0, 42, 44, 2147483647],
      both controlEq false (.inapplicable 43 44 42 ratings [1341, 1342]) (.inapplicable i 44 42 ratings [1341, 1342])) ∧
    (∀ i ∈ [-2147483648, 0, 43, 45, 2147483647],
      both controlEq false (.inapplicable 43 44 42 ratings [1341, 1342]) (.inapplicable 43 i 42 ratings [1341, 1342])) ∧
    (∀ i ∈ [-2147483648, 0, 41, 43, 2147483647],
      both controlEq false (.inapplicable 43 44 42 ratings [1341, 1342]) (.inapplicable 43 44 i ratings [1341, 1342])) ∧
    (∀ rs ∈ otherRatings,
      both controlEq false (.inapplicable 43 44 42 ratings [1341, 1342]) (.inapplicable 43 44 42 rs [1341, 1342])) ∧
    (∀ ts ∈ [[], [1342], [1341], [1342, 1341]],
      both controlEq false (.inapplicable 43 44 42 ratings [1341, 1342]) (.inapplicable 43 44 42 ratings ts)) := by decide

/-- 112-187 -/
example : both controlEq true (.applicable 43 44 42 ratings) (.applicable 43 44 42 ratings) ∧
    (∀ i ∈ [-2147483648, 0, 42, 44, 2147483647], both controlEq false (.applicable 43 44 42 ratings) (.applicable i 44 42 ratings)) ∧
    (∀ i ∈ [-2147483648, 0, 43, 45, 2147483647], both controlEq false (.applicable 43 44 42 ratings) (.applicable 43 i 42 ratings)) ∧
    (∀ i ∈ [-2147483648, 0, 41, 43, 2147483647], both controlEq false (.applicable 43 44 42 ratings) (.applicable 43 44 i ratings)) ∧
    (∀ rs ∈ otherRatings, both controlEq false (.applicable 43 44 42 ratings) (.applicable 43 44 42 rs)) := by decide

/-- 189-260 -/
example : both controlEq true (.saturated 43 44 42 [1337, 1338]) (.saturated 43 44 42 [1337, 1338]) ∧
    (∀ i ∈ [-2147483648, 0, 42, 44, 2147483647], both controlEq false (.saturated 43 44 42 [1337, 1338]) (.saturated i 44 42 [1337, 1338])) ∧
    (∀ i ∈ [-2147483648, 0, 43, 45, 2147483647], both controlEq false (.saturated 43 44 42 [1337, 1338]) (.saturated 43 i 42 [1337, 1338])) ∧
    (∀ i ∈ [-2147483648, 0, 41, 43, 2147483647], both controlEq false (.saturated 43 44 42 [1337, 1338]) (.saturated 43 44 i [1337, 1338])) ∧
    (∀ ts ∈ [[], [1337], [1338], [1338, 1337]],
      both controlEq false (.saturated 43 44 42 [1337, 1338]) (.saturated 43 44 42 ts)) := by decide

/-- 461-484; the types `int`, `short`, `std::string`, `void`, `std::string_view`, `double` are 0 to 5. -/
example : both argEq false (0, lit "42") (0, lit "1337") ∧ both argEq false (0, lit "42") (1, lit "42") ∧
    both argEq true (0, lit "42") (0, lit "42") := by decide

def call : CallReport := ⟨2, [(0, lit "42")], line 1, .any, .any⟩

/-- 486-582 -/
example : both (callEq names) true call call ∧
    (∀ t ∈ [3, 4], both (callEq names) false call { call with returnType := t }) ∧
    (∀ c ∈ [ValueCategory.lvalue, .rvalue], both (callEq names) false call { call with category := c }) ∧
    (∀ c ∈ [Constness.asConst, .nonConst], both (callEq names) false call { call with constness := c }) ∧
    both (callEq names) false call { call with loc := line 2 } ∧
    (∀ as ∈ [[], [(0, lit "1337")], [(0, lit "42"), (0, lit "1337")]], both (callEq names) false call { call with args := as }) := by decide

/-- 584-662; the objects are at 10, 11 and 12. -/
def printed : Nat → Text := fun a =>
  if a = 10 then lit "1337" else if a = 11 then lit "4.2" else lit "\"Hello, World!\""

def types : Fin 3 → Nat := fun i => if i = 0 then 0 else if i = 1 then 5 else 2

example : ∀ c ∈ [ValueCategory.any, .lvalue, .rvalue], ∀ k ∈ [Constness.any, .asConst, .nonConst],
    callEq names (makeCallReport 3 (fun _ => 0) printed (⟨fun _ => 0, c, k, line 1⟩ : Info 0)) ⟨3, [], line 1, c, k⟩ ∧
    callEq names (makeCallReport 0 (fun _ => 0) printed (⟨fun _ => 0, c, k, line 1⟩ : Info 0)) ⟨0, [], line 1, c, k⟩ ∧
    callEq names (makeCallReport 3 types printed (⟨fun i => 10 + i, c, k, line 1⟩ : Info 3))
      ⟨3, [(0, lit "1337"), (5, lit "4.2"), (2, lit "\"Hello, World!\"")], line 1, c, k⟩ := by decide

def expectation : ExpectationReport :=
  ⟨some (line 1), some (lit "finalizer description"), some (lit "times description"), [some (lit "first expectation description")]⟩

/-- 664-743 -/
example : both (expectationEq names) true expectation expectation ∧
    (∀ l ∈ [none, some (line 2)], both (expectationEq names) false expectation { expectation with loc := l }) ∧
    (∀ d ∈ [none, some (lit "other finalizer description")],
      both (expectationEq names) false expectation { expectation with finalizer := d }) ∧
    (∀ d ∈ [none, some (lit "other times description")], both (expectationEq names) false expectation { expectation with times := d }) ∧
    (∀ ds ∈ [[], [some (lit "other expectation description")],
        [some (lit "expectation description"), some (lit "other expectation description")]],
      both (expectationEq names) false expectation { expectation with descriptions := ds }) := by decide

/-- 745-793 -/
example : both optionalTextEq false (some (lit "Hello, World!")) (some (lit "not equal")) ∧
    both optionalTextEq false (some (lit "Hello, World!")) none ∧
    both optionalTextEq true (some (lit "Hello, World!")) (some (lit "Hello, World!")) ∧
    both resultEq false (true, some (lit "Hello, World!")) (true, some (lit "not equal")) ∧
    both resultEq false (true, some (lit "Hello, World!")) (true, none) ∧
    both resultEq false (true, some (lit "Hello, World!")) (false, some (lit "Hello, World!")) ∧
    both resultEq true (true, some (lit "Hello, World!")) (true, some (lit "Hello, World!")) := by decide

def report : Mimic.Compare.MatchReport :=
  ⟨some (line 1), some (lit "finalize description"), .applicable 1 1 0 [], [(true, some (lit "expectation description"))]⟩

/-- 795-877 -/
example : both (matchEq names) true report report ∧
    (∀ l ∈ [none, some (line 2)], both (matchEq names) false report { report with loc := l }) ∧
    both (matchEq names) false report { report with finalize := some (lit "other finalize description") } ∧
    both (matchEq names) false report { report with control := .inapplicable 0 1 0 [] [] } ∧
    (∀ rs ∈ [[], [(true, some (lit "other expectation description"))],
        [(true, some (lit "expectation description")), (false, some (lit "other expectation description"))]],
      both (matchEq names) false report { report with expectations := rs }) := by decide

/-- 1276-1290 -/
example : expectationText names ⟨none, some (lit "finalizer description"), some (lit "times description"),
      [some (lit "expectation1 description")]⟩ =
    lit "Expectation report:\ntimes: times description\nexpects:\n\texpectation1 description,\nfinally: finalizer description\n" := by
  decide +kernel

end Mimic.Conform.Compare
