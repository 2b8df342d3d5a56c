import Verif.Model.Reports
import Verif.Model.Signature

/-!
# Comparing calls and reports

Models `call::Info` with its `operator ==` (`/repo/include/mimic++/Call.hpp` 19-59), `is_same_source_location`
(`/repo/include/mimic++/Utility.hpp` 40-49), the report types with their `operator ==` (`/repo/include/mimic++/Reports.hpp` 39-76, 198-264,
314-337, 401-450; `/repo/include/mimic++/Fwd.hpp` 223-230), their texts as far as source locations are concerned (Reports.hpp 266-399,
473-574) and the text of a source location (`/repo/include/mimic++/Printer.hpp` 365-380).

Simplifications: types are numbers (`std::type_index`); what an object looks like when it is printed is given by the memory.
-/

set_option autoImplicit false

namespace Mimic.Compare

/-- `std::source_location`: `file_name()` and `function_name()` point to characters. -/
structure Loc where
  file : Nat
  function : Nat
  line : Nat
  column : Nat
deriving DecidableEq, Repr

/-- Utility.hpp 40-49: `is_same_source_location`. `names`: the texts in static memory. -/
def sameLoc (names : Nat → Text) (l r : Loc) : Bool :=
  names l.file == names r.file && names l.function == names r.function && l.line == r.line && l.column == r.column

/-- `operator ==` of `std::vector`, from that of its elements. -/
def vectorEq {A : Type} (eq : A → A → Bool) : List A → List A → Bool
  | [], [] => true
  | a :: as, b :: bs => eq a b && vectorEq eq as bs
  | _, _ => false

/-- Fwd.hpp 228-229: `rating`. -/
def ratingEq (l r : Rating) : Bool := l.priority == r.priority && l.tag == r.tag

/-- Reports.hpp 47-48, 58-59, 69-70, and `operator ==` of `std::variant` (73-76). -/
def controlEq : ControlState → ControlState → Bool
  | .inapplicable min max count rs ts, .inapplicable min' max' count' rs' ts' =>
    min == min' && max == max' && count == count' && vectorEq ratingEq rs rs' && vectorEq (· == ·) ts ts'
  | .applicable min max count rs, .applicable min' max' count' rs' =>
    min == min' && max == max' && count == count' && vectorEq ratingEq rs rs'
  | .saturated min max count ts, .saturated min' max' count' ts' =>
    min == min' && max == max' && count == count' && vectorEq (· == ·) ts ts'
  | _, _ => false

/-- Reports.hpp 333-335 and 446-448. -/
def optionalLocEq (names : Nat → Text) (l r : Option Loc) : Bool :=
  l.isSome == r.isSome &&
    match l, r with
    | some l, some r => sameLoc names l r
    | _, _ => true

/-- `operator ==` of `std::optional<StringT>`. -/
def optionalTextEq : Option Text → Option Text → Bool
  | none, none => true
  | some l, some r => l == r
  | _, _ => false

/-- Call.hpp 40-48: `call::Info<Return, Args...>` with `n` arguments, which are references, i.e. addresses. -/
structure Info (n : Nat) where
  args : Fin n → Nat
  category : ValueCategory
  constness : Constness
  loc : Loc

/-- Call.hpp 21-33: `is_equal_param_list`, a fold over the indices. -/
def sameParams {n : Nat} (l r : Fin n → Nat) : Bool := (List.finRange n).all fun i => l i == r i

/-- Call.hpp 50-58. -/
def infoEq (names : Nat → Text) {n : Nat} (l r : Info n) : Bool :=
  l.category == r.category && l.constness == r.constness && sameParams l.args r.args && sameLoc names l.loc r.loc

/-- Reports.hpp 204-221: `CallReport`; an argument is its `typeIndex` and its `stateString`. -/
structure CallReport where
  returnType : Nat
  args : List (Nat × Text)
  loc : Loc
  category : ValueCategory
  constness : Constness
deriving DecidableEq, Repr

/-- Reports.hpp 213-214: `CallReport::Arg`. -/
def argEq (l r : Nat × Text) : Bool := l.1 == r.1 && l.2 == r.2

/-- Reports.hpp 223-231. -/
def callEq (names : Nat → Text) (l r : CallReport) : Bool :=
  l.returnType == r.returnType && vectorEq argEq l.args r.args && sameLoc names l.loc r.loc && l.category == r.category &&
    l.constness == r.constness

/-- Reports.hpp 234-264: `make_call_report`. `printed a`: what is printed for the object at address `a`. -/
def makeCallReport {n : Nat} (returnType : Nat) (types : Fin n → Nat) (printed : Nat → Text) (i : Info n) : CallReport :=
  { returnType := returnType, args := (List.finRange n).map fun k => (types k, printed (i.args k)), loc := i.loc, category := i.category,
    constness := i.constness }

/-- Reports.hpp 319-325: `ExpectationReport`. -/
structure ExpectationReport where
  loc : Option Loc
  finalizer : Option Text
  times : Option Text
  descriptions : List (Option Text)
deriving DecidableEq, Repr

/-- Reports.hpp 327-336. -/
def expectationEq (names : Nat → Text) (l r : ExpectationReport) : Bool :=
  optionalTextEq l.finalizer r.finalizer && optionalTextEq l.times r.times && vectorEq optionalTextEq l.descriptions r.descriptions &&
    optionalLocEq names l.loc r.loc

/-- Reports.hpp 406-438: `MatchReport`. -/
structure MatchReport where
  loc : Option Loc
  finalize : Option Text
  control : ControlState
  expectations : List (Bool × Option Text)
deriving DecidableEq, Repr

/-- Reports.hpp 431-432: `MatchReport::Expectation`. -/
def resultEq (l r : Bool × Option Text) : Bool := l.1 == r.1 && optionalTextEq l.2 r.2

/-- Reports.hpp 440-449. -/
def matchEq (names : Nat → Text) (l r : MatchReport) : Bool :=
  optionalTextEq l.finalize r.finalize && controlEq l.control r.control && vectorEq resultEq l.expectations r.expectations &&
    optionalLocEq names l.loc r.loc

/-- Printer.hpp 365-380. -/
def locText (names : Nat → Text) (l : Loc) : Text :=
  names l.file ++ lit "[" ++ decimal l.line ++ lit ":" ++ decimal l.column ++ lit "], " ++ names l.function

/-- Reports.hpp 266-312. `typeName`: `std::type_index::name`. -/
def callText (names typeName : Nat → Text) (r : CallReport) : Text :=
  callReportText
    { loc := locText names r.loc, constness := lit r.constness.word, category := lit r.category.word, returnType := typeName r.returnType,
      args := r.args.map fun a => (typeName a.1, a.2) }

/-- Reports.hpp 343-399. -/
def expectationText (names : Nat → Text) (r : ExpectationReport) : Text :=
  expectationReportText
    { loc := r.loc.map (locText names), finalizer := r.finalizer, times := r.times, descriptions := r.descriptions }

/-- The report as `evaluate_match_report` sees it (Reports.hpp 452-471). -/
def MatchReport.core (r : MatchReport) : Mimic.MatchReport :=
  { exp := 0, control := r.control, results := r.expectations.map fun x => (x.1, x.2.map String.ofList) }

/-- Reports.hpp 473-574. -/
def matchText (names : Nat → Text) (r : MatchReport) : Text :=
  let (matched, unmatched) := distribute r.core.results [] []
  matchHeader r.core ++
    (match r.loc with
     | none => []
     | some l => lit "from: " ++ locText names l ++ lit "\n") ++
    (if unmatched.isEmpty then [] else lit "failed:\n" ++ printDescriptions unmatched) ++
    (if matched.isEmpty then [] else lit "passed:\n" ++ printDescriptions matched) ++ lit "}\n"

end Mimic.Compare
