import Verif.Model.Compare
import Verif.Proofs.Texts

/-!
# Comparing calls and reports (C89)
-/

set_option autoImplicit false

namespace Mimic.Compare

/-! ## What reports contain -/

/-- A place in the source code, as a reader sees it. -/
abbrev Place := Text × Text × Nat × Nat

/-- The place that a source location denotes. -/
def Loc.place (names : Nat → Text) (l : Loc) : Place := (names l.file, names l.function, l.line, l.column)

/-! ## Lemmas -/

theorem sameLoc_iff {names : Nat → Text} {l r : Loc} : sameLoc names l r = true ↔ l.place names = r.place names := by
  simp [sameLoc, Loc.place, and_assoc]

theorem vectorEq_iff {A : Type} {eq : A → A → Bool} (h : ∀ a b, eq a b = true ↔ a = b) (l r : List A) : vectorEq eq l r = true ↔ l = r := by
  induction l generalizing r with
  | nil => cases r <;> simp [vectorEq]
  | cons a l ih => cases r <;> simp [vectorEq, h, ih]

theorem ratingEq_iff (l r : Rating) : ratingEq l r = true ↔ l = r := by
  obtain ⟨a, b⟩ := l
  obtain ⟨c, d⟩ := r
  simp [ratingEq]

theorem controlEq_iff (l r : ControlState) : controlEq l r = true ↔ l = r := by
  cases l <;> cases r <;> simp [controlEq, vectorEq_iff ratingEq_iff, vectorEq_iff (A := Nat) (eq := (· == ·)) (by simp), and_assoc]

theorem optionalTextEq_iff (l r : Option Text) : optionalTextEq l r = true ↔ l = r := by
  cases l <;> cases r <;> simp [optionalTextEq]

theorem optionalLocEq_iff {names : Nat → Text} {l r : Option Loc} :
    optionalLocEq names l r = true ↔ l.map (Loc.place names) = r.map (Loc.place names) := by
  cases l <;> cases r <;> simp [optionalLocEq, sameLoc_iff]

theorem argEq_iff (l r : Nat × Text) : argEq l r = true ↔ l = r := by
  obtain ⟨a, b⟩ := l
  obtain ⟨c, d⟩ := r
  simp [argEq]

theorem resultEq_iff (l r : Bool × Option Text) : resultEq l r = true ↔ l = r := by
  obtain ⟨a, b⟩ := l
  obtain ⟨c, d⟩ := r
  simp [resultEq, optionalTextEq_iff]

theorem locText_place {names : Nat → Text} {l r : Loc} (h : l.place names = r.place names) : locText names l = locText names r := by
  simp only [Loc.place, Prod.mk.injEq] at h
  simp only [locText, h]

theorem optionalLocText {names : Nat → Text} {l r : Option Loc} (h : l.map (Loc.place names) = r.map (Loc.place names)) :
    l.map (locText names) = r.map (locText names) := by
  cases l <;> cases r <;> simp_all
  exact locText_place h

section

variable {names : Nat → Text}

/-! ## Calls -/

/-- C89: two calls (of one signature) compare equal iff they come from the same place, with the same value category and constness, and their
arguments are the same objects. What the arguments are worth is of no importance. -/
theorem C89_calls {n : Nat} (l r : Info n) :
    infoEq names l r = true ↔
      l.loc.place names = r.loc.place names ∧ l.category = r.category ∧ l.constness = r.constness ∧ ∀ i, l.args i = r.args i := by
  simp only [infoEq, sameParams, Bool.and_eq_true, beq_iff_eq, sameLoc_iff, List.all_eq_true, List.mem_finRange, forall_const]
  exact ⟨fun ⟨⟨⟨a, b⟩, c⟩, d⟩ => ⟨d, a, b, c⟩, fun ⟨d, a, b, c⟩ => ⟨⟨⟨a, b⟩, c⟩, d⟩⟩

/-! ## Reports -/

/-- C89: two reports about calls compare equal iff all they contain is equal. -/
theorem C89_call_reports (l r : CallReport) :
    callEq names l r = true ↔
      l.loc.place names = r.loc.place names ∧ l.returnType = r.returnType ∧ l.category = r.category ∧ l.constness = r.constness ∧
        l.args = r.args := by
  simp only [callEq, Bool.and_eq_true, beq_iff_eq, sameLoc_iff, vectorEq_iff argEq_iff]
  exact ⟨fun ⟨⟨⟨⟨a, b⟩, c⟩, d⟩, e⟩ => ⟨c, a, d, e, b⟩, fun ⟨c, a, d, e, b⟩ => ⟨⟨⟨⟨a, b⟩, c⟩, d⟩, e⟩⟩

/-- C89: likewise for reports about expectations. -/
theorem C89_expectation_reports (l r : ExpectationReport) :
    expectationEq names l r = true ↔
      l.loc.map (Loc.place names) = r.loc.map (Loc.place names) ∧ l.finalizer = r.finalizer ∧ l.times = r.times ∧
        l.descriptions = r.descriptions := by
  simp only [expectationEq, Bool.and_eq_true, optionalLocEq_iff, optionalTextEq_iff, vectorEq_iff optionalTextEq_iff]
  exact ⟨fun ⟨⟨⟨a, b⟩, c⟩, d⟩ => ⟨d, a, b, c⟩, fun ⟨d, a, b, c⟩ => ⟨⟨⟨a, b⟩, c⟩, d⟩⟩

/-- C89: likewise for reports about whether an expectation matches a call. -/
theorem C89_match_reports (l r : MatchReport) :
    matchEq names l r = true ↔
      l.loc.map (Loc.place names) = r.loc.map (Loc.place names) ∧ l.finalize = r.finalize ∧ l.control = r.control ∧
        l.expectations = r.expectations := by
  simp only [matchEq, Bool.and_eq_true, optionalLocEq_iff, optionalTextEq_iff, controlEq_iff, vectorEq_iff resultEq_iff]
  exact ⟨fun ⟨⟨⟨a, b⟩, c⟩, d⟩ => ⟨d, a, b, c⟩, fun ⟨d, a, b, c⟩ => ⟨⟨⟨a, b⟩, c⟩, d⟩⟩

/-- C89: comparing calls is an equivalence relation, and so is comparing reports of either kind. -/
theorem C89_equivalence (n : Nat) :
    Equivalence (fun l r : Info n => infoEq names l r = true) ∧ Equivalence (fun l r : CallReport => callEq names l r = true) ∧
    Equivalence (fun l r : ExpectationReport => expectationEq names l r = true) ∧
    Equivalence (fun l r : MatchReport => matchEq names l r = true) := by
  simp only [C89_calls, C89_call_reports, C89_expectation_reports, C89_match_reports]
  refine ⟨⟨?_, ?_, ?_⟩, ⟨?_, ?_, ?_⟩, ⟨?_, ?_, ?_⟩, ⟨?_, ?_, ?_⟩⟩ <;> grind

/-- C89: the reports about calls that compare equal compare equal, too, if the arguments have not been changed in between; the other way
round this is wrong (`C89_same_values`). -/
theorem C89_reported {n : Nat} (returnType : Nat) (types : Fin n → Nat) (printed : Nat → Text) (l r : Info n)
    (h : infoEq names l r = true) :
    callEq names (makeCallReport returnType types printed l) (makeCallReport returnType types printed r) = true := by
  rw [C89_calls] at h
  rw [C89_call_reports]
  obtain ⟨a, b, c, d⟩ := h
  refine ⟨a, rfl, b, c, ?_⟩
  simp only [makeCallReport, d]

/-- C89: the reports about two calls compare equal iff the calls come from the same place, with the same value category and constness, and
corresponding arguments were printed alike, each at the time of its call. -/
theorem C89_reported_values {n : Nat} (returnType : Nat) (types : Fin n → Nat) (before after : Nat → Text) (l r : Info n) :
    callEq names (makeCallReport returnType types before l) (makeCallReport returnType types after r) = true ↔
      l.loc.place names = r.loc.place names ∧ l.category = r.category ∧ l.constness = r.constness ∧
        ∀ i, before (l.args i) = after (r.args i) := by
  rw [C89_call_reports]
  simp only [makeCallReport, true_and]
  refine and_congr Iff.rfl (and_congr Iff.rfl (and_congr Iff.rfl ?_))
  constructor
  · intro h i
    have := List.map_inj_left.mp h i (List.mem_finRange i)
    exact (Prod.mk.inj this).2
  · intro h
    exact List.map_congr_left fun i _ => by rw [h i]

/-- C89: the text of a source location tells the line, the column and the function, once the file is known. -/
theorem C89_location_text (l r : Loc) (hf : names l.file = names r.file) (h : locText names l = locText names r) :
    l.place names = r.place names := by
  simp only [locText, hf, List.append_assoc, List.append_cancel_left_eq] at h
  obtain ⟨h1, h2⟩ := cut_decimal (by intro c hc; obtain rfl : ':' = c := by simpa [lit] using hc
                                     simp [IsHex]) (by intro c hc; obtain rfl : ':' = c := by simpa [lit] using hc
                                                       simp [IsHex]) h
  simp only [List.append_cancel_left_eq] at h2
  obtain ⟨h3, h4⟩ := cut_decimal (by intro c hc; obtain rfl : ']' = c := by simpa [lit] using hc
                                     simp [IsHex]) (by intro c hc; obtain rfl : ']' = c := by simpa [lit] using hc
                                                       simp [IsHex]) h2
  simp only [List.append_cancel_left_eq] at h4
  simp only [Loc.place, hf, h1, h3, h4]

/-- C89: reports that compare equal have the same text, and equal match reports denote the same outcome. -/
theorem C89_texts (typeName : Nat → Text) :
    (∀ l r, callEq names l r = true → callText names typeName l = callText names typeName r) ∧
    (∀ l r, expectationEq names l r = true → expectationText names l = expectationText names r) ∧
    (∀ l r, matchEq names l r = true →
      matchText names l = matchText names r ∧ evaluateMatchReport l.core = evaluateMatchReport r.core) := by
  refine ⟨fun l r h => ?_, fun l r h => ?_, fun l r h => ?_⟩
  · rw [C89_call_reports] at h
    obtain ⟨h1, h2, h3, h4, h5⟩ := h
    simp only [callText, locText_place h1, h2, h3, h4, h5]
  · rw [C89_expectation_reports] at h
    obtain ⟨h1, h2, h3, h4⟩ := h
    simp only [expectationText, optionalLocText h1, h2, h3, h4]
  · rw [C89_match_reports] at h
    obtain ⟨h1, _, h3, h4⟩ := h
    have hc : l.core = r.core := by simp only [MatchReport.core, h3, h4]
    have hl := optionalLocText h1
    refine ⟨?_, by rw [hc]⟩
    unfold matchText
    rw [hc]
    cases hl1 : l.loc <;> cases hl2 : r.loc <;> simp_all

/-- C89: the text of a match report is that of the outcome it is about, as in C51; if the place is not known, the line about it is left out. -/
theorem C89_match_text (r : MatchReport) (l : Loc) :
    matchText names { r with loc := some l } = matchReportText (fun _ => locText names l) r.core ∧
    ∃ rest, matchText names { r with loc := some l } = matchHeader r.core ++ (lit "from: " ++ locText names l ++ lit "\n") ++ rest ∧
      matchText names { r with loc := none } = matchHeader r.core ++ rest := by
  refine ⟨?_, (if (distribute r.core.results [] []).2.isEmpty then [] else lit "failed:\n" ++ printDescriptions (distribute r.core.results [] []).2) ++
    (if (distribute r.core.results [] []).1.isEmpty then [] else lit "passed:\n" ++ printDescriptions (distribute r.core.results [] []).1) ++
    lit "}\n", ?_, ?_⟩
  · simp only [matchText, matchReportText, MatchReport.core, List.append_assoc]; rfl
  · simp only [matchText, MatchReport.core, List.append_assoc]; rfl
  · simp only [matchText, MatchReport.core, List.append_assoc, List.append_nil, List.nil_append]; rfl

end

/-! ## What comparing does not tell -/

namespace Examples

/-- Two copies of each name in memory, as in two translation units. -/
def strings : Nat → Text := fun a => if a % 2 = 0 then lit "test.cpp" else lit "main"

/-- Line 7 of `test.cpp`, from either translation unit. -/
def loc : Loc := ⟨0, 1, 7, 3⟩
def loc' : Loc := ⟨2, 3, 7, 3⟩

/-- A call with one argument, at the given address. -/
def info (a : Nat) (l : Loc) : Info 1 := ⟨fun _ => a, .any, .any, l⟩

end Examples

open Examples in
/-- C89: calls with different objects of the same value do not compare equal, but their reports do. -/
theorem C89_same_values :
    ∃ (names : Nat → Text) (l r : Info 1) (printed : Nat → Text), infoEq names l r = false ∧
      callEq names (makeCallReport 0 (fun _ => 1) printed l) (makeCallReport 0 (fun _ => 1) printed r) = true :=
  ⟨strings, info 100 loc, info 108 loc, fun _ => lit "42", by decide, by decide⟩

open Examples in
/-- C89: calls with the same object, which has been changed in between, compare equal, but their reports do not. -/
theorem C89_same_objects :
    ∃ (names : Nat → Text) (l r : Info 1) (before after : Nat → Text), infoEq names l r = true ∧
      callEq names (makeCallReport 0 (fun _ => 1) before l) (makeCallReport 0 (fun _ => 1) after r) = false :=
  ⟨strings, info 100 loc, info 100 loc', fun _ => lit "42", fun _ => lit "1337", by decide, by decide⟩

/-- C89: reports with the same text may be different: neither the state of an expectation that matches nor its finalizer is printed. -/
theorem C89_same_text :
    ∃ (names : Nat → Text) (l r : MatchReport), matchEq names l r = false ∧ matchText names l = matchText names r :=
  ⟨Examples.strings, ⟨none, none, .applicable 0 1 0 [], []⟩, ⟨none, some (lit "returns 42"), .applicable 1 2 1 [⟨3, 4⟩], []⟩, by decide,
    by decide⟩

/-! ## Concrete cases -/

namespace Examples

example : loc ≠ loc' ∧ sameLoc strings loc loc' = true := by decide

example : infoEq strings (info 100 loc) (info 100 loc') = true ∧ infoEq strings (info 100 loc) (info 100 { loc' with line := 8 }) = false := by
  decide

example : callEq strings (makeCallReport 0 (fun _ => 1) (fun _ => lit "42") (info 100 loc)) ⟨0, [(1, lit "42")], loc', .any, .any⟩ = true := by
  decide

example : matchText strings ⟨some loc, some (lit "f"), .applicable 0 1 0 [], [(true, some (lit "a")), (false, none), (false, some (lit "b"))]⟩ =
    lit "Unmatched expectation: {\nfrom: test.cpp[7:3], main\nfailed:\n\tb,\npassed:\n\ta,\n}\n" := by decide +kernel

example : expectationText strings ⟨some loc', none, some (lit "once"), [some (lit "x")]⟩ =
    lit "Expectation report:\nfrom: test.cpp[7:3], main\ntimes: once\nexpects:\n\tx,\n" := by decide +kernel

end Examples

end Mimic.Compare
