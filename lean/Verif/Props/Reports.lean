import Verif.Proofs.Reports
import Verif.Proofs.Demo
import Verif.Props.Outcome

/-!
# Texts of reports (C41, C43, C51, C52)
-/

set_option autoImplicit false

namespace Mimic

variable {α : Type}

/-! ## C41 -/

/-- C41: the text about the times says "saturated" iff the number of matches equals the upper limit, otherwise it says that the
expectation accepts further matches iff the lower limit is reached, and otherwise it says how often it was matched. -/
theorem C41_words (n min max : Nat) :
    (lit "already saturated" <+: printTimesState n min max ↔ n = max) ∧
    (lit "accepts further matches" <+: printTimesState n min max ↔ n ≠ max ∧ min ≤ n) ∧
    (lit "matched " <+: printTimesState n min max ∧ lit " is expected" <:+ printTimesState n min max ↔ n ≠ max ∧ n < min) := by
  unfold printTimesState
  by_cases h1 : n = max
  · simp only [h1, if_true]
    refine ⟨by simp [lit], by simp [lit], by simp [lit]⟩
  · by_cases h2 : min ≤ n
    · simp only [h1, h2, if_false, if_true]
      refine ⟨by simp [lit], by simp [lit, h1], ?_⟩
      have : ¬ n < min := by omega
      simp [lit, this]
    · simp only [h1, h2, if_false]
      refine ⟨by simp [lit], by simp [lit], fun _ => ⟨h1, by omega⟩, fun _ => ?_⟩
      exact ⟨⟨_, by simp only [List.append_assoc]; rfl⟩, ⟨_, rfl⟩⟩

/-- C41: the text determines the number of matches and the upper limit, and, as long as the expectation is unsatisfied, the
lower limit. -/
theorem C41_determines {n n' min min' max max' : Nat} (h1 : min ≤ max) (h2 : min' ≤ max')
    (h : printTimesState n min max = printTimesState n' min' max') : n = n' ∧ max = max' ∧ (n < min → n ≠ max → min = min') := by
  have w := C41_words n min max
  have w' := C41_words n' min' max'
  rw [h] at w
  have e1 : n = max ↔ n' = max' := w.1.symm.trans w'.1
  have e2 : (n ≠ max ∧ min ≤ n) ↔ (n' ≠ max' ∧ min' ≤ n') := w.2.1.symm.trans w'.2.1
  rw [printTimesState_eq h1, printTimesState_eq h2] at h
  unfold timesText at h
  by_cases c1 : n = max
  · have c1' := e1.mp c1
    rw [if_pos c1, if_pos c1', List.append_assoc, List.append_assoc] at h
    obtain ⟨h3, _⟩ := howOften_cut (List.append_cancel_left h)
    exact ⟨h3, by omega, fun _ hne => absurd c1 hne⟩
  · have c1' : ¬ n' = max' := fun hc => c1 (e1.mpr hc)
    rw [if_neg c1, if_neg c1'] at h
    by_cases c2 : n < min
    · have c2' : n' < min' := by
        refine Classical.byContradiction (fun hc => ?_)
        have := e2.mpr ⟨c1', by omega⟩
        omega
      rw [if_pos c2, if_pos c2'] at h
      simp only [List.append_assoc] at h
      obtain ⟨h3, h4⟩ := howOften_cut (List.append_cancel_left h)
      have h5 := List.append_cancel_left h4
      by_cases c3 : min = max
      · by_cases c3' : min' = max'
        · rw [if_pos c3, if_pos c3', List.append_assoc, List.append_assoc] at h5
          obtain ⟨h6, _⟩ := howOften_cut (List.append_cancel_left h5)
          exact ⟨h3, h6, fun _ _ => by omega⟩
        · rw [if_pos c3, if_neg c3'] at h5
          simp [lit] at h5
      · by_cases c3' : min' = max'
        · rw [if_neg c3, if_pos c3'] at h5
          simp [lit] at h5
        · rw [if_neg c3, if_neg c3'] at h5
          simp only [List.append_assoc, List.append_cancel_left_eq] at h5
          obtain ⟨h6, h7⟩ := cut_space (r := lit "and " ++ (decimal max ++ (lit " times" ++ lit " is expected")))
            (s := lit "and " ++ (decimal max' ++ (lit " times" ++ lit " is expected"))) h5
          have h8 := List.append_cancel_left h7
          obtain ⟨h9, _⟩ := cut_space (r := lit "times" ++ lit " is expected") (s := lit "times" ++ lit " is expected") h8
          exact ⟨h3, h9, fun _ _ => h6⟩
    · have c2' : ¬ n' < min' := by
        have := (e2.mp ⟨c1, by omega⟩).2
        omega
      rw [if_neg c2, if_neg c2'] at h
      simp only [List.append_assoc, List.append_cancel_left_eq] at h
      obtain ⟨h3, h4⟩ := cut_space (r := lit "out of " ++ (decimal max ++ lit " times)"))
        (s := lit "out of " ++ (decimal max' ++ lit " times)")) h
      obtain ⟨h5, _⟩ := cut_space (r := lit "times)") (s := lit "times)") (List.append_cancel_left h4)
      exact ⟨h3, h5, fun hlt => absurd hlt c2⟩

/-- C41: after every history, the printed state of every living expectation says how often it was matched, what its limits are,
and, with the right numbers, in how many of its sequences it is or is not its turn. -/
theorem C41_history {tr : Trace α} {w : World α} (h : Reach tr w) {e : Nat} (hl : tr.live e) :
    ∃ (x : Exp α) (st : ControlState), w.deref e = .ok x ∧ x.control.state w.seqs = .ok st ∧
      tr.stateText e (controlStateText st) := by
  obtain ⟨y, hy, rfl, hya⟩ := (h.view.2.live_iff e).mp hl
  obtain ⟨x, hx, hyx⟩ := (abs_mem_iff w y).mp hy
  have hxa : x.alive = true := by rw [hyx] at hya; exact hya
  obtain ⟨st, h1, h2, _⟩ := state_text h hx hxa
  exact ⟨x, st, by simp [World.deref, hx, hxa], h1, h2⟩

/-! ## C43 -/

/-- C43: the first words of the text about a match report are determined by the evaluated outcome. -/
theorem C43_header (loc : Nat → Text) (r : MatchReport) :
    (lit "Matched expectation: {" <+: matchReportText loc r ↔ evaluateMatchReport r = .full) ∧
    (lit "Inapplicable, but otherwise matched expectation: {" <+: matchReportText loc r ↔ evaluateMatchReport r = .inapplicable) ∧
    (lit "Unmatched expectation: {" <+: matchReportText loc r ↔ evaluateMatchReport r = .none) := by
  rw [matchReportText_eq]
  unfold matchHeader
  cases evaluateMatchReport r <;> simp [lit]

/-- C43: what the outcome is: all policies passed, and the expectation was applicable. -/
theorem C43_outcome (r : MatchReport) :
    (evaluateMatchReport r = .full ↔ (∀ p ∈ r.results, p.1 = true) ∧ r.control.isApplicable = true) ∧
    (evaluateMatchReport r = .inapplicable ↔ (∀ p ∈ r.results, p.1 = true) ∧ r.control.isApplicable = false) ∧
    (evaluateMatchReport r = .none ↔ ∃ p ∈ r.results, p.1 = false) := by
  unfold evaluateMatchReport
  cases h : r.results.all (·.1) with
  | false =>
    have h2 : ∃ p ∈ r.results, p.1 = false := by
      rw [List.all_eq_false] at h
      obtain ⟨p, hp, hf⟩ := h
      exact ⟨p, hp, by simpa using hf⟩
    have h3 : ¬ ∀ p ∈ r.results, p.1 = true := by
      obtain ⟨p, hp, hf⟩ := h2
      intro hc
      rw [hc p hp] at hf
      simp at hf
    simp only [Bool.not_false, if_true, reduceCtorEq, false_iff, true_iff]
    exact ⟨fun hc => h3 hc.1, fun hc => h3 hc.1, h2⟩
  | true =>
    have h2 : ∀ p ∈ r.results, p.1 = true := List.all_eq_true.mp h
    have h3 : ¬ ∃ p ∈ r.results, p.1 = false := by
      rintro ⟨p, hp, hf⟩
      rw [h2 p hp] at hf
      simp at hf
    cases hc : r.control.isApplicable with
    | false =>
      simp only [Bool.not_true, Bool.false_eq_true, Bool.not_false, if_true, if_false, reduceCtorEq, false_iff, true_iff]
      exact ⟨fun x => x.2, ⟨h2, trivial⟩, h3⟩
    | true =>
      simp only [Bool.not_true, Bool.false_eq_true, if_false, reduceCtorEq, false_iff, true_iff]
      exact ⟨⟨h2, trivial⟩, fun x => by simp at x, h3⟩

/-- C43: every described policy is listed once, in order, under "failed" or "passed" according to its result; the others are not
listed; an empty list is left out. -/
theorem C43_lists (loc : Nat → Text) (r : MatchReport) :
    ∃ header : Text, matchReportText loc r = header ++ lit "from: " ++ loc r.exp ++ lit "\n" ++
      titled (lit "failed:\n") ((r.results.filter (·.1 == false)).filterMap (fun p => p.2.map (·.toList))) ++
      titled (lit "passed:\n") ((r.results.filter (·.1 == true)).filterMap (fun p => p.2.map (·.toList))) ++ lit "}\n" := by
  refine ⟨matchHeader r, ?_⟩
  rw [matchReportText_eq]
  have h1 : (fun p : Bool × Option String => p.1 == false) = fun p => !p.1 := by funext p; cases p.1 <;> rfl
  have h2 : (fun p : Bool × Option String => p.1 == true) = fun p => p.1 := by funext p; cases p.1 <;> rfl
  rw [h1, h2]

/-! ## C51 -/

/-- C51: for every call of an existing mock whose arguments can be printed, the reporter's texts tell one by one what is observed:
for each expectation concerned where it was defined, whether and why it did not resolve the call, how often it was matched, and
which of its policies failed and passed; and the call with all its arguments, numbered in order. (C10 says which expectations
are concerned.) -/
theorem C51_call {tr : Trace α} {w w' : World α} (h : Reach tr w) {m : Nat} {a : α} {ev : List Event}
    (hs : w.step (.call m a) = .ok (w', ev)) (loc : Nat → Text) (what : Nat → Option Text) {c : CallDetails} {ts : List (Text × Text)}
    (hc : ts.map (fun p => (p.1, (.ok p.2 : M Text))) = c.args.map (fun p => (p.1, print p.2))) :
    ∃ texts, w.callTexts loc what c m a = .ok texts ∧
      Each (tr.tells loc what (callText c.loc c.constness c.category c.returnType ts) m a) ev texts := by
  have hargs := (makeArgs_ok ts).mpr hc
  obtain ⟨c', hc', hct⟩ : ∃ c', c.report = .ok c' ∧ callReportText c' = callText c.loc c.constness c.category c.returnType ts := by
    refine ⟨⟨c.loc, c.constness, c.category, c.returnType, ts⟩, ?_, callReportText_eq _⟩
    simp [CallDetails.report, hargs, bind, Except.bind, pure, Except.pure]
  rw [← hct]
  simp only [World.step, World.handleCall, bind, Except.bind, pure, Except.pure] at hs
  unfold World.callTexts
  cases hm : w.colls[m]? with
  | none => rw [hm] at hs; simp at hs
  | some es =>
    rw [hm] at hs
    simp only at hs
    cases hscan : scan w a es.reverse with
    | error x => rw [hscan] at hs; simp at hs
    | ok r =>
      rw [hscan] at hs
      have hof := scan_of _ hscan
      obtain ⟨us, hu1, hu2⟩ := unhandled_texts h loc what hc' m a r.thrown (fun e he => (hof.thrown e he).2)
      simp only [bind, Except.bind, pure, Except.pure, hscan, hu1, hc'] at hs ⊢
      by_cases hfull : (!r.full.isEmpty) = true
      · rw [if_pos hfull] at hs ⊢
        cases hb : pickBestMatch r.full with
        | error x => rw [hb] at hs; simp at hs
        | ok best =>
          rw [hb] at hs
          simp only at hs ⊢
          obtain ⟨hmem, x, hx, hr, _⟩ := hof.full best (pickBest_mem hb)
          cases hcons : w.consume best.exp with
          | error x => rw [hcons] at hs; simp at hs
          | ok w2 =>
            rw [hcons] at hs
            simp only [Except.ok.injEq, Prod.mk.injEq] at hs
            rw [← hs.2]
            refine ⟨_, rfl, each_append hu2 ⟨⟨_, match_text h loc hm a (by simpa using hmem) hx hr, ?_⟩, trivial⟩⟩
            simp [stringifyReport]
      · rw [if_neg hfull] at hs ⊢
        by_cases hin : (!r.inapplicable.isEmpty) = true
        · rw [if_pos hin] at hs ⊢
          simp only [Except.ok.injEq, Prod.mk.injEq] at hs
          rw [← hs.2]
          refine ⟨_, rfl, each_append hu2 ⟨⟨r.inapplicable.map (matchReportText loc), ?_, ?_⟩, trivial⟩⟩
          · apply each_map
            intro rep hrep
            obtain ⟨hmem, x, hx, hr, _⟩ := hof.inapplicable rep hrep
            exact match_text h loc hm a (by simpa using hmem) hx hr
          · simp [stringifyInapplicable, printMatchReports_eq, lit]
        · rw [if_neg hin] at hs ⊢
          simp only [Except.ok.injEq, Prod.mk.injEq] at hs
          rw [← hs.2]
          refine ⟨_, rfl, each_append hu2 ⟨⟨r.none.map (matchReportText loc), ?_, ?_⟩, trivial⟩⟩
          · apply each_map
            intro rep hrep
            obtain ⟨hmem, x, hx, hr, _⟩ := hof.none rep hrep
            exact match_text h loc hm a (by simpa using hmem) hx hr
          · rw [stringifyNoMatch, printMatchReports_eq]
            cases r.none <;> simp [lit]

/-- C51: the report about an unfulfilled expectation tells where it was defined, how often it was matched and should have been
matched, and lists the descriptions of all its policies in order. -/
theorem C51_unfulfilled {tr : Trace α} {w w' : World α} (h : Reach tr w) {e : Nat} {ev : List Event}
    (hs : w.step (.destroy e) = .ok (w', ev)) (loc : Nat → Text) :
    ∃ b, w.unfulfilledText loc e = .ok (lit "Unfulfilled expectation:\n" ++ b ++ lit "\n") ∧ tr.expectationText loc e b := by
  have hl : ∃ x, w.exps[e]? = some x ∧ x.alive = true := by
    simp only [World.step, World.destroyExp] at hs
    cases hx : w.exps[e]? with
    | none => rw [hx] at hs; simp at hs
    | some x =>
      rw [hx] at hs
      simp only at hs
      cases ha : x.alive with
      | false => simp [ha] at hs
      | true => exact ⟨x, rfl, ha⟩
  obtain ⟨x, hx, ha⟩ := hl
  obtain ⟨r, hr, ht⟩ := report_text h loc hx ha
  refine ⟨_, ?_, ht⟩
  simp [World.unfulfilledText, World.deref, hx, ha, hr, stringifyUnfulfilled, bind, Except.bind, pure, Except.pure]

/-! ## C52 -/

/-- C52 (negation): a call with an argument that is, or contains, a null pointer to characters or a pointer to characters that
are not terminated, is undefined behaviour, whatever the expectations are and even if one of them resolves it. -/
theorem C52_char_pointer {tr : Trace α} {w : World α} (h : Reach tr w) {m : Nat} (hm : Event.mockCreated m ∈ tr.events) (a : α)
    (loc : Nat → Text) (what : Nat → Option Text) (c : CallDetails) (hb : ∃ p ∈ c.args, p.2.badString) :
    ∃ why, w.callTexts loc what c m a = .error (.ub why) := by
  obtain ⟨y, hy⟩ := makeArgs_bad hb
  have hrep : c.report = .error (.ub y) := by simp [CallDetails.report, hy, bind, Except.bind]
  obtain ⟨w', ev, hs⟩ := C10_total h a hm
  simp only [World.step, World.handleCall, bind, Except.bind, pure, Except.pure] at hs
  unfold World.callTexts
  cases hm : w.colls[m]? with
  | none => rw [hm] at hs; simp at hs
  | some es =>
    rw [hm] at hs
    simp only at hs
    cases hscan : scan w a es.reverse with
    | error x => rw [hscan] at hs; simp at hs
    | ok r =>
      rw [hscan] at hs
      simp only [bind, Except.bind, pure, Except.pure, hscan] at hs ⊢
      cases hth : r.thrown with
      | cons e rest => exact ⟨y, by simp [World.unhandledTexts, hrep, bind, Except.bind]⟩
      | nil =>
        simp only [World.unhandledTexts, hrep]
        by_cases hfull : (!r.full.isEmpty) = true
        · rw [if_pos hfull] at hs ⊢
          cases hb : pickBestMatch r.full with
          | error x => rw [hb] at hs; simp at hs
          | ok best => exact ⟨y, rfl⟩
        · rw [if_neg hfull]
          split <;> exact ⟨y, rfl⟩

/-- C52: all other calls are reported. -/
theorem C52_partial {tr : Trace α} {w : World α} (h : Reach tr w) {m : Nat} (hm : Event.mockCreated m ∈ tr.events) (a : α)
    (loc : Nat → Text) (what : Nat → Option Text) (c : CallDetails) (hb : ∀ p ∈ c.args, ¬ p.2.badString) :
    ∃ texts, w.callTexts loc what c m a = .ok texts := by
  obtain ⟨w', ev, hs⟩ := C10_total h a hm
  have key : ∀ args : List (Text × Val), (∀ p ∈ args, ¬ p.2.badString) →
      ∃ ts : List (Text × Text), ts.map (fun p => (p.1, (.ok p.2 : M Text))) = args.map (fun p => (p.1, print p.2)) := by
    intro args
    induction args with
    | nil => intro _; exact ⟨[], rfl⟩
    | cons p args ih =>
      intro hb
      obtain ⟨ts, hts⟩ := ih (fun q hq => hb q (by simp [hq]))
      obtain ⟨t, ht⟩ := (print_defined p.2).1 (hb p (by simp))
      exact ⟨(p.1, t) :: ts, by simp [ht, hts]⟩
  obtain ⟨ts, hts⟩ := key c.args hb
  obtain ⟨texts, h1, _⟩ := C51_call h hs loc what hts
  exact ⟨texts, h1⟩

namespace ReportExamples

/-- A policy with a description. -/
def onlyFive : Policy Nat := ⟨fun n => some (n == 5), true, some "expect: arg[0] == 5"⟩

/-- A world with two expectations, one of which is not in turn. -/
def ops : List (Op Nat) :=
  [.newMock, .newSequence .lazy, .expect 0 2 2 [0] [], .expect 0 1 3 [0] [onlyFive], .call 0 7]

def info : CallDetails :=
  { loc := lit "test.cpp[3:5], main", constness := lit "any", category := lit "any", returnType := lit "void",
    args := [(lit "int", .int 5)] }

set_option maxRecDepth 20000 in
example : ((World.final ops).1.callTexts (fun e => lit "L" ++ decimal e) (fun _ => none) info 0 6) = .ok
    [lit ("Found match for call from test.cpp[3:5], main\nconstness: any\nvalue category: any\nreturn type: void\nargs:\n" ++
      "\targ[0]: {\n\t\ttype: int,\n\t\tvalue: 5\n\t},\n\nMatched expectation: {\nfrom: L0\n}\n\n")] := rfl

set_option maxRecDepth 20000 in
example : ((World.final (ops ++ [.call 0 1])).1.callTexts (fun e => lit "L" ++ decimal e) (fun _ => none) info 0 6) = .ok
    [lit ("No applicable match for call from test.cpp[3:5], main\nconstness: any\nvalue category: any\nreturn type: void\nargs:\n" ++
      "\targ[0]: {\n\t\ttype: int,\n\t\tvalue: 5\n\t},\n\nTested expectations:\n" ++
      "Inapplicable, but otherwise matched expectation: {\nreason: already saturated (matched twice),\n" ++
      "\tand is part of 1 sequence(s).\nfrom: L0\n}\n\n")] := rfl

set_option maxRecDepth 20000 in
example : (World.final ops).1.unfulfilledText (fun e => lit "L" ++ decimal e) 1 = .ok
    (lit ("Unfulfilled expectation:\nExpectation report:\nfrom: L1\ntimes: matched never - between 1 and 3 times is expected,\n" ++
      "\tbut is not the current element of 1 sequence(s) (1 total).\nexpects:\n\texpect: arg[0] == 5,\n\n")) := rfl

/-- The hypotheses of C51 and C52 are met by this history. -/
example : ∃ w' ev, (World.final ops).1.step (.call 0 6) = .ok (w', ev) := ⟨_, _, rfl⟩
example : Reach (World.final ops).2 (World.final ops).1 := reach_final ops
example : Event.mockCreated 0 ∈ (World.final ops).2.events := by decide
example : (lit "int", Val.cstring .null).2.badString := by simp [Val.badString]
example : [(lit "int", lit "5")].map (fun p => (p.1, (.ok p.2 : M Text))) = info.args.map (fun p => (p.1, print p.2)) := rfl

end ReportExamples

end Mimic
