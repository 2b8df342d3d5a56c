import Verif.Proofs.Language

/-!
# C75: A test with one sequence is a pattern for calls

Any number of expectations for any number of mocks, all in one sequence and nothing else; then any calls; then everything
ends, in any order. The test passes only if the calls are a word of the regular expression that the expectations spell, and
then always if it is clear for each call which expectation is meant.
-/

set_option autoImplicit false

namespace Mimic.Language

variable {α : Type}

/-- What the theorems below assume about a test: legal limits, policies that are content (as all policies of the library
are), the end of everything. -/
structure Proper (parts : List (Part α)) (ends : List (Op α)) : Prop where
  limits : ∀ p ∈ parts, 0 ≤ p.min ∧ p.min ≤ p.max
  content : ∀ p ∈ parts, ∀ q ∈ p.policies, q.isSatisfied = true
  ends : ends.Perm (allEnds parts)

/-- C75: the test passes iff the calls are accepted one after the other: by staying at the expectation if possible (lazy
sequences), or by going on to another one if possible (greedy sequences). -/
theorem C75_accepted {st : Strategy} {mocks : Nat} {parts : List (Part α)} {calls : List (Nat × α)} {ends : List (Op α)}
    (hp : Proper parts ends) {w : World α} {evs : List Event}
    (h : runProgram (test st mocks parts calls ends) = .ok (w, evs)) :
    passes evs ↔ accepted st 0 parts calls = true := by
  obtain ⟨tr, hr, h1, h2⟩ := (runProgram_iff _ _ _).mp h
  exact test_spec hp.limits hp.content hp.ends (by rw [← h1, ← h2]; exact reach_spec_run hr)

/-- C75: if the test passes, the calls are a word of the regular expression. -/
theorem C75_word {st : Strategy} {mocks : Nat} {parts : List (Part α)} {calls : List (Nat × α)} {ends : List (Op α)}
    (hp : Proper parts ends) {w : World α} {evs : List Event}
    (h : runProgram (test st mocks parts calls ends) = .ok (w, evs)) (ht : passes evs) : Word parts calls :=
  accepted_sound (fun p hm => by have := hp.limits p hm; omega) ((C75_accepted hp h).mp ht)

/-- C75: if no call fits two expectations, the test passes iff the calls are a word of the regular expression, whatever the
kind of the sequence. -/
theorem C75_unambiguous {st : Strategy} {mocks : Nat} {parts : List (Part α)} {calls : List (Nat × α)}
    {ends : List (Op α)} (hp : Proper parts ends) (hu : Unambiguous parts calls) {w : World α} {evs : List Event}
    (h : runProgram (test st mocks parts calls ends) = .ok (w, evs)) : passes evs ↔ Word parts calls :=
  ⟨C75_word hp h, fun hw => (C75_accepted hp h).mpr (word_accepted hw hu)⟩

/-- C75: with a lazy sequence, the test passes iff the calls match the regular expression with possessive quantifiers. -/
theorem C75_lazy {mocks : Nat} {parts : List (Part α)} {calls : List (Nat × α)} {ends : List (Op α)}
    (hp : Proper parts ends) {w : World α} {evs : List Event}
    (h : runProgram (test .lazy mocks parts calls ends) = .ok (w, evs)) : passes evs ↔ possessive parts calls = true := by
  rw [C75_accepted hp h, accepted_possessive]

/-- The library does run such a test to its end, if the mocks exist, the limits are `int`s, and the sequence can count its
expectations. -/
theorem C75_runs {st : Strategy} {mocks : Nat} {parts : List (Part α)} {calls : List (Nat × α)} {ends : List (Op α)}
    (hp : Proper parts ends) (hm : ∀ p ∈ parts, p.mock < mocks) (hc : ∀ c ∈ calls, c.1 < mocks)
    (hi : ∀ p ∈ parts, p.max ≤ intMax) (hn : (parts.length : Int) ≤ intMax) :
    ∃ w evs, runProgram (test st mocks parts calls ends) = .ok (w, evs) := by
  obtain ⟨S, evs, h⟩ := test_exists (st := st) hp.limits hp.ends hm hc hi
  refine run_exists Reach.init (by rw [abs_init]; exact h) ?_
  have : (test st mocks parts calls ends).countP isExpect = parts.length := test_expects hp.ends
  rw [this]
  simp only [abs_init, Spec.State.init, List.length_nil]
  omega

/-- An expectation that accepts the numbers from `a` to `b`. -/
def between (mock : Nat) (min max : Int) (a b : Nat) : Part Nat :=
  ⟨mock, min, max, [{ accepts := fun x => some (decide (a ≤ x ∧ x ≤ b)) }]⟩

/-- What is reported. -/
def reports (p : List (Op Nat)) : Option (List Event) := (runProgram p).toOption.map (·.2)

theorem reports_run {p : List (Op Nat)} {evs : List Event} (h : reports p = some evs) : ∃ w, runProgram p = .ok (w, evs) := by
  unfold reports at h
  cases hr : runProgram p with
  | error x => rw [hr] at h; cases h
  | ok r =>
    rw [hr] at h
    simp only [Except.toOption, Option.map_some, Option.some.injEq] at h
    exact ⟨r.1, by rw [← h]⟩

/-- C75 needs a condition: neither kind of sequence tries all possibilities. With a lazy sequence, `x{0,1} x{1,1}` does
not accept a single `x`; with a greedy one, `x{0,2} x{0,1}` does not accept two. -/
theorem C75_counterexample :
    (∃ (parts : List (Part Nat)) (calls : List (Nat × Nat)) (ends : List (Op Nat)) (w : World Nat) (evs : List Event),
      Proper parts ends ∧ runProgram (test .lazy 1 parts calls ends) = .ok (w, evs) ∧ Word parts calls ∧ ¬ passes evs) ∧
    (∃ (parts : List (Part Nat)) (calls : List (Nat × Nat)) (ends : List (Op Nat)) (w : World Nat) (evs : List Event),
      Proper parts ends ∧ runProgram (test .greedy 1 parts calls ends) = .ok (w, evs) ∧ Word parts calls ∧
      ¬ passes evs) := by
  have hpr : ∀ (a b c d : Int), 0 ≤ a ∧ a ≤ b → 0 ≤ c ∧ c ≤ d →
      Proper [between 0 a b 1 1, between 0 c d 1 1] (allEnds [between 0 a b 1 1, between 0 c d 1 1]) := by
    intro a b c d h1 h2
    exact ⟨by simpa [between] using ⟨h1, h2⟩, by simp [between], .refl _⟩
  constructor
  · obtain ⟨w, hw⟩ := reports_run (p := test .lazy 1 [between 0 0 1 1 1, between 0 1 1 1 1] [(0, 1)]
      (allEnds [between 0 0 1 1 1, between 0 1 1 1 1])) (evs := [.sequenceCreated 0 .lazy, .mockCreated 0, .created 0, .created 1,
        .fullMatch 0, .destroyed 0, .destroyed 1, .unfulfilled 1, .sequenceError 0 1 2, .sequenceDestroyed 0]) (by decide +kernel)
    refine ⟨_, _, _, w, _, hpr 0 1 1 1 (by decide) (by decide), hw, ?_, ?_⟩
    · exact .cons (block := []) (by decide) (by decide) (by simp)
        (.cons (block := [(0, 1)]) (rest := []) (by decide) (by decide) (by decide) .nil)
    · intro h
      have := h (.unfulfilled 1) (by decide)
      simp [failure] at this
  · obtain ⟨w, hw⟩ := reports_run (p := test .greedy 1 [between 0 0 2 1 1, between 0 0 1 1 1] [(0, 1), (0, 1)]
      (allEnds [between 0 0 2 1 1, between 0 0 1 1 1])) (evs := [.sequenceCreated 0 .greedy, .mockCreated 0, .created 0, .created 1,
        .fullMatch 1, .inapplicable [1, 0], .destroyed 0, .destroyed 1, .sequenceDestroyed 0]) (by decide +kernel)
    refine ⟨_, _, _, w, _, hpr 0 2 0 1 (by decide) (by decide), hw, ?_, ?_⟩
    · exact .cons (block := [(0, 1), (0, 1)]) (by decide) (by decide) (by decide)
        (.cons (block := []) (rest := []) (by decide) (by decide) (by simp) .nil)
    · intro h
      have := h (.inapplicable [1, 0]) (by decide)
      simp [failure] at this

/-- The test of the examples: `a{1,2} b{0,3} a'{1,1}` on two mocks, where `a` and `a'` accept different arguments; the end
is in the order in which C++ ends the life of local variables. -/
def demoParts : List (Part Nat) := [between 0 1 2 0 4, between 1 0 3 0 9, between 0 1 1 5 9]

def demoEnds : List (Op Nat) := [.destroy 2, .destroy 1, .destroy 0, .dropSequence 0]

theorem demo_proper : Proper demoParts demoEnds := by
  refine ⟨by decide, by simp [demoParts, between], ?_⟩
  exact (List.reverse_perm _).symm

/-- Non-vacuity of C75_accepted, C75_word and C75_unambiguous: a word. -/
example : ∃ w evs, runProgram (test .greedy 2 demoParts [(0, 2), (0, 1), (1, 7), (0, 6)] demoEnds) = .ok (w, evs) ∧
    Unambiguous demoParts [(0, 2), (0, 1), (1, 7), (0, 6)] ∧ passes evs ∧
    Word demoParts [(0, 2), (0, 1), (1, 7), (0, 6)] := by
  obtain ⟨w, evs, h⟩ := C75_runs (st := .greedy) (mocks := 2) (calls := [(0, 2), (0, 1), (1, 7), (0, 6)]) demo_proper
    (by decide) (by decide) (by decide) (by decide)
  have hacc : accepted .greedy 0 demoParts [(0, 2), (0, 1), (1, 7), (0, 6)] = true := by decide
  have hp := (C75_accepted demo_proper h).mpr hacc
  exact ⟨w, evs, h, by unfold Unambiguous; decide, hp, C75_word demo_proper h hp⟩

/-- Non-vacuity of C75_unambiguous: not a word, since the last call comes too early. -/
example : ∃ w evs, runProgram (test .lazy 2 demoParts [(0, 2), (0, 6), (1, 7)] demoEnds) = .ok (w, evs) ∧
    Unambiguous demoParts [(0, 2), (0, 6), (1, 7)] ∧ ¬ passes evs ∧ ¬ Word demoParts [(0, 2), (0, 6), (1, 7)] := by
  obtain ⟨w, evs, h⟩ := C75_runs (st := .lazy) (mocks := 2) (calls := [(0, 2), (0, 6), (1, 7)]) demo_proper
    (by decide) (by decide) (by decide) (by decide)
  have hacc : accepted .lazy 0 demoParts [(0, 2), (0, 6), (1, 7)] = false := by decide
  have hu : Unambiguous demoParts [(0, 2), (0, 6), (1, 7)] := by unfold Unambiguous; decide
  have hp : ¬ passes evs := fun hp => by
    have := (C75_accepted demo_proper h).mp hp
    rw [hacc] at this; cases this
  exact ⟨w, evs, h, hu, hp, fun hw => hp ((C75_unambiguous demo_proper hu h).mpr hw)⟩

/-- Non-vacuity of C75_lazy: parts that overlap. -/
example : ∃ w evs, runProgram (test .lazy 1 [between 0 1 2 0 9, between 0 1 5 5 9] [(0, 7), (0, 3), (0, 5)]
      (allEnds [between 0 1 2 0 9, between 0 1 5 5 9])) = .ok (w, evs) ∧
    possessive [between 0 1 2 0 9, between 0 1 5 5 9] [(0, 7), (0, 3), (0, 5)] = true ∧ passes evs := by
  have hp : Proper [between 0 1 2 0 9, between 0 1 5 5 9] (allEnds [between 0 1 2 0 9, between 0 1 5 5 9]) :=
    ⟨by decide, by simp [between], .refl _⟩
  obtain ⟨w, evs, h⟩ := C75_runs (st := .lazy) (mocks := 1) (calls := [(0, 7), (0, 3), (0, 5)]) hp
    (by decide) (by decide) (by decide) (by decide)
  have hc : possessive [between 0 1 2 0 9, between 0 1 5 5 9] [(0, 7), (0, 3), (0, 5)] = true := by decide
  exact ⟨w, evs, h, hc, (C75_lazy hp h).mpr hc⟩

end Mimic.Language
