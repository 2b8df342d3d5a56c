import Verif.Proofs.Several
import Verif.Proofs.SeveralHistory

/-!
# C88: A test asks for numbers of calls and for orders

Any number of sequences of any kinds; any number of expectations for any number of mocks, each in any of the sequences (or in none); then
any calls; then everything ends, in any order. If no call fits two expectations, the test passes iff each expectation gets the calls its
limits ask for, and in each sequence they come in the order in which its expectations were declared.
-/

set_option autoImplicit false

namespace Mimic.Several

variable {α : Type}

/-- What the theorems below assume about a test: legal limits, no sequence is named twice, policies that are content (as all policies of the
library are), the end of everything. -/
structure Proper (kinds : List Strategy) (parts : List (Part α)) (ends : List (Op α)) : Prop where
  limits : ∀ p ∈ parts, 0 ≤ p.min ∧ p.min ≤ p.max
  once : ∀ p ∈ parts, p.seqs.Nodup
  content : ∀ p ∈ parts, ∀ q ∈ p.policies, q.isSatisfied = true
  ends : ends.Perm (allEnds kinds parts)

variable {kinds : List Strategy} {mocks : Nat} {parts : List (Part α)} {calls : List (Nat × α)} {ends : List (Op α)}
  {w : World α} {evs : List Event}

/-- C88: if the test passes, the calls can be distributed over the expectations as wanted. This holds for all tests. -/
theorem C88_distribution (hp : Proper kinds parts ends) (h : runProgram (test kinds mocks parts calls ends) = .ok (w, evs))
    (ht : Language.passes evs) : ∃ who, Distribution parts calls who := by
  obtain ⟨tr, hr, h1, h2⟩ := (runProgram_iff _ _ _).mp h
  exact (test_spec hp.limits hp.once hp.content hp.ends (by rw [← h1, ← h2]; exact Language.reach_spec_run hr)).1 ht

/-- C88: if no call fits two expectations, the test passes iff the calls are as wanted: there is nothing else that a test could require. In
particular the kinds of the sequences do not matter. -/
theorem C88_fulfils (hp : Proper kinds parts ends) (hu : Unambiguous parts calls)
    (h : runProgram (test kinds mocks parts calls ends) = .ok (w, evs)) : Language.passes evs ↔ Fulfils parts calls := by
  obtain ⟨tr, hr, h1, h2⟩ := (runProgram_iff _ _ _).mp h
  have hsp := Language.reach_spec_run hr
  rw [h1, h2] at hsp
  obtain ⟨g1, g2⟩ := test_spec hp.limits hp.once hp.content hp.ends hsp
  rw [← fulfils_iff hu]
  exact ⟨g1, g2 hu⟩

/-- C88: two calls that follow each other can be exchanged if they do not fit different expectations with a sequence in common. -/
theorem C88_exchange {before after : List (Nat × α)} {c d : Nat × α} {w' : World α} {evs' : List Event} (hp : Proper kinds parts ends)
    (hu : Unambiguous parts (before ++ c :: d :: after))
    (hcd : parts.Pairwise (fun p q => share p q = true →
      ¬ (p.takes c = true ∧ q.takes d = true) ∧ ¬ (p.takes d = true ∧ q.takes c = true)))
    (h : runProgram (test kinds mocks parts (before ++ c :: d :: after) ends) = .ok (w, evs))
    (h' : runProgram (test kinds mocks parts (before ++ d :: c :: after) ends) = .ok (w', evs')) :
    Language.passes evs ↔ Language.passes evs' := by
  have hperm : (before ++ c :: d :: after).Perm (before ++ d :: c :: after) := (List.Perm.swap d c after).append_left before
  have hu' : Unambiguous parts (before ++ d :: c :: after) := fun x hx => hu x (hperm.mem_iff.mpr hx)
  rw [C88_fulfils hp hu h, C88_fulfils hp hu' h']
  have key : ∀ {c d : Nat × α}, parts.Pairwise (fun p q => share p q = true →
        ¬ (p.takes c = true ∧ q.takes d = true) ∧ ¬ (p.takes d = true ∧ q.takes c = true)) →
      Fulfils parts (before ++ c :: d :: after) → Fulfils parts (before ++ d :: c :: after) := by
    intro c d hcd hf
    have hperm : (before ++ c :: d :: after).Perm (before ++ d :: c :: after) := (List.Perm.swap d c after).append_left before
    refine ⟨fun x hx => hf.expected x (hperm.mem_iff.mpr hx), ?_, ?_⟩
    · intro p hp
      rw [← hperm.countP_eq]
      exact hf.counts p hp
    · refine (hf.order.and hcd).imp ?_
      rintro p q ⟨h1, h2⟩ hs
      have h3 := h1 hs
      have h4 := (h2 hs).1
      rw [List.pairwise_append, List.pairwise_cons, List.pairwise_cons] at h3 ⊢
      grind
  exact ⟨key hcd, key (hcd.imp fun h hs => ⟨(h hs).2, (h hs).1⟩)⟩

/-- The library does run such a test to its end, if the mocks and sequences exist, the limits are `int`s, and the sequences can count their
expectations. -/
theorem C88_runs (hp : Proper kinds parts ends) (hm : ∀ p ∈ parts, p.mock < mocks)
    (hs : ∀ p ∈ parts, ∀ s ∈ p.seqs, s < kinds.length) (hc : ∀ c ∈ calls, c.1 < mocks)
    (hi : ∀ p ∈ parts, p.max ≤ intMax) (hn : (parts.length : Int) ≤ intMax) :
    ∃ w evs, runProgram (test kinds mocks parts calls ends) = .ok (w, evs) := by
  obtain ⟨S, evs, h⟩ := test_exists (kinds := kinds) hp.limits hp.once hp.ends hm hs hc hi
  refine Language.run_exists Reach.init (by rw [abs_init]; exact h) ?_
  rw [test_expects hp.ends]
  simp only [abs_init, Spec.State.init, List.length_nil]
  omega

/-- C88 for any history, in which expectations, calls and ends may follow each other in any order, for example because of nested scopes: if
every expectation has ended and no call fitted two expectations that were in force, there is no failure iff each call fits an expectation that
is in force then, each expectation gets the calls its limits ask for, and in each sequence the calls come in the order in which its
expectations were declared. -/
theorem C88_history {tr : Trace α} {w : World α} (h : Reach tr w)
    (hend : ∀ e d, tr.decl e = some d → Event.destroyed e ∈ tr.events)
    (hcon : ∀ e d, tr.decl e = some d → ∀ p ∈ d.policies, p.isSatisfied = true)
    (hu : ∀ i e e', Fits tr i e → Fits tr i e' → e = e') :
    Language.passes tr.events ↔ AsWanted tr :=
  ⟨wanted_of_passes h hu hend, passes_of_wanted h hu hcon⟩

/-- An expectation that accepts the numbers from `a` to `b`. -/
def between (mock : Nat) (min max : Int) (seqs : List Nat) (a b : Nat) : Part Nat :=
  ⟨mock, min, max, seqs, [{ accepts := fun x => some (decide (a ≤ x ∧ x ≤ b)) }]⟩

instance (parts : List (Part Nat)) (calls : List (Nat × Nat)) : Decidable (Unambiguous parts calls) := by
  unfold Unambiguous; infer_instance

instance (parts : List (Part Nat)) (calls : List (Nat × Nat)) : Decidable (Fulfils parts calls) :=
  decidable_of_iff ((∀ c ∈ calls, ∃ p ∈ parts, p.takes c = true) ∧
    (∀ p ∈ parts, p.min ≤ (calls.countP p.takes : Int) ∧ (calls.countP p.takes : Int) ≤ p.max) ∧
    parts.Pairwise (fun p q => share p q = true → calls.Pairwise (fun c d => ¬ (q.takes c = true ∧ p.takes d = true))))
    ⟨fun ⟨h1, h2, h3⟩ => ⟨h1, h2, h3⟩, fun ⟨h1, h2, h3⟩ => ⟨h1, h2, h3⟩⟩

/-- What is reported. -/
def reports (p : List (Op Nat)) : Option (List Event) := (runProgram p).toOption.map (·.2)

theorem reports_run {p : List (Op Nat)} {evs : List Event} (h : reports p = some evs) : ∃ w, runProgram p = .ok (w, evs) := by
  unfold reports at h
  cases hr : runProgram p with
  | error x => rw [hr] at h; cases h
  | ok r =>
    rw [hr] at h
    simp only [Except.toOption, Option.map_some, Option.some.injEq] at h
    exact ⟨r.1, by rw [← h]⟩

/-- C88 needs its condition: calls that fit two expectations may be distributed in such a way that the test fails although they could have
been distributed as wanted. Here the library gives the first call to the younger expectation, and then has none for the second call. -/
theorem C88_needed : ∃ (parts : List (Part Nat)) (calls : List (Nat × Nat)) (ends : List (Op Nat)) (w : World Nat) (evs : List Event),
    Proper [] parts ends ∧ runProgram (test [] 1 parts calls ends) = .ok (w, evs) ∧ Distribution parts calls [0, 1] ∧
    ¬ Language.passes evs := by
  obtain ⟨w, hw⟩ := reports_run (p := test [] 1 [between 0 1 1 [] 0 5, between 0 1 1 [] 3 9] [(0, 4), (0, 7)]
    (allEnds [] [between 0 1 1 [] 0 5, between 0 1 1 [] 3 9]))
    (evs := [.mockCreated 0, .created 0, .created 1, .fullMatch 1, .inapplicable [1], .destroyed 0, .unfulfilled 0, .destroyed 1])
    (by decide +kernel)
  refine ⟨_, _, _, w, _, ⟨by decide, by decide, by simp [between], .refl _⟩, hw, ⟨rfl, ?_, ?_, ?_⟩, ?_⟩
  · intro k e c h1 h2
    match k with
    | 0 => simp at h1 h2; subst h1 h2; exact ⟨_, rfl, by decide⟩
    | 1 => simp at h1 h2; subst h1 h2; exact ⟨_, rfl, by decide⟩
    | k + 2 => simp at h1
  · intro e p hp
    match e with
    | 0 => simp at hp; subst hp; decide
    | 1 => simp at hp; subst hp; decide
    | e + 2 => simp at hp
  · intro e e' p p' h1 h2 hlt hs
    match e, e' with
    | 0, 1 => simp at h1 h2; subst h1 h2; revert hs; decide
    | 0, e' + 2 => simp at h2
    | 1, e' + 2 => simp at h2
    | e + 2, _ => simp at h1
    | 0, 0 => omega
    | 1, 0 => omega
    | 1, 1 => omega
  · intro h
    have := h (.inapplicable [1]) (by decide)
    simp [Language.failure] at this

/-- The test of the examples: two mocks, two sequences of different kinds; the third expectation is in both sequences, the last in none. -/
def demoParts : List (Part Nat) :=
  [between 0 1 2 [0] 0 4, between 1 1 1 [1] 0 4, between 0 1 1 [0, 1] 5 9, between 1 0 2 [1] 5 9, between 0 0 3 [] 10 19]

def demoEnds : List (Op Nat) :=
  [.destroy 4, .destroy 3, .destroy 2, .destroy 1, .destroy 0, .dropSequence 1, .dropSequence 0]

theorem demo_proper : Proper [.lazy, .greedy] demoParts demoEnds := by
  refine ⟨by decide, by decide, by simp [demoParts, between], ?_⟩
  refine .trans ?_ (List.reverse_perm _)
  exact .refl _

/-- Calls as wanted: the calls of the two sequences are interleaved. -/
def goodCalls : List (Nat × Nat) := [(1, 3), (0, 12), (0, 2), (0, 1), (0, 12), (0, 6), (1, 7)]

/-- The third expectation gets its call before the second one, which is needed first in the second sequence. -/
def badCalls : List (Nat × Nat) := [(0, 2), (0, 6), (1, 3)]

/-- Non-vacuity of C88_distribution and C88_fulfils: a test that passes. -/
example : ∃ w evs, runProgram (test [.lazy, .greedy] 2 demoParts goodCalls demoEnds) = .ok (w, evs) ∧
    Unambiguous demoParts goodCalls ∧ Language.passes evs := by
  obtain ⟨w, evs, h⟩ := C88_runs (mocks := 2) (calls := goodCalls) demo_proper (by decide) (by decide) (by decide) (by decide) (by decide)
  exact ⟨w, evs, h, by decide, (C88_fulfils demo_proper (by decide) h).mpr (by decide)⟩

/-- Non-vacuity of C88_fulfils: a test that fails. -/
example : ∃ w evs, runProgram (test [.lazy, .greedy] 2 demoParts badCalls demoEnds) = .ok (w, evs) ∧
    Unambiguous demoParts badCalls ∧ ¬ Language.passes evs := by
  obtain ⟨w, evs, h⟩ := C88_runs (mocks := 2) (calls := badCalls) demo_proper (by decide) (by decide) (by decide) (by decide) (by decide)
  exact ⟨w, evs, h, by decide, fun hp => absurd ((C88_fulfils demo_proper (by decide) h).mp hp) (by decide)⟩

/-- Non-vacuity of C88_exchange: the first expectation of the one sequence and the first of the other. -/
example : ∃ w evs w' evs', runProgram (test [.lazy, .greedy] 2 demoParts ([] ++ (1, 3) :: (0, 2) :: [(0, 6)]) demoEnds) = .ok (w, evs) ∧
    runProgram (test [.lazy, .greedy] 2 demoParts ([] ++ (0, 2) :: (1, 3) :: [(0, 6)]) demoEnds) = .ok (w', evs') ∧
    Language.passes evs ∧ Language.passes evs' := by
  obtain ⟨w, evs, h⟩ := C88_runs (mocks := 2) (calls := [] ++ (1, 3) :: (0, 2) :: [(0, 6)]) demo_proper
    (by decide) (by decide) (by decide) (by decide) (by decide)
  obtain ⟨w', evs', h'⟩ := C88_runs (mocks := 2) (calls := [] ++ (0, 2) :: (1, 3) :: [(0, 6)]) demo_proper
    (by decide) (by decide) (by decide) (by decide) (by decide)
  have hp := (C88_fulfils demo_proper (by decide) h).mpr (by decide)
  exact ⟨w, evs, w', evs', h, h', hp, (C88_exchange demo_proper (by decide) (by decide) h h').mp hp⟩

/-- A policy that accepts one number. -/
def wants (n : Nat) : Policy Nat := { accepts := fun a => some (decide (a = n)) }

/-- A history with an inner scope: the second expectation is declared after the first call and ends before the last one. -/
def scopes : Trace Nat :=
  [(.newMock, [.mockCreated 0]), (.newSequence .lazy, [.sequenceCreated 0 .lazy]), (.expect 0 1 2 [] [wants 0], [.created 0]),
    (.expect 0 1 1 [0] [wants 1], [.created 1]), (.call 0 1, [.fullMatch 1]), (.expect 0 1 1 [0] [wants 2], [.created 2]),
    (.call 0 2, [.fullMatch 2]), (.destroy 2, [.destroyed 2]), (.dropSequence 0, []), (.call 0 0, [.fullMatch 0]),
    (.destroy 1, [.destroyed 1, .sequenceDestroyed 0]), (.destroy 0, [.destroyed 0])]

/-- The same with the calls of the sequence in the wrong order. -/
def scopes' : Trace Nat :=
  [(.newMock, [.mockCreated 0]), (.newSequence .lazy, [.sequenceCreated 0 .lazy]), (.expect 0 1 2 [] [wants 0], [.created 0]),
    (.expect 0 1 1 [0] [wants 1], [.created 1]), (.expect 0 1 1 [0] [wants 2], [.created 2]),
    (.call 0 2, [.inapplicable [2]]), (.call 0 1, [.fullMatch 1]), (.destroy 2, [.destroyed 2, .unfulfilled 2]), (.dropSequence 0, []),
    (.call 0 0, [.fullMatch 0]), (.destroy 1, [.destroyed 1, .sequenceError 0 1 2, .sequenceDestroyed 0]), (.destroy 0, [.destroyed 0])]

/-- What the declarations of both histories are. -/
def scopesDecl (e : Nat) : Option (Decl Nat) :=
  if e = 0 then some ⟨0, 1, 2, [], [wants 0]⟩ else if e = 1 then some ⟨0, 1, 1, [0], [wants 1]⟩ else
    if e = 2 then some ⟨0, 1, 1, [0], [wants 2]⟩ else none

theorem scopes_decl (e : Nat) : scopes.decl e = scopesDecl e := by
  by_cases h0 : e = 0
  · subst h0; rfl
  · by_cases h1 : e = 1
    · subst h1; rfl
    · by_cases h2 : e = 2
      · subst h2; rfl
      · simp [scopes, scopesDecl, Trace.decl, h0, h1, h2]

theorem scopes_decl' (e : Nat) : scopes'.decl e = scopesDecl e := by
  by_cases h0 : e = 0
  · subst h0; rfl
  · by_cases h1 : e = 1
    · subst h1; rfl
    · by_cases h2 : e = 2
      · subst h2; rfl
      · simp [scopes', scopesDecl, Trace.decl, h0, h1, h2]

theorem scopes_cases {e : Nat} {d : Decl Nat} (h : scopesDecl e = some d) :
    e < 3 ∧ d.policies = [wants e] := by
  unfold scopesDecl at h
  grind

theorem scopes_unambiguous {tr : Trace Nat} (h : ∀ e, tr.decl e = scopesDecl e) (i e e' : Nat) (h1 : Fits tr i e) (h2 : Fits tr i e') :
    e = e' := by
  have key : ∀ (e m a : Nat), Trace.accepts (tr.take i) m a e → a = e := by
    rintro e m a ⟨-, d, hd, -, hp⟩
    have hd' := decl_mono (tr' := tr.drop i) hd
    rw [List.take_append_drop, h] at hd'
    rw [(scopes_cases hd').2] at hp
    simpa [wants] using hp
  obtain ⟨m, a, ev, h3, h4⟩ := h1
  obtain ⟨m', a', ev', h5, h6⟩ := h2
  rw [h3] at h5
  simp only [Option.some.injEq, Prod.mk.injEq, Op.call.injEq] at h5
  obtain ⟨⟨rfl, rfl⟩, rfl⟩ := h5
  rw [← key e m a h4, ← key e' m a h6]

/-- Non-vacuity of C88_history: a history that is as wanted, and one that is not. -/
example : (∃ w, Reach scopes w) ∧ Language.passes scopes.events ∧ AsWanted scopes := by
  have hr : Reach scopes (World.final (scopes.map Prod.fst)).1 := reach_final (scopes.map Prod.fst)
  have hp : Language.passes scopes.events := by unfold Language.passes; decide
  refine ⟨⟨_, hr⟩, hp, (C88_history hr ?_ ?_ (scopes_unambiguous scopes_decl)).mp hp⟩
  · intro e d hd
    rw [scopes_decl] at hd
    have := (scopes_cases hd).1
    match e, this with
    | 0, _ => decide
    | 1, _ => decide
    | 2, _ => decide
  · intro e d hd p hp
    rw [scopes_decl] at hd
    rw [(scopes_cases hd).2, List.mem_singleton] at hp
    subst hp; rfl

example : (∃ w, Reach scopes' w) ∧ ¬ Language.passes scopes'.events ∧ ¬ AsWanted scopes' := by
  have hr : Reach scopes' (World.final (scopes'.map Prod.fst)).1 := reach_final (scopes'.map Prod.fst)
  have hp : ¬ Language.passes scopes'.events := by unfold Language.passes; decide
  refine ⟨⟨_, hr⟩, hp, fun hw => hp ((C88_history hr ?_ ?_ (scopes_unambiguous scopes_decl')).mpr hw)⟩
  · intro e d hd
    rw [scopes_decl'] at hd
    have := (scopes_cases hd).1
    match e, this with
    | 0, _ => decide
    | 1, _ => decide
    | 2, _ => decide
  · intro e d hd p hp
    rw [scopes_decl'] at hd
    rw [(scopes_cases hd).2, List.mem_singleton] at hp
    subst hp; rfl

end Mimic.Several
