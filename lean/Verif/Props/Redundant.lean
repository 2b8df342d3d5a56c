import Verif.Proofs.Redundant
import Verif.Props.Selection

/-!
# C108: sequences that repeat others
-/

set_option autoImplicit false

namespace Mimic.Redundant

open Mimic.Bystander (decl_split)

variable {α : Type}

/-- C108, exactly: a sequence can be left out of a test if and only if all calls are resolved by the expectations that would be chosen without it, and
those that are not resolved could not be resolved without it. Everything else happens as before, apart from what is reported about that sequence
itself. -/
theorem C108_exactly {tr : Trace α} {w : World α} (h : Reach tr w) {t : Nat} (hc : NamedOnce tr t) :
    (∃ w', Reach (without t tr) w') ↔ SameChoice tr t :=
  ⟨fun ⟨_, h'⟩ => converse h hc (Whole.reach_lawful h'), fun hw => Whole.lawful_reach (main h hc hw).1⟩

/-- C108: a sequence that repeats another one, or only has expectations of which every two belong to another sequence together, decides nothing but
which one of the expectations that could resolve a call does so. -/
theorem C108_applicable {tr : Trace α} {t : Nat} (hv : Covered tr t) (m : Nat) (a : α) (e : Nat) :
    candidateWithout tr t m a e ↔ tr.candidate m a e := by rw [hv.candidate]

/-- A sequence all of whose expectations belong to another one, too, or that has no more than one, is such a sequence. -/
theorem C108_covered {tr : Trace α} {t : Nat} (h : (∃ s, Repeats tr t s) ∨ ∀ e e', tr.attached e t → tr.attached e' t → e = e') :
    Covered tr t := by
  rcases h with ⟨s, h⟩ | h
  · exact h.covered
  · exact fun e e' hne he he' => absurd (h e e' he he') hne

/-- C108: if all sequences of a test are greedy ones, a sequence of which every two expectations belong to another sequence together can be left
out. -/
theorem C108_greedy_partial {tr : Trace α} {w : World α} (h : Reach tr w) {t : Nat} (hv : Covered tr t) (hc : NamedOnce tr t)
    (hg : ∀ u, ¬ tr.kind u .lazy) : ∃ w', Reach (without t tr) w' := by
  refine (C108_exactly h hc).2 (SameWay.choice (Whole.reach_lawful h) hv ?_)
  intro pre m a ev post htr x y _ _ _
  have hz : ∀ ss, pre.kindCount ss .lazy = 0 := by
    intro ss
    unfold Trace.kindCount
    rw [List.countP_eq_zero]
    intro u _ hu
    simp only [decide_eq_true_eq] at hu
    refine hg u ?_
    unfold Trace.kind
    rw [htr]
    simp only [Trace.events, List.flatMap_append, List.mem_append]
    exact .inl hu
  constructor
  · rintro ⟨d, -, -, h1⟩
    rw [hz] at h1
    omega
  · rintro ⟨d, -, -, h1⟩
    rw [hz] at h1
    omega

theorem attached_kind {tr : Trace α} {w : World α} (h : Reach tr w) {e s : Nat} (ha : tr.attached e s) : ∃ st, tr.kind s st := by
  obtain ⟨d, hd, hs⟩ := ha
  obtain ⟨pre, ev, post, htr, -⟩ := decl_split hd
  obtain ⟨⟨st, hst⟩, -⟩ := (Whole.reach_lawful h pre _ ev post htr).1.2.1 s hs
  refine ⟨st, ?_⟩
  unfold Trace.kind Trace.events at hst ⊢
  rw [htr, List.flatMap_append, List.mem_append]
  exact .inl hst

theorem kind_of_prefix {pre post : Trace α} {s : Nat} {st : Strategy} (h : pre.kind s st) : Trace.kind (pre ++ post) s st := by
  unfold Trace.kind Trace.events at h ⊢
  rw [List.flatMap_append, List.mem_append]
  exact .inl h

theorem filter_same {t : Nat} {ss : List Nat} (h : t ∉ ss) : ss.filter (· ≠ t) = ss := by
  rw [List.filter_eq_self]
  intro u hu
  simp only [decide_eq_true_eq]
  rintro rfl
  exact h hu

/-- If the expectations of `t` have sequences of one kind only, they give way to the same others without `t`. -/
theorem way_of_uniform {pre : Trace α} {w : World α} (h : Reach pre w) {t s : Nat} (hr : Repeats pre t s) (hr' : Repeats pre s t)
    (hk : ∀ e, pre.attached e t → ∃ st, ∀ u st', pre.attached e u → pre.kind u st' → st' = st) (x y : Nat) :
    pre.givesWay x y ↔ givesWayWithout pre t x y := by
  unfold Trace.givesWay givesWayWithout
  refine exists_congr fun d => and_congr_right fun hd => ?_
  by_cases ht : t ∈ d.seqs
  · have hs : s ∈ d.seqs := by
      obtain ⟨d', h1, h2⟩ := hr.2 x ⟨d, hd, ht⟩
      rw [hd] at h1
      cases h1
      exact h2
    obtain ⟨st, hst⟩ := hk x ⟨d, hd, ht⟩
    have hkind : ∀ u ∈ d.seqs, pre.kind u st := by
      intro u hu
      obtain ⟨st', hst'⟩ := attached_kind h ⟨d, hd, hu⟩
      rwa [hst u st' ⟨d, hd, hu⟩ hst'] at hst'
    have hzero : ∀ st', st' ≠ st → ∀ ss, (∀ u ∈ ss, u ∈ d.seqs) → pre.kindCount ss st' = 0 := by
      intro st' hne ss hss
      unfold Trace.kindCount
      rw [List.countP_eq_zero]
      intro u hu hk'
      exact hne (hst u st' ⟨d, hd, hss u hu⟩ (by simpa [Trace.kind] using hk'))
    have hpos : ∀ ss, s ∈ ss → 0 < pre.kindCount ss st := by
      intro ss hss
      unfold Trace.kindCount
      rw [List.countP_pos_iff]
      exact ⟨s, hss, by simpa [Trace.kind] using hkind s hs⟩
    have hf : ∀ u ∈ d.seqs.filter (· ≠ t), u ∈ d.seqs := fun u hu => (List.mem_filter.mp hu).1
    have hsf : s ∈ d.seqs.filter (· ≠ t) := by rw [List.mem_filter]; exact ⟨hs, by simpa using hr.1⟩
    apply and_congr
    · constructor
      · exact fun h1 u hu _ => h1 u hu
      · intro h1 u hu
        by_cases hut : u = t
        · subst hut
          exact hr'.2 y (h1 s hs hr.1)
        · exact h1 u hu hut
    · cases st with
      | lazy =>
        rw [hzero .greedy (by decide) _ (fun u hu => hu), hzero .greedy (by decide) _ hf]
        exact ⟨fun _ => hpos _ hsf, fun _ => hpos _ hs⟩
      | greedy =>
        rw [hzero .lazy (by decide) _ (fun u hu => hu), hzero .lazy (by decide) _ hf]
        omega
  · rw [filter_same ht]
    apply and_congr _ Iff.rfl
    exact ⟨fun h1 u hu _ => h1 u hu, fun h1 u hu => h1 u hu (fun hut => ht (hut ▸ hu))⟩

/-- C108: of two sequences with the same expectations, one can be left out if none of these expectations belongs to lazy as well as to greedy
sequences. -/
theorem C108_twins_partial {tr : Trace α} {w : World α} (h : Reach tr w) {t s : Nat} (hr : Repeats tr t s) (hr' : Repeats tr s t)
    (hc : NamedOnce tr t) (hk : ∀ e, tr.attached e t → ∃ st, ∀ u st', tr.attached e u → tr.kind u st' → st' = st) :
    ∃ w', Reach (without t tr) w' := by
  refine (C108_exactly h hc).2 (SameWay.choice (Whole.reach_lawful h) hr.covered ?_)
  intro pre m a ev post htr x y _ _ _
  subst htr
  obtain ⟨w0, h0⟩ := Whole.lawful_reach (Whole.lawful_prefix (Whole.reach_lawful h))
  refine way_of_uniform h0 hr.of_prefix hr'.of_prefix ?_ x y
  intro e he
  obtain ⟨st, hst⟩ := hk e (attached_of_prefix he)
  exact ⟨st, fun u st' hu hu' => hst u st' (attached_of_prefix hu) (kind_of_prefix hu')⟩

/-- C108: a sequence with a single expectation, which belongs to no other sequence, can be left out. -/
theorem C108_single_partial {tr : Trace α} {w : World α} (h : Reach tr w) {t : Nat} (hc : NamedOnce tr t)
    (h1 : ∀ e e', tr.attached e t → tr.attached e' t → e = e') (h2 : ∀ e s, tr.attached e t → tr.attached e s → s = t) :
    ∃ w', Reach (without t tr) w' := by
  refine (C108_exactly h hc).2 (SameWay.choice (Whole.reach_lawful h) (C108_covered (.inr h1)) ?_)
  intro pre m a ev post htr x y _ _ hlt
  subst htr
  unfold Trace.givesWay givesWayWithout
  refine exists_congr fun d => and_congr_right fun hd => ?_
  by_cases ht : t ∈ d.seqs
  · constructor
    · rintro ⟨h3, -⟩
      have := h1 y x (attached_of_prefix (h3 t ht)) (attached_of_prefix ⟨d, hd, ht⟩)
      omega
    · rintro ⟨-, h3⟩
      have : d.seqs.filter (· ≠ t) = [] := by
        rw [List.filter_eq_nil_iff]
        intro u hu
        simp [h2 x u (attached_of_prefix ⟨d, hd, ht⟩) (attached_of_prefix ⟨d, hd, hu⟩)]
      rw [this] at h3
      simp [Trace.kindCount] at h3
  · rw [filter_same ht]
    apply and_congr _ Iff.rfl
    exact ⟨fun h1 u hu _ => h1 u hu, fun h1 u hu => h1 u hu (fun hut => ht (hut ▸ hu))⟩

/-! ### What does not hold -/

/-- Two lazy sequences; the second one repeats a part of the first one. -/
def part : Trace Unit :=
  [(.newMock, [.mockCreated 0]), (.newSequence .lazy, [.sequenceCreated 0 .lazy]), (.newSequence .lazy, [.sequenceCreated 1 .lazy]),
   (.expect 0 0 1 [0] [], [.created 0]), (.expect 0 0 1 [0, 1] [], [.created 1]), (.call 0 (), [.fullMatch 1])]

def part' : Trace Unit :=
  [(.newMock, [.mockCreated 0]), (.newSequence .lazy, [.sequenceCreated 0 .lazy]), (.expect 0 0 1 [0] [], [.created 0]),
   (.expect 0 0 1 [0] [], [.created 1]), (.call 0 (), [.fullMatch 0])]

/-- Two lazy sequences with the same expectations, and a greedy one. -/
def votes : Trace Unit :=
  [(.newMock, [.mockCreated 0]), (.newSequence .lazy, [.sequenceCreated 0 .lazy]), (.newSequence .lazy, [.sequenceCreated 1 .lazy]),
   (.newSequence .greedy, [.sequenceCreated 2 .greedy]), (.expect 0 0 1 [0, 1, 2] [], [.created 0]), (.expect 0 0 1 [0, 1, 2] [], [.created 1]),
   (.call 0 (), [.fullMatch 0])]

def votes' : Trace Unit :=
  [(.newMock, [.mockCreated 0]), (.newSequence .lazy, [.sequenceCreated 0 .lazy]), (.newSequence .greedy, [.sequenceCreated 1 .greedy]),
   (.expect 0 0 1 [0, 1] [], [.created 0]), (.expect 0 0 1 [0, 1] [], [.created 1]), (.call 0 (), [.fullMatch 1])]

/-- All declarations in a history name the second sequence only together with the first one. -/
theorem repeats_of {tr : Trace Unit} {t s : Nat} (hne : s ≠ t)
    (h : ∀ m min max ss ps ev, (Op.expect m min max ss ps, ev) ∈ tr → t ∈ ss → s ∈ ss) : Repeats tr t s := by
  refine ⟨hne, ?_⟩
  rintro e ⟨d, hd, ht⟩
  obtain ⟨pre, ev, post, htr, -⟩ := decl_split hd
  exact ⟨d, hd, h d.mock d.min d.max d.seqs d.policies ev (by rw [htr]; simp) ht⟩

/-- C108 does not hold for lazy sequences of which one repeats a part of the other. -/
theorem C108_part : (∃ w, Reach part w) ∧ Repeats part 1 0 ∧ NamedOnce part 1 ∧ (∀ u, ¬ part.kind u .greedy) ∧
    (∃ w, Reach part' w) ∧ part'.map (·.1) = (without 1 part).map (·.1) ∧ ¬ ∃ w, Reach (without 1 part) w := by
  have h2 : Reach part' _ := record_reach (part'.map (·.1)) Reach.init rfl
  refine ⟨⟨_, record_reach (part.map (·.1)) Reach.init rfl⟩, repeats_of (by decide) (by simp [part]; grind), ?_, ?_, ⟨_, h2⟩, rfl, ?_⟩
  · intro m min max ss ps ev hm
    simp [part] at hm
    rcases hm with ⟨⟨_, _, _, rfl, _⟩, _⟩ | ⟨⟨_, _, _, rfl, _⟩, _⟩ <;> decide
  · simp [Trace.kind, part, Trace.events]
  · rintro ⟨w, h3⟩
    have := Whole.lawful_unique (Whole.reach_lawful h3) (Whole.reach_lawful h2) rfl
    exact absurd (congrArg Trace.events this) (by decide +kernel)

/-- C108 does not hold for sequences with the same expectations if these belong to a sequence of the other kind, too: two lazy sequences outvote a
greedy one. -/
theorem C108_votes : (∃ w, Reach votes w) ∧ Repeats votes 1 0 ∧ Repeats votes 0 1 ∧ NamedOnce votes 1 ∧
    (∃ w, Reach votes' w) ∧ votes'.map (·.1) = (without 1 votes).map (·.1) ∧ ¬ ∃ w, Reach (without 1 votes) w := by
  have h2 : Reach votes' _ := record_reach (votes'.map (·.1)) Reach.init rfl
  refine ⟨⟨_, record_reach (votes.map (·.1)) Reach.init rfl⟩, repeats_of (by decide) (by simp [votes]; grind),
    repeats_of (by decide) (by simp [votes]; grind), ?_, ⟨_, h2⟩, rfl, ?_⟩
  · intro m min max ss ps ev hm
    simp [votes] at hm
    rcases hm with ⟨⟨_, _, _, rfl, _⟩, _⟩ | ⟨⟨_, _, _, rfl, _⟩, _⟩ <;> decide
  · rintro ⟨w, h3⟩
    have := Whole.lawful_unique (Whole.reach_lawful h3) (Whole.reach_lawful h2) rfl
    exact absurd (congrArg Trace.events this) (by decide +kernel)

/-- A greedy sequence of three expectations, and one for each two neighbours. -/
def chain : Trace Unit :=
  [(.newMock, [.mockCreated 0]), (.newSequence .greedy, [.sequenceCreated 0 .greedy]), (.newSequence .greedy, [.sequenceCreated 1 .greedy]),
   (.newSequence .greedy, [.sequenceCreated 2 .greedy]), (.expect 0 1 1 [0, 1] [], [.created 0]), (.expect 0 0 1 [0, 1, 2] [], [.created 1]),
   (.expect 0 0 1 [0, 2] [], [.created 2]), (.call 0 (), [.fullMatch 0])]

def chain' : Trace Unit :=
  [(.newMock, [.mockCreated 0]), (.newSequence .greedy, [.sequenceCreated 0 .greedy]), (.newSequence .greedy, [.sequenceCreated 1 .greedy]),
   (.expect 0 1 1 [0] [], [.created 0]), (.expect 0 0 1 [0, 1] [], [.created 1]), (.expect 0 0 1 [1] [], [.created 2]),
   (.call 0 (), [.fullMatch 2])]

/-- It is not enough that neighbours in a sequence belong to other sequences together: if the one in the middle need not be used, only the whole
sequence asks for the first one before the last one. -/
theorem C108_chain : (∃ w, Reach chain w) ∧ NamedOnce chain 0 ∧ (∀ u, ¬ chain.kind u .lazy) ∧ ¬ Covered chain 0 ∧
    (∃ w, Reach chain' w) ∧ chain'.map (·.1) = (without 0 chain).map (·.1) ∧ ¬ ∃ w, Reach (without 0 chain) w := by
  have h1 : Reach chain _ := record_reach (chain.map (·.1)) Reach.init rfl
  have h2 : Reach chain' _ := record_reach (chain'.map (·.1)) Reach.init rfl
  have hn : NamedOnce chain 0 := by
    intro m min max ss ps ev hm
    simp [chain] at hm
    rcases hm with ⟨⟨_, _, _, rfl, _⟩, _⟩ | ⟨⟨_, _, _, rfl, _⟩, _⟩ | ⟨⟨_, _, _, rfl, _⟩, _⟩ <;> decide
  have hg : ∀ u, ¬ chain.kind u .lazy := by simp [Trace.kind, chain, Trace.events]
  have hno : ¬ ∃ w, Reach (without 0 chain) w := by
    rintro ⟨w, h3⟩
    have := Whole.lawful_unique (Whole.reach_lawful h3) (Whole.reach_lawful h2) rfl
    exact absurd (congrArg Trace.events this) (by decide +kernel)
  exact ⟨⟨_, h1⟩, hn, hg, fun hc => hno (C108_greedy_partial h1 hc hn hg), ⟨_, h2⟩, rfl, hno⟩

/-! ### Examples -/

/-- A greedy sequence of three expectations, and one for the first and the last one of them. At the end, both are reported to be unfulfilled. -/
def extra : Trace Unit :=
  [(.newMock, [.mockCreated 0]), (.newSequence .greedy, [.sequenceCreated 0 .greedy]), (.newSequence .greedy, [.sequenceCreated 1 .greedy]),
   (.expect 0 1 1 [0, 1] [], [.created 0]), (.expect 0 0 1 [1] [], [.created 1]), (.expect 0 1 1 [0, 1] [], [.created 2]),
   (.call 0 (), [.fullMatch 0]), (.destroy 0, [.destroyed 0]), (.destroy 1, [.destroyed 1]), (.destroy 2, [.destroyed 2, .unfulfilled 2]),
   (.dropSequence 1, [.sequenceError 1 2 3, .sequenceDestroyed 1]), (.dropSequence 0, [.sequenceError 0 1 2, .sequenceDestroyed 0])]

/-- All that is asked of it in `C108_greedy_partial`, and what becomes of it: the other sequence has another number, everything else is the same. -/
example : (∃ w, Reach extra w) ∧ Repeats extra 0 1 ∧ NamedOnce extra 0 ∧ (∀ u, ¬ extra.kind u .lazy) ∧ (without 0 extra).map (·.2) =
    [[.mockCreated 0], [.sequenceCreated 0 .greedy], [.created 0], [.created 1], [.created 2], [.fullMatch 0], [.destroyed 0], [.destroyed 1],
     [.destroyed 2, .unfulfilled 2], [.sequenceError 0 2 3, .sequenceDestroyed 0]] := by
  refine ⟨⟨_, record_reach (extra.map (·.1)) Reach.init rfl⟩, repeats_of (by decide) (by simp [extra]; grind), ?_, ?_, by decide +kernel⟩
  · intro m min max ss ps ev hm
    simp [extra] at hm
    rcases hm with ⟨⟨_, _, _, rfl, _⟩, _⟩ | ⟨⟨_, _, _, rfl, _⟩, _⟩ | ⟨⟨_, _, _, rfl, _⟩, _⟩ <;> decide
  · simp [Trace.kind, extra, Trace.events]

/-- A lazy sequence for a single expectation, as in `C108_single_partial`. -/
def alone : Trace Unit :=
  [(.newMock, [.mockCreated 0]), (.newSequence .lazy, [.sequenceCreated 0 .lazy]), (.newSequence .lazy, [.sequenceCreated 1 .lazy]),
   (.expect 0 1 1 [1] [], [.created 0]), (.expect 0 1 1 [0] [], [.created 1]), (.expect 0 1 1 [1] [], [.created 2]),
   (.call 0 (), [.fullMatch 1]), (.call 0 (), [.fullMatch 0])]

theorem attached_of {tr : Trace Unit} {e s : Nat} (h : tr.attached e s) :
    ∃ m min max ss ps ev, (Op.expect m min max ss ps, ev) ∈ tr ∧ s ∈ ss ∧ Event.created e ∈ ev := by
  obtain ⟨d, hd, hs⟩ := h
  obtain ⟨pre, ev, post, htr, he⟩ := decl_split hd
  exact ⟨d.mock, d.min, d.max, d.seqs, d.policies, ev, by rw [htr]; simp, hs, he⟩

example : (∃ w, Reach alone w) ∧ NamedOnce alone 0 ∧ (∀ e e', alone.attached e 0 → alone.attached e' 0 → e = e') ∧
    (∀ e s, alone.attached e 0 → alone.attached e s → s = 0) ∧ alone.attached 1 0 ∧ (without 0 alone).map (·.2) =
    [[.mockCreated 0], [.sequenceCreated 0 .lazy], [.created 0], [.created 1], [.created 2], [.fullMatch 1], [.fullMatch 0]] := by
  have h0 : ∀ e s, alone.attached e s → (e = 1 ∧ s = 0) ∨ (e ≠ 1 ∧ s = 1) := by
    intro e s h
    obtain ⟨m, min, max, ss, ps, ev, h1, h2, h3⟩ := attached_of h
    simp [alone] at h1
    grind
  refine ⟨⟨_, record_reach (alone.map (·.1)) Reach.init rfl⟩, ?_, ?_, ?_, ⟨⟨0, 1, 1, [0], []⟩, rfl, by simp⟩, by decide +kernel⟩
  · intro m min max ss ps ev hm
    simp [alone] at hm
    rcases hm with ⟨⟨_, _, _, rfl, _⟩, _⟩ | ⟨⟨_, _, _, rfl, _⟩, _⟩ | ⟨⟨_, _, _, rfl, _⟩, _⟩ <;> decide
  · intro e e' h h'
    have := h0 _ _ h
    have := h0 _ _ h'
    omega
  · intro e s h h'
    have := h0 _ _ h
    have := h0 _ _ h'
    omega

/-- Two lazy sequences with the same two expectations, as in `C108_twins_partial`. -/
def twins : Trace Unit :=
  [(.newMock, [.mockCreated 0]), (.newSequence .lazy, [.sequenceCreated 0 .lazy]), (.newSequence .lazy, [.sequenceCreated 1 .lazy]),
   (.expect 0 0 1 [0, 1] [], [.created 0]), (.expect 0 0 1 [1, 0] [], [.created 1]), (.call 0 (), [.fullMatch 0])]

example : (∃ w, Reach twins w) ∧ Repeats twins 0 1 ∧ Repeats twins 1 0 ∧ NamedOnce twins 0 ∧
    (∀ e, twins.attached e 0 → ∃ st, ∀ u st', twins.attached e u → twins.kind u st' → st' = st) ∧ twins.attached 1 0 := by
  refine ⟨⟨_, record_reach (twins.map (·.1)) Reach.init rfl⟩, repeats_of (by decide) (by simp [twins]; grind),
    repeats_of (by decide) (by simp [twins]; grind), ?_, ?_, ⟨⟨0, 0, 1, [1, 0], []⟩, rfl, by simp⟩⟩
  · intro m min max ss ps ev hm
    simp [twins] at hm
    rcases hm with ⟨⟨_, _, _, rfl, _⟩, _⟩ | ⟨⟨_, _, _, rfl, _⟩, _⟩ <;> decide
  · intro e _
    refine ⟨.lazy, fun u st' _ hk => ?_⟩
    simp [Trace.kind, twins, Trace.events] at hk
    grind

end Mimic.Redundant
