import Verif.Props.Order

/-!
# C06-C09: which of several applicable expectations resolves a call
-/

set_option autoImplicit false

namespace Mimic

variable {α : Type}

/-! ### C08 -/

/-- C08: the complete selection rule. The call is resolved iff there is a candidate; the chosen one is found by going
from the youngest candidate to the oldest, moving on exactly when the current choice gives way. -/
theorem C08_selection {tr : Trace α} {w w' : World α} (h : Reach tr w) {m : Nat} {a : α}
    {ev : List Event} (hs : w.step (.call m a) = .ok (w', ev)) :
    (∀ e, ¬ tr.candidate m a e) ∧ (∀ e, Event.fullMatch e ∉ ev) ∨
    ∃ x older e, YoungestFirst (tr.candidate m a) (x :: older) ∧ tr.Chosen x older e ∧
      ∀ e', Event.fullMatch e' ∈ ev ↔ e' = e := by
  obtain ⟨hev, _, hm⟩ := call_spec h hs
  have hv := h.view.2
  obtain ⟨us, last, hev', hus, hcase⟩ := call_events (abs w) m a
  have hsort := hv.candidates_sorted m
  rcases hcase with ⟨x, older, hc, hl, _⟩ | ⟨hc, he, hl, _⟩ | ⟨hc, he, hl, _⟩
  · right
    refine ⟨x.id, older.map (·.id), ((abs w).select x older).id, ?_, ?_, ?_⟩
    · have := youngestFirst_map ((hsort.filter (·.accepts a)).filter (abs w).applicable)
        (hv.candidate_iff m a)
      rw [hc] at this
      exact this
    · have hmem : ∀ y ∈ x :: older, y ∈ (abs w).exps := by
        intro y hy
        rw [← hc] at hy
        exact (candidates_mem.mp (List.mem_filter.mp (List.mem_filter.mp hy).1).1).1
      exact hv.select_chosen older x (hmem x (by simp)) (fun y hy => hmem y (by simp [hy]))
    · intro e'
      rw [hev, hev', hl]
      simp
  · left
    refine ⟨fun e hca => ?_, fun e hf => ?_⟩
    · rw [hv.candidate_iff, hc] at hca; simp at hca
    · rw [hev, hev', hl] at hf; simp at hf
  · left
    refine ⟨fun e hca => ?_, fun e hf => ?_⟩
    · rw [hv.candidate_iff, hc] at hca; simp at hca
    · rw [hev, hev', hl] at hf; simp at hf

theorem Trace.Chosen.mem {tr : Trace α} {x r : Nat} {ys : List Nat} (h : tr.Chosen x ys r) :
    r ∈ x :: ys := by
  induction h with
  | done x => simp
  | move _ _ ih => exact List.mem_cons_of_mem _ ih
  | stay _ _ ih =>
    rcases List.mem_cons.mp ih with rfl | ih
    · simp
    · simp [ih]

/-- The chosen one does not give way to any older candidate. -/
theorem Trace.Chosen.stable {tr : Trace α} {x r : Nat} {ys : List Nat} (h : tr.Chosen x ys r) :
    (x :: ys).Pairwise (· > ·) → ∀ y ∈ ys, y < r → ¬ tr.givesWay r y := by
  induction h with
  | done x => intro _ y hy; simp at hy
  | @move x y r ys hg hc ih =>
    intro hp z hz hlt
    rw [List.pairwise_cons] at hp
    rcases List.mem_cons.mp hz with rfl | hz
    · -- `z` is the youngest of the rest, so `r ≤ z`
      have hr := hc.mem
      rw [List.pairwise_cons] at hp
      rcases List.mem_cons.mp hr with rfl | hr
      · omega
      · have := hp.2.1 r hr; omega
    · exact ih hp.2 z hz hlt
  | @stay x y r ys hg hc ih =>
    intro hp z hz hlt
    rw [List.pairwise_cons, List.pairwise_cons] at hp
    rcases List.mem_cons.mp hz with rfl | hz
    · have hr := hc.mem
      rcases List.mem_cons.mp hr with rfl | hr
      · exact hg
      · have := hp.2.1 r hr; omega
    · exact ih (by rw [List.pairwise_cons]; exact ⟨fun b hb => hp.1 b (by simp [hb]), hp.2.2⟩) z hz hlt

/-- C08: the choice never gives way to an older candidate, and every younger candidate that lost was
either given up in favour of an older one or passed over by the scan; in particular, if no candidate
is attached to more lazy than greedy sequences, the youngest candidate resolves the call. -/
theorem C08_youngest_unless_lazy {tr : Trace α} {w w' : World α} (h : Reach tr w) {m : Nat} {a : α}
    {ev : List Event} (hs : w.step (.call m a) = .ok (w', ev)) {e : Nat} (he : tr.candidate m a e)
    (hy : ∀ e', tr.candidate m a e' → e' ≤ e)
    (hl : ∀ d, tr.decl e = some d → tr.kindCount d.seqs .lazy ≤ tr.kindCount d.seqs .greedy) :
    Event.fullMatch e ∈ ev := by
  rcases C08_selection h hs with ⟨hn, _⟩ | ⟨x, older, r, hyf, hch, hf⟩
  · exact absurd he (hn e)
  · have hxe : x = e := by
      have h1 := hy x ((hyf.2 x).mp (by simp))
      have h2 := (hyf.2 e).mpr he
      rcases List.mem_cons.mp h2 with rfl | h2
      · rfl
      · have h3 := hyf.1
        rw [List.pairwise_cons] at h3
        have := h3.1 e h2
        omega
    subst hxe
    have : r = x := by
      clear hyf hf
      induction hch with
      | done x => rfl
      | move hg _ _ =>
        obtain ⟨d, hd, _, hlt⟩ := hg
        have := hl d hd
        omega
      | stay _ _ ih => exact ih he hy hl
    rw [hf x, this]

theorem C08_stable {tr : Trace α} {w w' : World α} (h : Reach tr w) {m : Nat} {a : α}
    {ev : List Event} (hs : w.step (.call m a) = .ok (w', ev)) {e : Nat} (he : Event.fullMatch e ∈ ev)
    {y : Nat} (hy : tr.candidate m a y) (hlt : y < e) : ¬ tr.givesWay e y := by
  rcases C08_selection h hs with ⟨_, hn⟩ | ⟨x, older, r, hyf, hch, hf⟩
  · exact absurd he (hn e)
  · have := (hf e).mp he
    subst this
    have hmem := (hyf.2 y).mpr hy
    rcases List.mem_cons.mp hmem with rfl | hmem
    · have hr := hch.mem
      rcases List.mem_cons.mp hr with rfl | hr
      · omega
      · have h3 := hyf.1
        rw [List.pairwise_cons] at h3
        have := h3.1 _ hr; omega
    · exact hch.stable hyf.1 y hmem hlt

/-! ### C06 -/

/-- C06: without sequences the youngest accepting, applicable expectation wins. -/
theorem C06_youngest_wins {tr : Trace α} {w w' : World α} (h : Reach tr w) {m : Nat} {a : α}
    {ev : List Event} (hs : w.step (.call m a) = .ok (w', ev)) {e : Nat} (he : tr.candidate m a e)
    (hy : ∀ e', tr.candidate m a e' → e' ≤ e) (hns : ∀ s, ¬ tr.attached e s) :
    Event.fullMatch e ∈ ev := by
  refine C08_youngest_unless_lazy h hs he hy ?_
  intro d hd
  have : d.seqs = [] := by
    cases hds : d.seqs with
    | nil => rfl
    | cons s l => exact absurd ⟨d, hd, by rw [hds]; simp⟩ (hns s)
  rw [this]
  simp [Trace.kindCount]

/-- Two overlapping expectations, the older one in a lazy sequence: the younger one wins. -/
example : ∃ (tr : Trace Nat) (w w' : World Nat) (ev : List Event), Reach tr w ∧
    w.step (.call 0 7) = .ok (w', ev) ∧ tr.candidate 0 7 1 ∧ tr.candidate 0 7 0 ∧
    (∀ e', tr.candidate 0 7 e' → e' ≤ 1) ∧ (∀ s, ¬ tr.attached 1 s) := by
  have hr := reach_final (α := Nat) [.newMock, .newSequence .lazy, .expect 0 1 1 [0] [onlyArg 7],
    .expect 0 1 3 [] []]
  refine ⟨_, _, _, _, hr, rfl, (hr.view.2.candidate_iff _ _ _).mpr ⟨_, .head _, rfl⟩,
    (hr.view.2.candidate_iff _ _ _).mpr ⟨_, .tail _ (.head _), rfl⟩, ?_, ?_⟩
  · intro e' he'
    have : e' < 2 := hr.view.2.decl_lt.mp he'.1.1.1
    omega
  · rintro s ⟨d, hd, hs⟩
    have : d.seqs = [] := by
      have h2 : Trace.decl (World.final (α := Nat) [.newMock, .newSequence .lazy,
        .expect 0 1 1 [0] [onlyArg 7], .expect 0 1 3 [] []]).2 1 = some ⟨0, 1, 3, [], []⟩ := rfl
      rw [h2] at hd
      injection hd with hd
      rw [← hd]
    rw [this] at hs
    simp at hs

/-! ### C07 -/

theorem kind_unique {tr : Trace α} {w : World α} (h : Reach tr w) {s : Nat} {st st' : Strategy}
    (h1 : tr.kind s st) (h2 : tr.kind s st') : st = st' := by
  have hv := h.view.2
  cases hq : (abs w).seqs[s]? with
  | none =>
    exact absurd h1 ((hv.freshSeq s (by rw [← List.getElem?_eq_none_iff]; exact hq)).1 st)
  | some q =>
    have := (hv.seqs s q hq).1
    rw [(this st).mp h1, (this st').mp h2]

theorem kindCount_all {tr : Trace α} {w : World α} (h : Reach tr w) (st : Strategy) {ss : List Nat}
    (hk : ∀ s ∈ ss, tr.kind s st) (st' : Strategy) :
    tr.kindCount ss st' = if st' = st then ss.length else 0 := by
  unfold Trace.kindCount
  split
  · rename_i heq
    rw [List.countP_eq_length]
    intro s hs
    subst heq
    exact decide_eq_true (p := Event.sequenceCreated s st' ∈ tr.events) (hk s hs)
  · rename_i hne
    rw [List.countP_eq_zero]
    intro s hs hc
    exact hne (kind_unique h (of_decide_eq_true (p := Event.sequenceCreated s st' ∈ tr.events) hc) (hk s hs))

/-- C07 (and the positive part of C09): if all candidates are attached to lazy sequences only, to at least
one, and every candidate's sequences are also sequences of all older candidates, then the oldest candidate
resolves the call. -/
theorem nested_lazy_oldest {tr : Trace α} {w w' : World α} (h : Reach tr w) {m : Nat} {a : α}
    {ev : List Event} (hs : w.step (.call m a) = .ok (w', ev))
    (hlazy : ∀ e d, tr.candidate m a e → tr.decl e = some d → d.seqs ≠ [] ∧ ∀ s ∈ d.seqs, tr.kind s .lazy)
    (hnest : ∀ x y s, tr.candidate m a x → tr.candidate m a y → y < x → tr.attached x s → tr.attached y s)
    {e : Nat} (he : tr.candidate m a e) (hold : ∀ e', tr.candidate m a e' → e ≤ e') :
    Event.fullMatch e ∈ ev := by
  rcases C08_selection h hs with ⟨hn, _⟩ | ⟨x, older, r, hyf, hch, hf⟩
  · exact absurd he (hn e)
  · rw [hf e]
    have hgw : ∀ x y, tr.candidate m a x → tr.candidate m a y → y < x → tr.givesWay x y := by
      intro x y hx hy hlt
      obtain ⟨d, hd⟩ := hx.1.1.1
      obtain ⟨hne, hk⟩ := hlazy x d hx hd
      refine ⟨d, hd, fun s hsd => hnest x y s hx hy hlt ⟨d, hd, hsd⟩, ?_⟩
      rw [kindCount_all h .lazy hk, kindCount_all h .lazy hk]
      have : 0 < d.seqs.length := List.length_pos_iff.mpr hne
      simpa using this
    have key : ∀ {x r : Nat} {ys : List Nat}, tr.Chosen x ys r → (x :: ys).Pairwise (· > ·) →
        (∀ y ∈ x :: ys, tr.candidate m a y) → ∀ y ∈ x :: ys, r ≤ y := by
      intro x r ys hc
      induction hc with
      | done x => intro _ _ y hy; simp at hy; omega
      | @move x y r ys hg hc ih =>
        intro hp hcand z hz
        rw [List.pairwise_cons] at hp
        have hrest := ih hp.2 (fun z hz => hcand z (by simp [hz]))
        rcases List.mem_cons.mp hz with rfl | hz
        · have := hp.1 y (by simp)
          have := hrest y (by simp)
          omega
        · exact hrest z hz
      | @stay x y r ys hg hc ih =>
        intro hp hcand z hz
        rw [List.pairwise_cons] at hp
        exact absurd (hgw x y (hcand x (by simp)) (hcand y (by simp)) (hp.1 y (by simp))) hg
    have hall : ∀ y ∈ x :: older, tr.candidate m a y := fun y hy => (hyf.2 y).mp hy
    have h1 := key hch hyf.1 hall e ((hyf.2 e).mpr he)
    have h2 := hold r (hall r hch.mem)
    omega

/-- C07: if all candidates are attached to exactly one and the same lazy sequence, the oldest wins. -/
theorem C07_lazy_oldest {tr : Trace α} {w w' : World α} (h : Reach tr w) {m : Nat} {a : α}
    {ev : List Event} (hs : w.step (.call m a) = .ok (w', ev)) {s : Nat} (hk : tr.kind s .lazy)
    (hall : ∀ e d, tr.candidate m a e → tr.decl e = some d → d.seqs = [s])
    {e : Nat} (he : tr.candidate m a e) (hold : ∀ e', tr.candidate m a e' → e ≤ e') :
    Event.fullMatch e ∈ ev := by
  refine nested_lazy_oldest h hs ?_ ?_ he hold
  · intro e d hc hd
    rw [hall e d hc hd]
    simp [hk]
  · rintro x y t hx hy _ ⟨d, hd, ht⟩
    obtain ⟨d', hd'⟩ := hy.1.1.1
    rw [hall x d hx hd] at ht
    exact ⟨d', hd', by rw [hall y d' hy hd']; exact ht⟩

/-- C07: if all candidates are attached to exactly one and the same greedy sequence, the youngest wins. -/
theorem C07_greedy_youngest {tr : Trace α} {w w' : World α} (h : Reach tr w) {m : Nat} {a : α}
    {ev : List Event} (hs : w.step (.call m a) = .ok (w', ev)) {s : Nat} (hk : tr.kind s .greedy)
    (hall : ∀ e d, tr.candidate m a e → tr.decl e = some d → d.seqs = [s])
    {e : Nat} (he : tr.candidate m a e) (hyoung : ∀ e', tr.candidate m a e' → e' ≤ e) :
    Event.fullMatch e ∈ ev := by
  refine C08_youngest_unless_lazy h hs he hyoung ?_
  intro d hd
  rw [hall e d he hd]
  have := fun st => kindCount_all h (st := .greedy) (ss := [s]) (by simpa using hk) st
  rw [this, this]
  simp

/-- The history used below: two optional expectations in one sequence. -/
def twoOptional (st : Strategy) : List (Op Nat) :=
  [.newMock, .newSequence st, .expect 0 0 1 [0] [], .expect 0 0 1 [0] []]

theorem twoOptional_candidates (st : Strategy) :
    (∀ e, Trace.candidate (World.final (twoOptional st)).2 0 7 e ↔ e = 0 ∨ e = 1) ∧
    (∀ e d, Trace.decl (World.final (twoOptional st)).2 e = some d → e = 0 ∨ e = 1 → d.seqs = [0]) := by
  have hr := reach_final (twoOptional st)
  constructor
  · intro e
    constructor
    · intro he'
      have hlen : (abs (World.final (twoOptional st)).1).exps.length = 2 := by cases st <;> rfl
      have : e < 2 := hlen ▸ hr.view.2.decl_lt.mp he'.1.1.1
      omega
    · rintro (rfl | rfl)
      · cases st
        · exact (hr.view.2.candidate_iff _ _ _).mpr ⟨_, .tail _ (.head _), rfl⟩
        · exact (hr.view.2.candidate_iff _ _ _).mpr ⟨_, .tail _ (.head _), rfl⟩
      · cases st
        · exact (hr.view.2.candidate_iff _ _ _).mpr ⟨_, .head _, rfl⟩
        · exact (hr.view.2.candidate_iff _ _ _).mpr ⟨_, .head _, rfl⟩
  · rintro e d hd (rfl | rfl)
    · have h2 : Trace.decl (World.final (twoOptional st)).2 0 = some ⟨0, 0, 1, [0], []⟩ := by
        cases st <;> rfl
      rw [h2] at hd; injection hd with hd; rw [← hd]
    · have h2 : Trace.decl (World.final (twoOptional st)).2 1 = some ⟨0, 0, 1, [0], []⟩ := by
        cases st <;> rfl
      rw [h2] at hd; injection hd with hd; rw [← hd]

/-- The hypotheses of C07 are met by a state with two candidates, for both kinds of sequences. -/
example (st : Strategy) : ∃ (tr : Trace Nat) (w w' : World Nat) (ev : List Event), Reach tr w ∧
    w.step (.call 0 7) = .ok (w', ev) ∧ tr.kind 0 st ∧
    (∀ e d, tr.candidate 0 7 e → tr.decl e = some d → d.seqs = [0]) ∧
    (∀ e, tr.candidate 0 7 e ↔ e = 0 ∨ e = 1) := by
  obtain ⟨h1, h2⟩ := twoOptional_candidates st
  have hr := reach_final (twoOptional st)
  have hm : Event.mockCreated 0 ∈ (World.final (twoOptional st)).2.events := by cases st <;> decide
  obtain ⟨w', ev, hs⟩ := C10_total hr (7 : Nat) hm
  refine ⟨_, _, w', ev, hr, hs, ?_, fun e d hc hd => h2 e d hd ((h1 e).mp hc), h1⟩
  unfold Trace.kind
  cases st <;> decide

/-! ### C09 -/

/-- C09: the promise of lazy sequences to make the least progress fails for overlapping sequences: there is a
history with two candidates attached to the same lazy sequence, both attached to lazy sequences only,
where the younger one resolves the call. -/
theorem C09_lazy_skips_ahead : ∃ (tr : Trace Nat) (w w' : World Nat) (ev : List Event) (s e y : Nat),
    Reach tr w ∧ w.step (.call 0 7) = .ok (w', ev) ∧
    tr.kind s .lazy ∧ tr.attached e s ∧ tr.attached y s ∧ y < e ∧
    (∀ t, tr.attached e t ∨ tr.attached y t → tr.kind t .lazy) ∧
    tr.candidate 0 7 y ∧ tr.candidate 0 7 e ∧ Event.fullMatch e ∈ ev := by
  have hr := reach_final (α := Nat) [.newMock, .newSequence .lazy, .newSequence .lazy,
    .expect 0 0 1 [0] [], .expect 0 0 1 [0, 1] []]
  refine ⟨_, _, _, [.fullMatch 1], 0, 1, 0, hr, rfl, ?_, ⟨_, rfl, .head _⟩, ⟨_, rfl, .head _⟩, by decide,
    ?_, (hr.view.2.candidate_iff _ _ _).mpr ⟨_, .tail _ (.head _), rfl⟩,
    (hr.view.2.candidate_iff _ _ _).mpr ⟨_, .head _, rfl⟩, by simp⟩
  · unfold Trace.kind; decide
  · intro t ht
    have : t = 0 ∨ t = 1 := by
      rcases ht with ⟨d, hd, ht⟩ | ⟨d, hd, ht⟩
      · have h2 : Trace.decl (World.final (α := Nat) [.newMock, .newSequence .lazy, .newSequence .lazy,
          .expect 0 0 1 [0] [], .expect 0 0 1 [0, 1] []]).2 1 = some ⟨0, 0, 1, [0, 1], []⟩ := rfl
        rw [h2] at hd; injection hd with hd; rw [← hd] at ht; simpa using ht
      · have h2 : Trace.decl (World.final (α := Nat) [.newMock, .newSequence .lazy, .newSequence .lazy,
          .expect 0 0 1 [0] [], .expect 0 0 1 [0, 1] []]).2 0 = some ⟨0, 0, 1, [0], []⟩ := rfl
        rw [h2] at hd; injection hd with hd; rw [← hd] at ht
        left; simpa using ht
    unfold Trace.kind
    rcases this with rfl | rfl <;> decide

/-- C09, the part of the promise that holds: with nested membership (every candidate's sequences are
sequences of all older candidates too) lazy sequences make the least progress. -/
theorem C09_lazy_least_progress_partial {tr : Trace α} {w w' : World α} (h : Reach tr w) {m : Nat}
    {a : α} {ev : List Event} (hs : w.step (.call m a) = .ok (w', ev))
    (hlazy : ∀ e d, tr.candidate m a e → tr.decl e = some d → d.seqs ≠ [] ∧ ∀ s ∈ d.seqs, tr.kind s .lazy)
    (hnest : ∀ x y s, tr.candidate m a x → tr.candidate m a y → y < x → tr.attached x s → tr.attached y s)
    {e : Nat} (he : tr.candidate m a e) (hold : ∀ e', tr.candidate m a e' → e ≤ e') :
    Event.fullMatch e ∈ ev :=
  nested_lazy_oldest h hs hlazy hnest he hold

/-- Two candidates, the older one attached to two lazy sequences, the younger one to one of them. -/
example : ∃ (tr : Trace Nat) (w w' : World Nat) (ev : List Event), Reach tr w ∧
    w.step (.call 0 7) = .ok (w', ev) ∧ tr.candidate 0 7 0 ∧ tr.candidate 0 7 1 ∧ ev = [.fullMatch 0] := by
  have hr := reach_final (α := Nat) [.newMock, .newSequence .lazy, .newSequence .lazy,
    .expect 0 0 1 [0, 1] [], .expect 0 0 1 [1] []]
  exact ⟨_, _, _, _, hr, rfl, (hr.view.2.candidate_iff _ _ _).mpr ⟨_, .tail _ (.head _), rfl⟩,
    (hr.view.2.candidate_iff _ _ _).mpr ⟨_, .head _, rfl⟩, rfl⟩

end Mimic
