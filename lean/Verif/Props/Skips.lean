import Verif.Props.Selection

/-!
# C07, C09: how far sequences are advanced, whatever else could resolve the call
-/

set_option autoImplicit false

namespace Mimic

variable {α : Type}

theorem chosen_start {tr : Trace α} {x r : Nat} {ys : List Nat} (h : tr.Chosen x ys r) : r = x ∨ ∃ z, tr.givesWay z r := by
  induction h with
  | done x => exact .inl rfl
  | @move x y r ys hw _ ih =>
    rcases ih with rfl | h
    · exact .inr ⟨x, hw⟩
    · exact .inr h
  | stay _ _ ih => exact ih

theorem lazy_of_givesWay {tr : Trace α} {x y : Nat} (h : tr.givesWay x y) : ∃ s, tr.attached y s ∧ tr.kind s .lazy := by
  obtain ⟨d, -, h1, h2⟩ := h
  have : 0 < tr.kindCount d.seqs .lazy := by omega
  unfold Trace.kindCount at this
  rw [List.countP_pos_iff] at this
  obtain ⟨s, hs, hk⟩ := this
  exact ⟨s, h1 s hs, by simpa [Trace.kind] using hk⟩

/-- C07: an expectation that belongs to no lazy sequence resolves a call only if it is the youngest of all that could, whatever sequences the others
belong to. In particular, a greedy sequence is advanced as far as possible. -/
theorem C07_most {tr : Trace α} {w w' : World α} (h : Reach tr w) {m : Nat} {a : α} {ev : List Event} (hs : w.step (.call m a) = .ok (w', ev))
    {e : Nat} (he : Event.fullMatch e ∈ ev) (hg : ∀ s, tr.attached e s → ¬ tr.kind s .lazy) {y : Nat} (hy : tr.candidate m a y) : y ≤ e := by
  rcases C08_selection h hs with ⟨-, h1⟩ | ⟨x, older, r, h1, h2, h3⟩
  · exact absurd he (h1 e)
  · obtain rfl := (h3 e).1 he
    rcases chosen_start h2 with rfl | ⟨z, hz⟩
    · have := (h1.2 y).2 hy
      rw [List.mem_cons] at this
      rcases this with rfl | hm
      · exact Nat.le_refl _
      · exact Nat.le_of_lt ((List.pairwise_cons.mp h1.1).1 y hm)
    · obtain ⟨s, hs1, hs2⟩ := lazy_of_givesWay hz
      exact absurd hs2 (hg s hs1)

/-- C07, C09: an expectation that belongs to nothing but lazy sequences resolves a call only if no older one that could belongs to all of them,
whatever sequences the others belong to. -/
theorem C09_least_partial {tr : Trace α} {w w' : World α} (h : Reach tr w) {m : Nat} {a : α} {ev : List Event}
    (hs : w.step (.call m a) = .ok (w', ev)) {e s : Nat} (he : Event.fullMatch e ∈ ev) (hes : tr.attached e s)
    (hl : ∀ t, tr.attached e t → tr.kind t .lazy) {y : Nat} (hy : tr.candidate m a y) (hlt : y < e) :
    ∃ t, tr.attached e t ∧ ¬ tr.attached y t := by
  refine Classical.byContradiction fun hno => C08_stable h hs he hy hlt ?_
  obtain ⟨d, hd, hsd⟩ := id hes
  refine ⟨d, hd, fun t ht => Classical.byContradiction fun ht' => hno ⟨t, ⟨d, hd, ht⟩, ht'⟩, ?_⟩
  have hlazy : ∀ t ∈ d.seqs, Event.sequenceCreated t .lazy ∈ tr.events := fun t ht => hl t ⟨d, hd, ht⟩
  have hz : tr.kindCount d.seqs .greedy = 0 := by
    unfold Trace.kindCount
    rw [List.countP_eq_zero]
    intro t ht hk
    have h1 : tr.kind t .greedy := by simpa [Trace.kind] using hk
    have := kind_unique h h1 (hl t ⟨d, hd, ht⟩)
    cases this
  have hp : 0 < tr.kindCount d.seqs .lazy := by
    unfold Trace.kindCount
    rw [List.countP_pos_iff]
    exact ⟨s, hsd, by simpa using hlazy s hsd⟩
  omega

/-- C07, C09: an expectation that belongs to one lazy sequence and to no other resolves a call only if no older one of that sequence could, whatever
other sequences the others belong to. -/
theorem C07_least {tr : Trace α} {w w' : World α} (h : Reach tr w) {m : Nat} {a : α} {ev : List Event} (hs : w.step (.call m a) = .ok (w', ev))
    {e s : Nat} (he : Event.fullMatch e ∈ ev) (hes : ∀ t, tr.attached e t ↔ t = s) (hk : tr.kind s .lazy) {y : Nat} (hy : tr.candidate m a y)
    (hys : tr.attached y s) : e ≤ y := by
  refine Nat.le_of_not_lt fun hlt => ?_
  obtain ⟨t, h1, h2⟩ := C09_least_partial h hs he ((hes s).2 rfl) (fun t ht => (hes t).1 ht ▸ hk) hy hlt
  exact h2 ((hes t).1 h1 ▸ hys)

/-! ### Examples -/

/-- Two lazy sequences and three expectations that fit the call: the youngest one belongs to the second sequence only, the other two to the first
one. The youngest one resolves the call, since none of the others belongs to its sequence; without it, it would be the oldest one. -/
def apart : List (Op Nat) :=
  [.newMock, .newSequence .lazy, .newSequence .lazy, .expect 0 0 1 [0] [], .expect 0 0 1 [0] [], .expect 0 0 1 [1] []]

example : (World.final apart).1.step (.call 0 7) = .ok ((World.final (apart ++ [.call 0 7])).1, [.fullMatch 2]) ∧
    (World.final (apart.take 5)).1.step (.call 0 7) = .ok ((World.final (apart.take 5 ++ [.call 0 7])).1, [.fullMatch 0]) := ⟨rfl, rfl⟩

/-- A greedy and a lazy sequence: all that is asked of expectation 1 in `C07_most`, with an older candidate of the lazy sequence. -/
example : ∃ (w' : World Nat), (World.final [.newMock, .newSequence .lazy, .newSequence .greedy, .expect 0 0 1 [0] [], .expect 0 0 1 [1] []]).1.step
    (.call 0 7) = .ok (w', [.fullMatch 1]) := ⟨_, rfl⟩

end Mimic
