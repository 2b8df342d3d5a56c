import Verif.Proofs.Unused
import Verif.Proofs.Demo
import Verif.Props.Outcome

/-!
# Expectations that are not used (C74)
-/

set_option autoImplicit false

namespace Mimic.Unused

variable {α : Type}

/-- C74: an expectation without sequences that resolves no call can be left out of a test. Everything else happens as before: the same
operations succeed, the same calls are resolved by the same expectations, and the same reports are made, apart from the mention of that
expectation. (No call must have been rejected as inapplicable because of that expectation alone.) -/
theorem C74_without_partial {tr : Trace α} {w : World α} (h : Reach tr w) {e : Nat} {d : Decl α} (hd : tr.decl e = some d) (hq : d.seqs = [])
    (hm : tr.matched e = 0) (hi : ∀ ns, Event.inapplicable ns ∈ tr.events → ∃ n ∈ ns, n ≠ e) :
    ∃ w', Reach (without e tr) w' := by
  refine ⟨_, (reach_without h (e := e) ?_ hi ?_).2⟩
  · intro hmem
    have := List.count_pos_iff.mpr hmem
    unfold Trace.matched at hm
    omega
  · intro c mn mx tags ps ev hmem hc
    have := created_decl h hmem hc
    rw [hd] at this
    cases this
    exact hq

/-- C74: the last condition is met by every expectation that admits a call at all. -/
theorem C74_unused_partial {tr : Trace α} {w : World α} (h : Reach tr w) {e : Nat} {d : Decl α} (hd : tr.decl e = some d) (hq : d.seqs = [])
    (hm : tr.matched e = 0) (hx : 0 < d.max) : ∃ w', Reach (without e tr) w' := by
  refine C74_without_partial h hd hq hm ?_
  intro ns hns
  obtain ⟨pre, post, m, a, ev, w0, w1, rfl, hr, hst, hmem⟩ := inapplicable_call h hns
  obtain ⟨us, last, hev, _, hcase⟩ := C10_outcome hr hst
  rw [hev] at hmem
  simp only [List.mem_append, List.mem_map, reduceCtorEq, and_false, exists_false, List.mem_singleton, false_or] at hmem
  subst hmem
  rcases hcase with ⟨_, _, hl⟩ | ⟨hn, ⟨n, hacc⟩, es, hl, hyf⟩ | ⟨_, es, hl, _⟩
  · cases hl
  · cases hl
    refine ⟨n, (hyf.2 n).mpr hacc, ?_⟩
    rintro rfl
    apply hn n
    obtain ⟨⟨⟨d', hd'⟩, hlive⟩, hacc'⟩ := hacc
    have hdd : d' = d := by
      have := decl_mono (tr' := (Op.call m a, ev) :: post) hd'
      rw [hd] at this
      exact ((Option.some.injEq _ _).mp this).symm
    subst hdd
    refine ⟨⟨⟨⟨d', hd'⟩, hlive⟩, hacc'⟩, ⟨d', hd', ?_⟩, ?_⟩
    · have : Trace.matched pre n = 0 := by
        unfold Trace.matched Trace.events at hm ⊢
        rw [List.flatMap_append, List.count_append] at hm
        omega
      omega
    · rintro s ⟨d'', hd'', hs⟩
      rw [hd'] at hd''
      cases hd''
      rw [hq] at hs
      cases hs
  · cases hl

/-- C74: in particular, an expectation without sequences has no influence on calls that it does not accept. -/
theorem C74_rejecting {tr : Trace α} {w : World α} (h : Reach tr w) {e : Nat} {d : Decl α} (hd : tr.decl e = some d) (hq : d.seqs = [])
    (hr : ∀ a ev, (Op.call d.mock a, ev) ∈ tr → ∃ p ∈ d.policies, p.accepts a ≠ some true) : ∃ w', Reach (without e tr) w' := by
  have hno : ∀ (pre post : Trace α) (m : Nat) (a : α) (ev : List Event), tr = pre ++ (Op.call m a, ev) :: post → ¬ Trace.accepts pre m a e := by
    rintro pre post m a ev rfl ⟨⟨⟨d', hd'⟩, _⟩, d'', hd'', hmk, hall⟩
    have := decl_mono (tr' := (Op.call m a, ev) :: post) hd''
    rw [hd] at this
    cases this
    subst hmk
    obtain ⟨p, hp, hpn⟩ := hr a ev (by simp)
    exact hpn (hall p hp)
  refine C74_without_partial h hd hq ?_ ?_
  · unfold Trace.matched
    rw [List.count_eq_zero]
    intro hmem
    obtain ⟨pre, post, m, a, ev, w0, w1, htr, hr', hst, hmem⟩ := match_call h hmem
    obtain ⟨us, last, hev, _, hcase⟩ := C10_outcome hr' hst
    rw [hev] at hmem
    simp only [List.mem_append, List.mem_map, reduceCtorEq, and_false, exists_false, List.mem_singleton, false_or] at hmem
    subst hmem
    rcases hcase with ⟨e', hc, hl⟩ | ⟨_, _, es, hl, _⟩ | ⟨_, es, hl, _⟩
    · cases hl
      exact hno pre post m a ev htr hc.1
    · cases hl
    · cases hl
  · intro ns hns
    obtain ⟨pre, post, m, a, ev, w0, w1, htr, hr', hst, hmem⟩ := inapplicable_call h hns
    obtain ⟨us, last, hev, _, hcase⟩ := C10_outcome hr' hst
    rw [hev] at hmem
    simp only [List.mem_append, List.mem_map, reduceCtorEq, and_false, exists_false, List.mem_singleton, false_or] at hmem
    subst hmem
    rcases hcase with ⟨_, _, hl⟩ | ⟨_, ⟨n, hacc⟩, es, hl, hyf⟩ | ⟨_, es, hl, _⟩
    · cases hl
    · cases hl
      refine ⟨n, (hyf.2 n).mpr hacc, ?_⟩
      rintro rfl
      exact hno pre post m a ev htr hacc
    · cases hl

/-- A test: three lazy sequences, and four expectations that accept every call; none of them has to be used. -/
def crossed : Trace Unit :=
  [(.newMock, [.mockCreated 0]), (.newSequence .lazy, [.sequenceCreated 0 .lazy]), (.newSequence .lazy, [.sequenceCreated 1 .lazy]),
   (.newSequence .lazy, [.sequenceCreated 2 .lazy]),
   (.expect 0 0 1 [0, 1] [], [.created 0]), (.expect 0 0 1 [0, 2] [], [.created 1]), (.expect 0 0 1 [0, 1] [], [.created 2]),
   (.expect 0 0 1 [0] [], [.created 3]), (.call 0 (), [.fullMatch 0])]

/-- The same without the third expectation. -/
def crossed' : Trace Unit :=
  [(.newMock, [.mockCreated 0]), (.newSequence .lazy, [.sequenceCreated 0 .lazy]), (.newSequence .lazy, [.sequenceCreated 1 .lazy]),
   (.newSequence .lazy, [.sequenceCreated 2 .lazy]),
   (.expect 0 0 1 [0, 1] [], [.created 0]), (.expect 0 0 1 [0, 2] [], [.created 1]),
   (.expect 0 0 1 [0] [], [.created 2]), (.call 0 (), [.fullMatch 1])]

/-- C74 does not hold for expectations with sequences, even if they need not be used: with the third expectation, which is not used,
the first one resolves the call; without it, it is the second one. -/
theorem C74_sequences :
    ∃ (tr tr' : Trace Unit) (w w' : World Unit) (d : Decl Unit), Reach tr w ∧ tr.decl 2 = some d ∧ d.min = 0 ∧ 0 < d.max ∧
      tr.matched 2 = 0 ∧ Event.fullMatch 0 ∈ tr.events ∧
      Reach tr' w' ∧ tr'.map (·.1) = (without 2 tr).map (·.1) ∧ Event.fullMatch 1 ∈ tr'.events ∧
      ¬ ∃ w'', Reach (without 2 tr) w'' := by
  have h1 : Reach crossed _ := record_reach (crossed.map (·.1)) Reach.init rfl
  have h2 : Reach crossed' _ := record_reach (crossed'.map (·.1)) Reach.init rfl
  refine ⟨crossed, crossed', _, _, _, h1, rfl, rfl, by decide, by decide, by decide, h2, rfl, by decide, ?_⟩
  rintro ⟨w'', h3⟩
  have h4 := reach_record h3
  have h5 := reach_record h2
  have h6 : (without 2 crossed).map (·.1) = crossed'.map (·.1) := rfl
  rw [h6, h5] at h4
  simp only [Except.ok.injEq, Prod.mk.injEq] at h4
  have h7 := congrArg Trace.events h4.2
  exact absurd h7 (by decide)

/-- An expectation that is left out: the older expectation resolves the call, which the younger one rejects, and the rejected one is
reported as unfulfilled; what remains does not mention it. -/
example : ∃ (tr : Trace Nat) (w : World Nat) (d : Decl Nat), Reach tr w ∧ tr.decl 1 = some d ∧ d.seqs = [] ∧ 0 < d.max ∧ tr.matched 1 = 0 ∧
    (without 1 tr).map (·.2) = [[.mockCreated 0], [.created 0], [.created 1], [.fullMatch 0], [.noMatch [1, 0]], [.destroyed 1],
      [.destroyed 0]] ∧
    tr.map (·.2) = [[.mockCreated 0], [.created 0], [.created 1], [.created 2], [.fullMatch 0], [.noMatch [2, 1, 0]], [.destroyed 2],
      [.destroyed 1, .unfulfilled 1], [.destroyed 0]] := by
  have h : Reach _ _ := record_reach (α := Nat)
    [.newMock, .expect 0 1 1 [] [{ accepts := fun n => some (n == 1) }], .expect 0 1 1 [] [{ accepts := fun n => some (n == 2) }],
     .expect 0 0 1 [] [{ accepts := fun n => some (n == 3) }], .call 0 1, .call 0 4, .destroy 2, .destroy 1, .destroy 0] Reach.init rfl
  exact ⟨_, _, _, h, rfl, rfl, by decide, rfl, rfl, rfl⟩

/-- An expectation that forbids calls is used when such a call is made. -/
example : ∃ (tr : Trace Nat) (w : World Nat), Reach tr w ∧
    tr.map (·.2) = [[.mockCreated 0], [.created 0], [.inapplicable [0]]] ∧
    ¬ ∃ w', Reach (without 0 tr) w' := by
  have h : Reach _ _ := record_reach (α := Nat) [.newMock, .expect 0 0 0 [] [], .call 0 1] Reach.init rfl
  refine ⟨_, _, h, rfl, ?_⟩
  rintro ⟨w', h3⟩
  have h4 := reach_record h3
  have h5 : (World.init : World Nat).record [.newMock, .call 0 1] = .ok (_, [(.newMock, [.mockCreated 0]), (.call 0 1, [.noMatch []])]) := rfl
  have h6 := h4.symm.trans h5
  simp only [Except.ok.injEq, Prod.mk.injEq] at h6
  have h7 := congrArg Trace.events h6.2
  exact absurd h7 (by decide)

end Mimic.Unused
