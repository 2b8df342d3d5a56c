import Verif.Proofs.View

/-!
# Reading the reference semantics off the history
-/

set_option autoImplicit false

namespace Mimic

variable {α : Type}

theorem Reach.snoc_inv {tr : Trace α} {st : Op α × List Event} {w : World α}
    (h : Reach (tr ++ [st]) w) : ∃ w0, Reach tr w0 ∧ w0.step st.1 = .ok (w, st.2) := by
  generalize hh : tr ++ [st] = l at h
  cases h with
  | init => simp at hh
  | step hr hs =>
    rw [List.append_inj' hh rfl |>.1]
    have := List.append_inj' hh rfl |>.2
    simp at this
    rw [this]
    exact ⟨_, hr, hs⟩

/-- Every prefix of a history is a history, and the next operation is performed right after it. -/
theorem Reach.split {pre post : Trace α} {op : Op α} {ev : List Event} {w : World α}
    (h : Reach (pre ++ (op, ev) :: post) w) :
    ∃ w0 w1, Reach pre w0 ∧ w0.step op = .ok (w1, ev) := by
  generalize hl : pre ++ (op, ev) :: post = l at h
  induction h generalizing post with
  | init => simp at hl
  | step hr hs ih =>
    rcases List.eq_nil_or_concat post with rfl | ⟨l', st, rfl⟩
    · have h1 := List.append_inj' hl rfl
      obtain ⟨rfl, h2⟩ := h1
      simp at h2
      obtain ⟨rfl, rfl⟩ := h2
      exact ⟨_, _, hr, hs⟩
    · have : pre ++ (op, ev) :: (l' ++ [st]) = (pre ++ (op, ev) :: l') ++ [st] := by simp
      rw [List.concat_eq_append, this] at hl
      exact ih (List.append_inj' hl rfl).1

theorem Reach.prefix {pre post : Trace α} {w : World α} (h : Reach (pre ++ post) w) :
    ∃ w0, Reach pre w0 := by
  cases post with
  | nil => rw [List.append_nil] at h; exact ⟨w, h⟩
  | cons st post =>
    obtain ⟨w0, _, h1, _⟩ := h.split (op := st.1) (ev := st.2)
    exact ⟨w0, h1⟩

theorem Reach.spec_step {tr : Trace α} {w w' : World α} (h : Reach tr w) {op : Op α} {ev : List Event}
    (hs : w.step op = .ok (w', ev)) : (abs w).step op = some (abs w', ev) :=
  (h.view.1.step_ok hs).1

/-! ### Pointwise correspondences -/

section
variable {tr : Trace α} {S : Spec.State α}

theorem View.sorted (h : View tr S) : Sorted S.exps := by
  unfold Sorted
  rw [List.pairwise_iff_getElem]
  intro i j hi hj hij
  have h1 := h.id (List.getElem?_eq_getElem hi)
  have h2 := h.id (List.getElem?_eq_getElem hj)
  omega

theorem View.mem_iff (h : View tr S) {x : Spec.Exp α} :
    x ∈ S.exps ↔ ∃ d, tr.decl x.id = some d ∧ x = viewExp tr x.id d :=
  ⟨h.get, fun ⟨_, hd, hx⟩ => hx ▸ h.mem hd⟩

theorem alive_iff (e : Nat) (d : Decl α) :
    (viewExp tr e d).alive = true ↔ Event.destroyed e ∉ tr.events := by
  simp [viewExp]

theorem View.live_iff (h : View tr S) (e : Nat) :
    tr.live e ↔ ∃ x ∈ S.exps, x.id = e ∧ x.alive = true := by
  constructor
  · rintro ⟨⟨d, hd⟩, hn⟩
    exact ⟨_, h.mem hd, rfl, (alive_iff e d).mpr hn⟩
  · rintro ⟨x, hx, rfl, ha⟩
    obtain ⟨d, hd, hxd⟩ := h.get hx
    rw [hxd] at ha
    exact ⟨⟨d, hd⟩, (alive_iff _ d).mp ha⟩

theorem View.mem_attached (h : View tr S) (e s : Nat) :
    tr.attached e s ↔ ∃ x ∈ S.attached s, x.id = e := by
  unfold Spec.State.attached
  constructor
  · rintro ⟨d, hd, hs⟩
    exact ⟨_, List.mem_filter.mpr ⟨h.mem hd, List.contains_iff_mem.mpr hs⟩, rfl⟩
  · rintro ⟨x, hx, rfl⟩
    rw [List.mem_filter] at hx
    obtain ⟨d, hd, hxd⟩ := h.get hx.1
    refine ⟨d, hd, ?_⟩
    have := hx.2
    rw [hxd] at this
    exact List.contains_iff_mem.mp this

theorem tooFew_iff {e : Nat} {d : Decl α} (hd : tr.decl e = some d) :
    tr.tooFew e ↔ (viewExp tr e d).unfulfilled = true := by
  unfold Trace.tooFew Spec.Exp.unfulfilled
  simp only [decide_eq_true_eq, hd, Option.some.injEq]
  constructor
  · rintro ⟨_, rfl, h⟩; exact h
  · intro h; exact ⟨d, rfl, h⟩

theorem View.applicable_iff (h : View tr S) {e : Nat} {d : Decl α} (hd : tr.decl e = some d) :
    S.applicable (viewExp tr e d) = true ↔ tr.applicable e := by
  have hatt : ∀ s, tr.attached e s ↔ s ∈ d.seqs := by
    intro s
    unfold Trace.attached
    rw [hd]
    simp
  unfold Spec.State.applicable Trace.applicable
  rw [Bool.and_eq_true, List.all_eq_true]
  apply and_congr
  · rw [hd]; simp [viewExp]
  · constructor
    · intro hall s hs
      have h1 := hall s ((hatt s).mp hs)
      rw [List.all_eq_true] at h1
      constructor
      · intro e' hlt hat htf
        obtain ⟨x, hx, rfl⟩ := (h.mem_attached e' s).mp hat
        have h2 := h1 x hx
        obtain ⟨d', hd', hxd⟩ := h.get (List.mem_filter.mp hx).1
        rw [tooFew_iff hd', ← hxd] at htf
        simp only [Spec.Exp.unfulfilled, decide_eq_true_eq] at htf
        simp only [Bool.and_eq_true, Bool.or_eq_true, decide_eq_true_eq, Bool.not_eq_true'] at h2
        rcases h2.1 with h3 | h3
        · simp [viewExp] at h3; omega
        · omega
      · intro e' hlt hat
        obtain ⟨x, hx, rfl⟩ := (h.mem_attached e' s).mp hat
        have h2 := h1 x hx
        obtain ⟨d', hd', hxd⟩ := h.get (List.mem_filter.mp hx).1
        simp only [Bool.and_eq_true, Bool.or_eq_true, decide_eq_true_eq, Bool.not_eq_true',
          beq_iff_eq] at h2
        rcases h2.2 with h3 | h3
        · simp [viewExp] at h3; omega
        · rw [hxd] at h3; exact h3
    · intro hall s hs
      have h1 := hall s ((hatt s).mpr hs)
      rw [List.all_eq_true]
      intro x hx
      have hat := (h.mem_attached x.id s).mpr ⟨x, hx, rfl⟩
      obtain ⟨d', hd', hxd⟩ := h.get (List.mem_filter.mp hx).1
      have hide : (viewExp tr e d).id = e := rfl
      simp only [Bool.and_eq_true, Bool.or_eq_true, decide_eq_true_eq, Bool.not_eq_true',
        beq_iff_eq, hide]
      constructor
      · by_cases hlt : x.id < e
        · right
          have := h1.1 x.id hlt hat
          rw [tooFew_iff hd', ← hxd] at this
          simp only [Spec.Exp.unfulfilled, decide_eq_true_eq] at this
          omega
        · left; simp [hlt]
      · by_cases hlt : e < x.id
        · right
          have := h1.2 x.id hlt hat
          rw [hxd]; exact this
        · left; simp [hlt]

theorem View.accepts_iff (h : View tr S) (m : Nat) (a : α) (e : Nat) :
    tr.accepts m a e ↔ ∃ x ∈ (S.candidates m).filter (·.accepts a), x.id = e := by
  constructor
  · rintro ⟨hl, d, hd, hm, hp⟩
    refine ⟨viewExp tr e d, ?_, rfl⟩
    rw [List.mem_filter, candidates_mem]
    refine ⟨⟨h.mem hd, (alive_iff e d).mpr hl.2, hm⟩, ?_⟩
    unfold Spec.Exp.accepts
    rw [List.all_eq_true]
    intro p hpm
    rw [hp p hpm]; rfl
  · rintro ⟨x, hx, rfl⟩
    rw [List.mem_filter, candidates_mem] at hx
    obtain ⟨⟨h1, h2, h3⟩, h4⟩ := hx
    obtain ⟨d, hd, hxd⟩ := h.get h1
    refine ⟨(h.live_iff _).mpr ⟨x, h1, rfl, h2⟩, d, hd, ?_, ?_⟩
    · rw [hxd] at h3; exact h3
    · unfold Spec.Exp.accepts at h4
      rw [List.all_eq_true] at h4
      intro p hp
      have := h4 p (by rw [hxd]; exact hp)
      simpa using this

theorem View.throws_iff (h : View tr S) (m : Nat) (a : α) (e : Nat) :
    tr.throws m a e ↔ ∃ x ∈ (S.candidates m).filter (·.throws a), x.id = e := by
  constructor
  · rintro ⟨hl, d, hd, hm, p, hp, hpn⟩
    refine ⟨viewExp tr e d, ?_, rfl⟩
    rw [List.mem_filter, candidates_mem]
    refine ⟨⟨h.mem hd, (alive_iff e d).mpr hl.2, hm⟩, ?_⟩
    unfold Spec.Exp.throws
    rw [List.any_eq_true]
    exact ⟨p, hp, by rw [hpn]; rfl⟩
  · rintro ⟨x, hx, rfl⟩
    rw [List.mem_filter, candidates_mem] at hx
    obtain ⟨⟨h1, h2, h3⟩, h4⟩ := hx
    obtain ⟨d, hd, hxd⟩ := h.get h1
    refine ⟨(h.live_iff _).mpr ⟨x, h1, rfl, h2⟩, d, hd, ?_, ?_⟩
    · rw [hxd] at h3; exact h3
    · unfold Spec.Exp.throws at h4
      rw [List.any_eq_true] at h4
      obtain ⟨p, hp, hpn⟩ := h4
      refine ⟨p, ?_, by simpa using hpn⟩
      rw [hxd] at hp; exact hp

theorem View.candidates_iff (h : View tr S) (m : Nat) (e : Nat) :
    (tr.live e ∧ ∃ d, tr.decl e = some d ∧ d.mock = m) ↔ ∃ x ∈ S.candidates m, x.id = e := by
  constructor
  · rintro ⟨hl, d, hd, hm⟩
    exact ⟨viewExp tr e d, candidates_mem.mpr ⟨h.mem hd, (alive_iff e d).mpr hl.2, hm⟩, rfl⟩
  · rintro ⟨x, hx, rfl⟩
    obtain ⟨h1, h2, h3⟩ := candidates_mem.mp hx
    obtain ⟨d, hd, hxd⟩ := h.get h1
    refine ⟨(h.live_iff _).mpr ⟨x, h1, rfl, h2⟩, d, hd, ?_⟩
    rw [hxd] at h3; exact h3

theorem View.candidate_iff (h : View tr S) (m : Nat) (a : α) (e : Nat) :
    tr.candidate m a e ↔
      ∃ x ∈ ((S.candidates m).filter (·.accepts a)).filter S.applicable, x.id = e := by
  unfold Trace.candidate
  constructor
  · rintro ⟨hac, hap⟩
    obtain ⟨x, hx, rfl⟩ := (h.accepts_iff m a e).mp hac
    refine ⟨x, List.mem_filter.mpr ⟨hx, ?_⟩, rfl⟩
    have hxe := (candidates_mem.mp (List.mem_filter.mp hx).1).1
    obtain ⟨d, hd, hxd⟩ := h.get hxe
    rw [hxd]
    exact (h.applicable_iff hd).mpr hap
  · rintro ⟨x, hx, rfl⟩
    rw [List.mem_filter] at hx
    refine ⟨(h.accepts_iff m a _).mpr ⟨x, hx.1, rfl⟩, ?_⟩
    have hxe := (candidates_mem.mp (List.mem_filter.mp hx.1).1).1
    obtain ⟨d, hd, hxd⟩ := h.get hxe
    have h2 := hx.2
    rw [hxd] at h2
    exact (h.applicable_iff hd).mp h2

theorem View.candidates_sorted (h : View tr S) (m : Nat) :
    (S.candidates m).Pairwise (fun x y => y.id < x.id) := by
  unfold Spec.State.candidates
  rw [List.pairwise_reverse]
  exact List.Pairwise.filter _ h.sorted

theorem youngestFirst_map {l : List (Spec.Exp α)} (hs : l.Pairwise (fun x y => y.id < x.id))
    {P : Nat → Prop} (hp : ∀ e, P e ↔ ∃ x ∈ l, x.id = e) : YoungestFirst P (l.map (·.id)) := by
  refine ⟨?_, fun e => ?_⟩
  · rw [List.pairwise_map]; exact hs
  · rw [hp e, List.mem_map]

theorem View.hasHandle_iff (h : View tr S) (s : Nat) : S.hasHandle s = true ↔ tr.handle s := by
  unfold Spec.State.hasHandle Trace.handle
  cases hq : S.seqs[s]? with
  | none =>
    simp only [Bool.false_eq_true, false_iff]
    rintro ⟨⟨st, hst⟩, _⟩
    exact (h.freshSeq s (by rw [← List.getElem?_eq_none_iff]; exact hq)).1 st hst
  | some q =>
    obtain ⟨h1, h2⟩ := h.seqs s q hq
    simp only [h2]
    exact ⟨fun hh => ⟨⟨_, (h1 _).mpr rfl⟩, hh⟩, fun hh => hh.2⟩

theorem View.owned_iff (h : View tr S) (s : Nat) : S.owned s = true ↔ tr.referenced s := by
  unfold Spec.State.owned Trace.referenced
  rw [Bool.or_eq_true, List.any_eq_true]
  apply or_congr
  · exact h.hasHandle_iff s
  · constructor
    · rintro ⟨x, hx, hp⟩
      rw [Bool.and_eq_true] at hp
      refine ⟨x.id, (h.live_iff _).mpr ⟨x, hx, rfl, hp.1⟩, ?_⟩
      exact (h.mem_attached _ s).mpr ⟨x, List.mem_filter.mpr ⟨hx, hp.2⟩, rfl⟩
    · rintro ⟨e, hl, ha⟩
      obtain ⟨x, hx, hxe, hxa⟩ := (h.live_iff e).mp hl
      obtain ⟨y, hy, hye⟩ := (h.mem_attached e s).mp ha
      unfold Spec.State.attached at hy
      rw [List.mem_filter] at hy
      have : x = y := sorted_mem_id h.sorted hx hy.1 (by rw [hxe, hye])
      subst this
      exact ⟨x, hx, by rw [hxa, hy.2]; rfl⟩

theorem View.kindCount_eq (h : View tr S) {x : Spec.Exp α} (st : Strategy) :
    S.kindCount x st = tr.kindCount x.seqs st := by
  unfold Spec.State.kindCount Trace.kindCount
  rw [List.countP_eq_length_filter]
  congr 1
  apply List.filter_congr
  intro s _
  rw [Bool.eq_iff_iff]
  simp only [beq_iff_eq, decide_eq_true_eq]
  cases hq : S.seqs[s]? with
  | none =>
    simp only [Option.map_none]
    constructor
    · intro hh; simp at hh
    · intro hh
      exact absurd hh ((h.freshSeq s (by rw [← List.getElem?_eq_none_iff]; exact hq)).1 st)
  | some q =>
    have := (h.seqs s q hq).1 st
    unfold Trace.kind at this
    rw [this]
    simp only [Option.map_some, Option.some.injEq]
    exact ⟨fun hh => hh.symm, fun hh => hh.symm⟩

theorem View.displaces_iff (h : View tr S) {x y : Spec.Exp α} (hx : x ∈ S.exps) (hy : y ∈ S.exps) :
    S.displaces y x = true ↔ tr.givesWay x.id y.id := by
  unfold Spec.State.displaces Trace.givesWay
  obtain ⟨d, hd, hxd⟩ := h.get hx
  rw [Bool.and_eq_true, h.kindCount_eq, h.kindCount_eq, hd]
  have hseq : x.seqs = d.seqs := by rw [hxd]; rfl
  have hys : ∀ s, y.seqs.contains s = true ↔ tr.attached y.id s := by
    intro s
    obtain ⟨d', hd', hyd⟩ := h.get hy
    unfold Trace.attached
    rw [hd', List.contains_iff_mem]
    have : y.seqs = d'.seqs := by rw [hyd]; rfl
    rw [this]; simp
  rw [hseq, List.all_eq_true]
  simp only [hys, decide_eq_true_eq]
  constructor
  · rintro ⟨h1, h2⟩; exact ⟨d, rfl, h1, h2⟩
  · rintro ⟨d', hd', h1, h2⟩
    injection hd' with hd'
    subst hd'
    exact ⟨h1, h2⟩

theorem View.select_chosen (h : View tr S) (l : List (Spec.Exp α)) :
    ∀ x, x ∈ S.exps → (∀ y ∈ l, y ∈ S.exps) →
      Trace.Chosen tr x.id (l.map (·.id)) (S.select x l).id := by
  induction l with
  | nil => intro x _ _; exact Trace.Chosen.done _
  | cons y l ih =>
    intro x hx hl
    have hy := hl y (by simp)
    unfold Spec.State.select
    split
    · rename_i hd
      exact Trace.Chosen.move ((h.displaces_iff hx hy).mp hd) (ih y hy (fun z hz => hl z (by simp [hz])))
    · rename_i hd
      refine Trace.Chosen.stay (fun hg => hd ((h.displaces_iff hx hy).mpr hg))
        (ih x hx (fun z hz => hl z (by simp [hz])))

theorem View.valid_iff (h : View tr S) (op : Op α) : tr.valid op ↔ ∃ r, S.step op = some r := by
  cases op with
  | newSequence st => exact ⟨fun _ => ⟨_, rfl⟩, fun _ => trivial⟩
  | newMock => exact ⟨fun _ => ⟨_, rfl⟩, fun _ => trivial⟩
  | dropSequence s =>
    simp only [Trace.valid, Spec.State.step, ← h.hasHandle_iff s]
    split <;> simp_all
  | call m a =>
    simp only [Trace.valid, Spec.State.step, h.mocks m]
    split <;> simp_all
  | destroy e =>
    simp only [Trace.valid, Spec.State.step, h.live_iff e]
    cases hf : S.exps.find? (fun x => x.id == e && x.alive) with
    | none =>
      rw [List.find?_eq_none] at hf
      simp only [reduceCtorEq, exists_false, iff_false]
      rintro ⟨x, hx, hxe, hxa⟩
      exact hf x hx (by simp [hxe, hxa])
    | some x =>
      have hm := List.mem_of_find?_eq_some hf
      have hp := List.find?_some hf
      simp only [Bool.and_eq_true, beq_iff_eq] at hp
      exact ⟨fun _ => ⟨_, rfl⟩, fun _ => ⟨x, hm, hp.1, hp.2⟩⟩
  | expect m min max tags ps =>
    simp only [Trace.valid, Spec.State.step, h.mocks m]
    have hiff : (m < S.mocks ∧ (∀ s ∈ tags, tr.handle s) ∧
        (-2147483648 ≤ min ∧ min ≤ 2147483647) ∧ (-2147483648 ≤ max ∧ max ≤ 2147483647)) ↔
        (m < S.mocks ∧ tags.all S.hasHandle = true ∧ isInt min = true ∧ isInt max = true) := by
      have hint : ∀ x, isInt x = true ↔ -2147483648 ≤ x ∧ x ≤ 2147483647 := by
        intro x; unfold isInt; rw [Bool.and_eq_true, decide_eq_true_eq, decide_eq_true_eq]; exact Iff.rfl
      rw [List.all_eq_true, hint, hint]
      simp only [h.hasHandle_iff]
    rw [hiff]
    split
    · rename_i hc
      split
      · exact ⟨fun _ => ⟨_, rfl⟩, fun _ => hc⟩
      · exact ⟨fun _ => ⟨_, rfl⟩, fun _ => hc⟩
    · rename_i hc
      simp only [reduceCtorEq, exists_false, iff_false]
      exact hc

end

end Mimic
