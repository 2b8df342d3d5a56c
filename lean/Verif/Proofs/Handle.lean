import Verif.Proofs.Call

/-!
# Handling a call: matching loop, selection, and the whole of `handle_call`
-/

set_option autoImplicit false

namespace Mimic

variable {α : Type}

/-! ### Policies -/

theorem evalPolicies_eq (a : α) (ps : List (Policy α)) :
    evalPolicies a ps =
      if ps.any (fun p => p.accepts a == none) then none
      else some (ps.map (fun p => ((p.accepts a).getD false, p.description))) := by
  induction ps with
  | nil => rfl
  | cons p ps ih =>
    simp only [evalPolicies, ih, List.any_cons, List.map_cons]
    cases hp : p.accepts a with
    | none => simp
    | some b =>
      cases hany : ps.any (fun p => p.accepts a == none) <;> simp

theorem accepts_not_throws {x : Spec.Exp α} {a : α} (h : x.accepts a = true) :
    x.throws a = false := by
  unfold Spec.Exp.accepts at h
  unfold Spec.Exp.throws
  rw [List.any_eq_false]
  intro p hp
  have := List.all_eq_true.mp h p hp
  simp at this
  simp [this]

theorem results_all {x : Spec.Exp α} {a : α} (h : x.throws a = false) :
    ((x.policies.map (fun p => ((p.accepts a).getD false, p.description))).all (·.1))
      = x.accepts a := by
  unfold Spec.Exp.throws at h
  unfold Spec.Exp.accepts
  rw [List.all_map, Bool.eq_iff_iff, List.all_eq_true, List.all_eq_true]
  rw [List.any_eq_false] at h
  constructor
  · intro hh p hp
    have h1 := hh p hp
    have h2 := h p hp
    cases hpa : p.accepts a with
    | none => simp [hpa] at h2
    | some b => simp [hpa] at h1 ⊢; exact h1
  · intro hh p hp
    have h1 := hh p hp
    simp at h1
    simp [h1]

/-! ### The matching loop -/

/-- The match report of an applicable, accepting expectation. -/
def fullReport (w : World α) (a : α) (y : Spec.Exp α) : MatchReport :=
  { exp := y.id
    control := .applicable y.min y.max (y.count : Int) (y.seqs.map (ratingOf w y.id))
    results := y.policies.map (fun p => ((p.accepts a).getD false, p.description)) }

theorem scan_ok {w : World α} (h : Inv w) (a : α) (L : List (Spec.Exp α))
    (hL : ∀ y ∈ L, y ∈ (abs w).exps ∧ y.alive = true) :
    ∃ r, scan w a (L.map (·.id)) = .ok r ∧
      r.full = (L.filter (fun y => y.accepts a && (abs w).applicable y)).map (fullReport w a) ∧
      r.inapplicable.map (·.exp)
        = (L.filter (fun y => y.accepts a && !(abs w).applicable y)).map (·.id) ∧
      r.none.map (·.exp) = (L.filter (fun y => !y.throws a && !y.accepts a)).map (·.id) ∧
      r.thrown = (L.filter (fun y => y.throws a)).map (·.id) := by
  induction L with
  | nil => exact ⟨_, rfl, rfl, rfl, rfl, rfl⟩
  | cons y L ih =>
    obtain ⟨hy, hya⟩ := hL y (by simp)
    obtain ⟨r, hr, r1, r2, r3, r4⟩ := ih (fun z hz => hL z (by simp [hz]))
    obtain ⟨x, hx, hyx⟩ := (abs_mem_iff w y).mp hy
    have hxa : x.alive = true := by rw [hyx] at hya; exact hya
    have hd : w.deref y.id = .ok x := by simp [World.deref, hx, hxa]
    obtain ⟨st, hst, happ, hfull⟩ := h.state hx hxa
    rw [← hyx] at happ hfull
    have hpol : x.policies = y.policies := by rw [hyx]; rfl
    have hev := evalPolicies_eq a x.policies
    rw [hpol] at hev
    have hthr : y.policies.any (fun p => p.accepts a == none) = y.throws a := rfl
    rw [hthr] at hev
    simp only [List.map_cons, scan, hd, Exp.matchReport, hst, hpol, hev, hr, bind, Except.bind, pure,
      Except.pure]
    cases ht : y.throws a with
    | true =>
      have hna : y.accepts a = false := by
        cases hacc : y.accepts a with
        | false => rfl
        | true => rw [accepts_not_throws hacc] at ht; simp at ht
      refine ⟨_, rfl, ?_, ?_, ?_, ?_⟩ <;> simp [ht, hna, r1, r2, r3, r4]
    | false =>
      have hall := results_all ht
      simp only [Bool.false_eq_true, if_false, evaluateMatchReport, hall, happ]
      cases hacc : y.accepts a with
      | false =>
        refine ⟨_, rfl, ?_, ?_, ?_, ?_⟩ <;> simp [ht, hacc, r1, r2, r3, r4]
      | true =>
        cases hap : (abs w).applicable y with
        | false =>
          refine ⟨_, rfl, ?_, ?_, ?_, ?_⟩ <;> simp [ht, hacc, hap, r1, r2, r3, r4]
        | true =>
          have hst' := hfull hap
          refine ⟨_, rfl, ?_, ?_, ?_, ?_⟩
          · have hcount := toNat_count h hx
            rw [← hyx] at hcount
            have hmin : x.control.min = y.min := by rw [hyx]; rfl
            have hmax : x.control.max = y.max := by rw [hyx]; rfl
            simp [hacc, hap, r1, fullReport, hst', hcount, hmin, hmax]
          · simp [hap, hacc, r2]
          · simp [ht, hacc, r3]
          · simp [ht, r4]

/-! ### Selection -/

theorem find?_tag (f : Nat → Rating) (hf : ∀ s, (f s).tag = s) (l : List Nat) (s : Nat) :
    (l.map f).find? (fun r => r.tag == s) = if l.contains s then some (f s) else none := by
  induction l with
  | nil => rfl
  | cons t l ih =>
    simp only [List.map_cons, List.find?_cons, hf, ih]
    by_cases hts : t = s
    · subst hts; simp
    · have h1 : (t == s) = false := by simp [hts]
      have h2 : (t :: l).contains s = l.contains s := by
        simp [Ne.symm hts]
      rw [h1, h2]

/-- The number of elements satisfying `p`, as an integer. -/
def cnt (p : Nat → Bool) (l : List Nat) : Int := (l.filter p).length

theorem loop_eq (f g : Nat → Rating) (hf : ∀ s, (f s).tag = s) (hg : ∀ s, (g s).tag = s)
    (ys : List Nat) (isLazy : Nat → Bool) (xs : List Nat) :
    ∀ acc : Int, (∀ s ∈ xs, ys.contains s = true →
      ((f s).priority < (g s).priority ↔ isLazy s = true)) →
    hasBetterRatingLoop (ys.map g) (xs.map f) acc =
      (!(xs.all (fun s => ys.contains s))
        || decide (0 ≤ acc + cnt (fun s => !isLazy s) xs - cnt isLazy xs)) := by
  induction xs with
  | nil => intro acc _; simp [hasBetterRatingLoop, cnt]
  | cons s xs ih =>
    intro acc hp
    simp only [List.map_cons, hasBetterRatingLoop, hf, find?_tag g hg]
    cases hc : ys.contains s with
    | false => simp at hc; simp [hc]
    | true =>
      simp only [if_true]
      rw [ih _ (fun t ht => hp t (by simp [ht]))]
      have hs := hp s (by simp) hc
      simp only [List.all_cons, hc, Bool.true_and]
      congr 1
      cases hl : isLazy s with
      | true =>
        rw [if_pos (hs.mpr hl)]
        simp [cnt, hl]; omega
      | false =>
        rw [if_neg (by rw [hs, hl]; simp)]
        simp [cnt, hl]; omega

/-- The position of an expectation in a sequence it is attached to. -/
theorem exists_pos {w : World α} {y : Spec.Exp α} (hy : y ∈ (abs w).exps) {s : Nat}
    (hs : y.seqs.contains s = true) : ∃ n : Nat, ((abs w).attached s)[n]? = some y := by
  apply List.mem_iff_getElem?.mp
  exact List.mem_filter.mpr ⟨hy, hs⟩

theorem kindCount_eq (S : Spec.State α) (x : Spec.Exp α) (st : Strategy) :
    (S.kindCount x st : Int) = cnt (fun s => (S.seqs[s]?.map (·.strategy)) == some st) x.seqs := rfl

theorem hasBetterRating_eq {w : World α} (h : Inv w) {x y : Spec.Exp α} (hx : x ∈ (abs w).exps)
    (hy : y ∈ (abs w).exps) (hlt : y.id < x.id) :
    hasBetterRating (x.seqs.map (ratingOf w x.id)) (y.seqs.map (ratingOf w y.id))
      = !(abs w).displaces y x := by
  have hstrat : ∀ s ∈ x.seqs, ∃ c, w.seqs[s]? = some c ∧
      (abs w).seqs[s]?.map (·.strategy) = some c.seq.strategy := by
    intro s hs
    have := h.seq_lt x hx s hs
    refine ⟨w.seqs[s], by rw [List.getElem?_eq_getElem], ?_⟩
    simp [abs, absSeq, this]
  unfold hasBetterRating
  rw [loop_eq (ratingOf w x.id) (ratingOf w y.id) (fun _ => rfl) (fun _ => rfl) y.seqs
    (fun s => (abs w).seqs[s]?.map (·.strategy) == some .lazy)]
  · unfold Spec.State.displaces
    rw [Bool.not_and]
    congr 1
    have e : cnt (fun s => !((abs w).seqs[s]?.map (·.strategy) == some Strategy.lazy)) x.seqs
        = cnt (fun s => (abs w).seqs[s]?.map (·.strategy) == some Strategy.greedy) x.seqs := by
      unfold cnt
      congr 2
      apply List.filter_congr
      intro s hs
      obtain ⟨c, _, hc⟩ := hstrat s hs
      rw [hc]
      cases c.seq.strategy <;> rfl
    rw [e, ← kindCount_eq, ← kindCount_eq, Bool.eq_iff_iff]
    simp
  · intro s hs hys
    obtain ⟨c, hc1, hc2⟩ := hstrat s hs
    obtain ⟨n, hn⟩ := exists_pos hx (List.contains_iff_mem.mpr hs)
    obtain ⟨m, hm⟩ := exists_pos hy hys
    have hmn := (sorted_getElem?_lt (attached_sorted w s) hm hn).mp hlt
    have f1 := findIdx?_id (attached_sorted w s) hn
    have f2 := findIdx?_id (attached_sorted w s) hm
    rw [hc2]
    simp only [ratingOf, hc1, f1, f2]
    cases c.seq.strategy with
    | lazy => simp [prio]; omega
    | greedy => simp [prio]; omega

theorem fullReport_ratings (w : World α) (a : α) (y : Spec.Exp α) :
    (fullReport w a y).ratings = .ok (y.seqs.map (ratingOf w y.id)) := rfl

theorem pickLoop_ok {w : World α} (h : Inv w) (a : α) (ys : List (Spec.Exp α)) :
    ∀ x, x ∈ (abs w).exps → (∀ y ∈ ys, y ∈ (abs w).exps) → (∀ y ∈ ys, y.id < x.id) →
    ys.Pairwise (fun p q => q.id < p.id) →
    pickLoop (fullReport w a x) (ys.map (fullReport w a))
      = .ok (fullReport w a ((abs w).select x ys)) := by
  induction ys with
  | nil => intro x _ _ _ _; rfl
  | cons y ys ih =>
    intro x hx hmem hlt hpw
    rw [List.pairwise_cons] at hpw
    simp only [List.map_cons, pickLoop, fullReport_ratings, bind, Except.bind]
    rw [hasBetterRating_eq h hx (hmem y (by simp)) (hlt y (by simp))]
    unfold Spec.State.select
    cases (abs w).displaces y x with
    | true =>
      simp only [Bool.not_true, Bool.false_eq_true, if_false, if_true]
      exact ih y (hmem y (by simp)) (fun z hz => hmem z (by simp [hz])) hpw.1 hpw.2
    | false =>
      simp only [Bool.not_false, if_true, Bool.false_eq_true, if_false]
      exact ih x hx (fun z hz => hmem z (by simp [hz])) (fun z hz => hlt z (by simp [hz])) hpw.2

theorem select_mem (S : Spec.State α) (ys : List (Spec.Exp α)) :
    ∀ x, S.select x ys = x ∨ S.select x ys ∈ ys := by
  induction ys with
  | nil => intro x; left; rfl
  | cons y ys ih =>
    intro x
    unfold Spec.State.select
    split
    · rcases ih y with h | h
      · right; rw [h]; simp
      · right; simp [h]
    · rcases ih x with h | h
      · left; exact h
      · right; simp [h]

/-! ### The whole call -/

theorem candidates_spec (w : World α) (m : Nat) :
    (∀ y ∈ (abs w).candidates m, y ∈ (abs w).exps ∧ y.alive = true) ∧
    ((abs w).candidates m).Pairwise (fun p q => q.id < p.id) := by
  constructor
  · intro y hy
    unfold Spec.State.candidates at hy
    rw [List.mem_reverse, List.mem_filter] at hy
    refine ⟨hy.1, ?_⟩
    have := hy.2
    simp at this
    exact this.1
  · unfold Spec.State.candidates
    rw [List.pairwise_reverse]
    exact List.Pairwise.filter _ (abs_sorted w)

theorem Inv.handleCall {w : World α} (h : Inv w) {m : Nat} (hm : m < w.colls.length) (a : α) :
    ∃ w', w.handleCall m a = .ok (w', ((abs w).call m a).2) ∧ Inv w' ∧
      abs w' = ((abs w).call m a).1 := by
  have hes : w.colls[m]? = some w.colls[m] := by rw [List.getElem?_eq_getElem]
  have hcoll := h.colls m _ hes
  obtain ⟨hc1, hc2⟩ := candidates_spec w m
  obtain ⟨r, hr, r1, r2, r3, r4⟩ := scan_ok h a ((abs w).candidates m) hc1
  have hrev : (w.colls[m]).reverse = ((abs w).candidates m).map (·.id) := by
    rw [hcoll]; unfold Spec.State.candidates
    rw [List.map_reverse]
  simp only [World.handleCall, hes, hrev, hr, bind, Except.bind, pure, Except.pure]
  have hff : (((abs w).candidates m).filter (·.accepts a)).filter (abs w).applicable
      = ((abs w).candidates m).filter (fun y => y.accepts a && (abs w).applicable y) := by
    rw [List.filter_filter]
    apply List.filter_congr
    intro y _
    rw [Bool.and_comm]
  have hun : r.thrown.map Event.unhandled
      = (((abs w).candidates m).filter (·.throws a)).map (fun x => Event.unhandled x.id) := by
    rw [r4, List.map_map]; rfl
  unfold Spec.State.call
  simp only [hff, hun]
  cases hfull : ((abs w).candidates m).filter (fun y => y.accepts a && (abs w).applicable y) with
  | cons x older =>
    rw [hfull] at r1
    have hmem : ∀ y ∈ x :: older, y ∈ (abs w).exps ∧ y.alive = true ∧ (abs w).applicable y = true := by
      intro y hy
      rw [← hfull, List.mem_filter] at hy
      have := hy.2
      simp at this
      exact ⟨(hc1 y hy.1).1, (hc1 y hy.1).2, this.2⟩
    have hpw : (x :: older).Pairwise (fun p q => q.id < p.id) := by
      rw [← hfull]; exact List.Pairwise.filter _ hc2
    rw [List.pairwise_cons] at hpw
    have hpick := pickLoop_ok h a older x (hmem x (by simp)).1 (fun y hy => (hmem y (by simp [hy])).1)
      hpw.1 hpw.2
    have hb : (abs w).select x older ∈ x :: older := by
      rcases select_mem (abs w) older x with hs | hs
      · rw [hs]; simp
      · simp [hs]
    obtain ⟨hb1, hb2, hb3⟩ := hmem _ hb
    obtain ⟨z, hz, hzb⟩ := (abs_mem_iff w _).mp hb1
    have hza : z.alive = true := by rw [hzb] at hb2; exact hb2
    rw [hzb] at hb3
    obtain ⟨w', hw1, hw2, hw3, hw4⟩ := h.consume hz hza hb3
    refine ⟨w', ?_, hw2, hw3⟩
    simp only [r1, List.map_cons, List.isEmpty_cons, Bool.not_false, if_true, pickBestMatch, hpick]
    have hexp : (fullReport w a ((abs w).select x older)).exp = ((abs w).select x older).id := rfl
    rw [hexp, hw1]
  | nil =>
    rw [hfull] at r1
    simp only [r1, List.map_nil, List.isEmpty_nil, Bool.not_true, Bool.false_eq_true, if_false]
    have hnone : ∀ y ∈ (abs w).candidates m, y.accepts a = true → (abs w).applicable y = false := by
      intro y hy hacc
      rw [List.filter_eq_nil_iff] at hfull
      have := hfull y hy
      simpa [hacc] using this
    have hin : r.inapplicable.map (·.exp)
        = (((abs w).candidates m).filter (·.accepts a)).map (·.id) := by
      rw [r2]
      congr 1
      apply List.filter_congr
      intro y hy
      cases hacc : y.accepts a with
      | false => rfl
      | true => simp [hnone y hy hacc]
    have hemp : r.inapplicable.isEmpty = (((abs w).candidates m).filter (·.accepts a)).isEmpty := by
      have := congrArg List.isEmpty hin
      simpa using this
    cases he : (((abs w).candidates m).filter (·.accepts a)).isEmpty with
    | true =>
      rw [he] at hemp
      simp only [hemp, Bool.not_true, Bool.false_eq_true, if_false, if_true]
      refine ⟨w, ?_, h, rfl⟩
      have : r.none.map (·.exp)
          = (((abs w).candidates m).filter (fun x => !x.throws a)).map (·.id) := by
        rw [r3]
        congr 1
        apply List.filter_congr
        intro y hy
        have hna : y.accepts a = false := by
          rw [List.isEmpty_iff, List.filter_eq_nil_iff] at he
          simpa using he y hy
        simp [hna]
      rw [this]
    | false =>
      rw [he] at hemp
      simp only [hemp, Bool.not_false, if_true, Bool.false_eq_true, if_false]
      exact ⟨w, by rw [hin], h, rfl⟩

end Mimic
