import Verif.Proofs.Handle

/-!
# Creating and destroying expectations and sequences
-/

set_option autoImplicit false

namespace Mimic

variable {α : Type}

/-! ### Duplicate detection -/

theorem insertSorted_perm (a : Nat) (l : List Nat) : (insertSorted a l).Perm (a :: l) := by
  induction l with
  | nil => exact List.Perm.refl _
  | cons b l ih =>
    unfold insertSorted
    split
    · exact List.Perm.refl _
    · exact (List.Perm.cons b ih).trans (List.Perm.swap a b l)

theorem sortTags_perm (l : List Nat) : (sortTags l).Perm l := by
  induction l with
  | nil => exact List.Perm.refl _
  | cons a l ih => exact (insertSorted_perm a _).trans (List.Perm.cons a ih)

theorem insertSorted_sorted (a : Nat) (l : List Nat) (h : l.Pairwise (· ≤ ·)) :
    (insertSorted a l).Pairwise (· ≤ ·) := by
  induction l with
  | nil => simp [insertSorted]
  | cons b l ih =>
    rw [List.pairwise_cons] at h
    unfold insertSorted
    split
    · rename_i hab
      rw [List.pairwise_cons, List.pairwise_cons]
      refine ⟨fun c hc => ?_, h⟩
      rcases List.mem_cons.mp hc with rfl | hc
      · exact hab
      · have := h.1 c hc; omega
    · rename_i hab
      rw [List.pairwise_cons]
      refine ⟨fun c hc => ?_, ih h.2⟩
      have := (insertSorted_perm a l).mem_iff.mp hc
      rcases List.mem_cons.mp this with rfl | hc
      · omega
      · exact h.1 c hc

theorem sortTags_sorted (l : List Nat) : (sortTags l).Pairwise (· ≤ ·) := by
  induction l with
  | nil => exact List.Pairwise.nil
  | cons a l ih => exact insertSorted_sorted a _ ih

theorem hasAdjacentDup_iff (l : List Nat) (h : l.Pairwise (· ≤ ·)) :
    hasAdjacentDup l = true ↔ ¬ l.Nodup := by
  induction l with
  | nil => simp [hasAdjacentDup]
  | cons a l ih =>
    rw [List.pairwise_cons] at h
    cases l with
    | nil => simp [hasAdjacentDup]
    | cons b l =>
      have ih' := ih h.2
      unfold hasAdjacentDup
      rw [Bool.or_eq_true, ih', show (a :: b :: l).Nodup ↔ a ∉ b :: l ∧ (b :: l).Nodup from List.nodup_cons]
      constructor
      · rintro (hab | hnd)
        · simp at hab; simp [hab]
        · exact fun hh => hnd hh.2
      · intro hh
        by_cases hab : a = b
        · left; simp [hab]
        · right
          intro hnd
          apply hh
          refine ⟨fun hmem => ?_, hnd⟩
          rcases List.mem_cons.mp hmem with rfl | hmem
          · exact hab rfl
          · have h1 := h.1 b (by simp)
            have h2 := (List.pairwise_cons.mp h.2).1 a hmem
            omega

theorem seqConfig_eq (tags : List Nat) :
    seqConfig tags = if tags.Nodup then some tags else none := by
  unfold seqConfig
  simp only [hasAdjacentDup_iff _ (sortTags_sorted tags), (sortTags_perm tags).nodup_iff]
  by_cases h : tags.Nodup
  · simp [h]
  · have : 1 < tags.length := by
      rcases tags with _ | ⟨a, _ | ⟨b, l⟩⟩
      · simp at h
      · simp at h
      · simp
    simp [h, this]

theorem timesMake_eq (min max : Int) :
    TimesConfig.make min max = if Spec.validTimes min max then some { min := min, max := max } else none := by
  unfold TimesConfig.make
  by_cases h : Spec.validTimes min max
  · have h' : 0 ≤ min ∧ min ≤ max := h
    rw [if_pos h, if_neg (by omega)]
  · have h' : ¬ (0 ≤ min ∧ min ≤ max) := h
    rw [if_neg h, if_pos (by omega)]

/-! ### Attaching to sequences -/

theorem makeSequenceEntries_ok (A : Nat → List (Spec.Exp α)) (tags : List Nat) :
    ∀ (h : Seqs), tags.Nodup →
    (∀ s ∈ tags, ∃ c, h[s]? = some c ∧ c.alive = true ∧ SeqRep c.seq (A s)) →
    (∀ s ∈ tags, ((A s).length : Int) ≤ intMax) →
    ∃ h', makeSequenceEntries h tags = .ok (h', tags.map (fun s => (s, ((A s).length : Int)))) ∧
      h'.length = h.length ∧ (∀ s, s ∉ tags → h'[s]? = h[s]?) ∧
      (∀ s c, s ∈ tags → h[s]? = some c →
        h'[s]? = some { c with seq := { c.seq with entries := c.seq.entries ++ [.unsatisfied] } }) := by
  induction tags with
  | nil => intro h _ _ _; exact ⟨h, rfl, rfl, fun _ _ => rfl, fun s c hm => by simp at hm⟩
  | cons s tags ih =>
    intro h hnd hc hlen
    rw [List.nodup_cons] at hnd
    obtain ⟨c, hcs, hca, hrep⟩ := hc s (by simp)
    have hadd := hrep.add (hlen s (by simp))
    obtain ⟨h', e1, e2, e3, e4⟩ := ih (h.store s { c.seq with entries := c.seq.entries ++ [.unsatisfied] })
      hnd.2 (by
        intro t ht
        have hne : t ≠ s := fun he => hnd.1 (he ▸ ht)
        rw [store_getElem?_ne hne]
        exact hc t (by simp [ht]))
      (fun t ht => hlen t (by simp [ht]))
    refine ⟨h', ?_, by rw [e2, store_length], ?_, ?_⟩
    · simp only [makeSequenceEntries, deref_ok hcs hca, hadd, e1, bind, Except.bind, pure, Except.pure,
        List.map_cons]
    · intro t ht
      simp only [List.mem_cons, not_or] at ht
      rw [e3 t ht.2, store_getElem?_ne ht.1]
    · intro t c' ht hc'
      by_cases hts : t = s
      · subst hts
        rw [hcs] at hc'
        injection hc' with hc'
        subst hc'
        rw [e3 t hnd.1]
        exact store_getElem?_self hcs _
      · rcases List.mem_cons.mp ht with rfl | ht
        · exact absurd rfl hts
        · exact e4 t c' ht (by rw [store_getElem?_ne hts]; exact hc')

theorem makeSequenceEntries_full (A : Nat → List (Spec.Exp α)) (tags : List Nat) :
    ∀ (h : Seqs), tags.Nodup →
    (∀ s ∈ tags, ∃ c, h[s]? = some c ∧ c.alive = true ∧ SeqRep c.seq (A s)) →
    (∃ s ∈ tags, ¬ ((A s).length : Int) ≤ intMax) →
    ∃ why, makeSequenceEntries h tags = .error (.terminate why) := by
  induction tags with
  | nil => rintro h _ _ ⟨s, hs, _⟩; simp at hs
  | cons s tags ih =>
    rintro h hnd hc ⟨t, ht, hfull⟩
    rw [List.nodup_cons] at hnd
    obtain ⟨c, hcs, hca, hrep⟩ := hc s (by simp)
    by_cases hlen : ((A s).length : Int) ≤ intMax
    · have hadd := hrep.add hlen
      have htt : t ∈ tags := by
        rcases List.mem_cons.mp ht with rfl | ht
        · exact absurd hlen hfull
        · exact ht
      obtain ⟨why, e1⟩ := ih (h.store s { c.seq with entries := c.seq.entries ++ [.unsatisfied] })
        hnd.2 (by
          intro t ht
          have hne : t ≠ s := fun he => hnd.1 (he ▸ ht)
          rw [store_getElem?_ne hne]
          exact hc t (by simp [ht]))
        ⟨t, htt, hfull⟩
      refine ⟨why, ?_⟩
      simp only [makeSequenceEntries, deref_ok hcs hca, hadd, e1, bind, Except.bind]
    · have : ∃ why, makeSequenceEntries h (s :: tags) = .error (.terminate why) := by
        simp only [makeSequenceEntries, deref_ok hcs hca, hrep.add_none hlen, bind, Except.bind]
        exact ⟨_, rfl⟩
      exact this

/-- The expectation created by `expect`. -/
def newExp (w : World α) (m : Nat) (min max : Int) (tags : List Nat) (ps : List (Policy α)) :
    Spec.Exp α :=
  { id := w.exps.length, mock := m, min := min, max := max, seqs := tags, policies := ps, count := 0,
    alive := true }

theorem controlMake_ok {w : World α} (h : Inv w) {tags : List Nat} (hnd : tags.Nodup)
    (hh : ∀ s ∈ tags, ∃ c, w.seqs[s]? = some c ∧ c.alive = true)
    (hlen : ∀ s ∈ tags, (((abs w).attached s).length : Int) ≤ intMax) (m : Nat) (ps : List (Policy α))
    {min max : Int} (hv : Spec.validTimes min max) :
    ∃ h', Control.make { min := min, max := max } tags w.seqs = .ok (h',
        { min := min, max := max, count := 0,
          entries := tags.map (fun s => (s, (((abs w).attached s).length : Int))) }) ∧
      h'.length = w.seqs.length ∧ (∀ s, s ∉ tags → h'[s]? = w.seqs[s]?) ∧
      (∀ s ∈ tags, ∃ c q', w.seqs[s]? = some c ∧ h'[s]? = some { c with seq := q' } ∧
        q'.strategy = c.seq.strategy ∧
        SeqRep q' ((abs w).attached s ++ [newExp w m min max tags ps])) := by
  have hcells : ∀ s ∈ tags, ∃ c, w.seqs[s]? = some c ∧ c.alive = true ∧
      SeqRep c.seq ((abs w).attached s) := by
    intro s hs
    obtain ⟨c, h1, h2⟩ := hh s hs
    exact ⟨c, h1, h2, h.rep s c h1⟩
  obtain ⟨h1, e1, e2, e3, e4⟩ := makeSequenceEntries_ok (fun s => (abs w).attached s) tags w.seqs hnd
    hcells hlen
  have hmap : (tags.map (fun s => (s, (((abs w).attached s).length : Int)))).map (·.1) = tags := by
    rw [List.map_map]; exact List.map_id tags
  have hatt : ∀ s ∈ tags, ∃ c q', w.seqs[s]? = some c ∧ c.alive = true ∧
      seqUpdate 0 min max { c.seq with entries := c.seq.entries ++ [.unsatisfied] }
        (((abs w).attached s).length : Int) = .ok q' ∧ q'.strategy = c.seq.strategy ∧
      SeqRep q' ((abs w).attached s ++ [newExp w m min max tags ps]) := by
    intro s hs
    obtain ⟨c, g1, g2, g3⟩ := hcells s hs
    obtain ⟨q', k1, k2, k3⟩ := g3.attach (hlen s hs) (newExp w m min max tags ps) rfl hv.1 hv.2
    exact ⟨c, q', g1, g2, k1, k2, k3⟩
  obtain ⟨h2, k1, k2, k3, k4⟩ := updateSequenceStates_ok
    { min := min, max := max, count := 0,
      entries := tags.map (fun s => (s, (((abs w).attached s).length : Int))) } h1
    (by rw [hmap]; exact hnd)
    (by
      intro s i hen
      obtain ⟨t, ht, hte⟩ := List.mem_map.mp hen
      simp only [Prod.mk.injEq] at hte
      obtain ⟨rfl, rfl⟩ := hte
      obtain ⟨c, q', g1, g2, g3, _⟩ := hatt t ht
      exact ⟨_, q', e4 t c ht g1, g2, g3⟩)
  refine ⟨h2, ?_, by rw [k2, e2], ?_, ?_⟩
  · simp only [Control.make, e1, k1, bind, Except.bind, pure, Except.pure]
  · intro s hs
    rw [k3 s (by simp only [hmap]; exact hs), e3 s hs]
  · intro s hs
    obtain ⟨c, q', g1, g2, g3, g4, g5⟩ := hatt s hs
    refine ⟨c, q', g1, ?_, g4, g5⟩
    have := k4 s _ { c with seq := { c.seq with entries := c.seq.entries ++ [.unsatisfied] } } q'
      (List.mem_map.mpr ⟨s, hs, rfl⟩) (e4 s c hs g1) g3
    exact this

theorem hasHandle_abs (w : World α) (s : Nat) : (abs w).hasHandle s = w.hasHandle s := by
  unfold Spec.State.hasHandle World.hasHandle abs
  simp only [List.getElem?_map]
  cases w.seqs[s]? <;> rfl

theorem owned_of_handle {S : Spec.State α} {s : Nat} (h : S.hasHandle s = true) :
    S.owned s = true := by
  unfold Spec.State.hasHandle at h
  unfold Spec.State.owned
  rw [h]; rfl

theorem Inv.handle_alive {w : World α} (h : Inv w) {s : Nat} (hs : w.hasHandle s = true) :
    ∃ c, w.seqs[s]? = some c ∧ c.alive = true ∧ c.handle = true := by
  have hs' := hs
  unfold World.hasHandle at hs'
  cases hc : w.seqs[s]? with
  | none => rw [hc] at hs'; simp at hs'
  | some c =>
    rw [hc] at hs'
    refine ⟨c, rfl, ?_, hs'⟩
    rw [h.alive s c hc]
    apply owned_of_handle
    rw [hasHandle_abs]; exact hs

theorem mem_lt_ids {w : World α} {y : Spec.Exp α} (hy : y ∈ (abs w).exps) : y.id < w.exps.length := by
  obtain ⟨x, hx, _⟩ := (abs_mem_iff w y).mp hy
  exact getElem?_lt hx

/-- Creation of an expectation with legal limits and distinct sequences. -/
theorem Inv.expect_ok {w : World α} (h : Inv w) {m : Nat} {es : List Nat} (hm : w.colls[m]? = some es)
    {min max : Int} {tags : List Nat} (ps : List (Policy α))
    (hh : tags.all w.hasHandle = true) (hi : isInt min = true) (hi' : isInt max = true)
    (hv : Spec.validTimes min max) (hnd : tags.Nodup)
    (hlen : ∀ s ∈ tags, (((abs w).attached s).length : Int) ≤ intMax) :
    ∃ w', w.expect m min max tags ps = .ok (w', [.created w.exps.length]) ∧ Inv w' ∧
      abs w' = { abs w with exps := (abs w).exps ++ [newExp w m min max tags ps] } := by
  have hhandle : ∀ s ∈ tags, w.hasHandle s = true := List.all_eq_true.mp hh
  obtain ⟨h', k1, k2, k3, k4⟩ := controlMake_ok h hnd
    (fun s hs => by
      obtain ⟨c, g1, g2, _⟩ := h.handle_alive (hhandle s hs)
      exact ⟨c, g1, g2⟩) hlen m ps hv
  have hes := h.colls m es hm
  have hnot : es.contains w.exps.length = false := by
    rw [Bool.eq_false_iff]
    intro hc
    rw [List.contains_iff_mem, hes] at hc
    obtain ⟨y, hy, hid⟩ := List.mem_map.mp hc
    have := mem_lt_ids (List.mem_filter.mp hy).1
    omega
  have hcell : ∀ s c', h'[s]? = some c' → ∃ c, w.seqs[s]? = some c ∧ absSeq c' = absSeq c ∧
      c'.alive = c.alive ∧ SeqRep c'.seq ((abs w).attached s ++
        (if tags.contains s then [newExp w m min max tags ps] else [])) := by
    intro s c' hc'
    by_cases hs : s ∈ tags
    · obtain ⟨c, q', g1, g2, g3, g4⟩ := k4 s hs
      rw [g2] at hc'
      injection hc' with hc'
      subst hc'
      refine ⟨c, g1, by simp [absSeq, g3], rfl, ?_⟩
      rw [if_pos (List.contains_iff_mem.mpr hs)]
      exact g4
    · rw [k3 s hs] at hc'
      refine ⟨c', hc', rfl, rfl, ?_⟩
      rw [if_neg (by rw [List.contains_iff_mem]; exact hs), List.append_nil]
      exact h.rep s c' hc'
  have hseqsEq : h'.map absSeq = w.seqs.map absSeq := by
    apply List.ext_getElem?
    intro s
    rw [List.getElem?_map, List.getElem?_map]
    cases hc' : h'[s]? with
    | none =>
      rw [List.getElem?_eq_none_iff] at hc'
      have : w.seqs[s]? = none := by rw [List.getElem?_eq_none_iff]; omega
      rw [this]
    | some c' =>
      obtain ⟨c, g1, g2, _⟩ := hcell s c' hc'
      rw [g1]
      exact congrArg some g2
  have hmap : (tags.map (fun s => (s, (((abs w).attached s).length : Int)))).map (·.1) = tags := by
    rw [List.map_map]; exact List.map_id tags
  let x : Exp α :=
    { coll := m
      control :=
        { min := min, max := max, count := 0,
          entries := tags.map (fun s => (s, (((abs w).attached s).length : Int))) }
      policies := ps
      alive := true }
  have hxabs : absExp w.exps.length x = newExp w m min max tags ps := by
    simp only [absExp, newExp, x, hmap]; rfl
  let w' : World α := { seqs := h', exps := w.exps ++ [x], colls := w.colls.set m (es ++ [w.exps.length]) }
  have habs : abs w' = { abs w with exps := (abs w).exps ++ [newExp w m min max tags ps] } := by
    simp only [abs, w', hseqsEq, List.mapIdx_append, List.length_set]
    simp only [List.mapIdx_cons, List.mapIdx_nil, Nat.zero_add, hxabs]
  refine ⟨w', ?_, ?_, habs⟩
  · simp only [World.expect, hm, hh, hi, hi', Bool.and_true, if_true, timesMake_eq, hv, seqConfig_eq, hnd,
      k1, bind, Except.bind, pure, Except.pure, check, hnot, Bool.not_false]
    rfl
  · have hatt : ∀ s, (abs w').attached s = (abs w).attached s ++
        (if tags.contains s then [newExp w m min max tags ps] else []) := by
      intro s
      rw [habs]
      unfold Spec.State.attached
      simp only [List.filter_append]
      congr 1
      simp only [List.filter_cons, List.filter_nil]
      rfl
    have hmem : ∀ y, y ∈ (abs w').exps → y ∈ (abs w).exps ∨ y = newExp w m min max tags ps := by
      intro y hy
      rw [habs] at hy
      simpa using hy
    constructor
    · intro y hy
      rcases hmem y hy with hy | rfl
      · exact h.ok y hy
      · refine ⟨hv.1, hv.2, ?_, ?_⟩
        · simp [isInt] at hi'; exact hi'.2
        · have := hv.1; have := hv.2
          simp [newExp]; omega
    · intro e y hy
      simp only [w', List.getElem?_append] at hy
      split at hy
      · exact h.count_nonneg e y hy
      · have hy' := List.mem_of_getElem? hy
        simp at hy'
        rw [hy']
        simp [x]
    · intro y hy
      rcases hmem y hy with hy | rfl
      · exact h.nodup y hy
      · exact hnd
    · intro e y hy en hen
      rw [hatt]
      simp only [w', List.getElem?_append] at hy
      split at hy
      · rename_i hlt
        obtain ⟨n, z, p1, p2, p3⟩ := h.pos e y hy en hen
        refine ⟨n, z, p1, ?_, p3⟩
        rw [List.getElem?_append_left (getElem?_lt p2)]
        exact p2
      · rename_i hge
        have hlt := getElem?_lt hy
        simp at hlt
        have hee : e = w.exps.length := by omega
        have hy' := List.mem_of_getElem? hy
        simp at hy'
        subst hy'
        obtain ⟨s, hs, rfl⟩ := List.mem_map.mp hen
        refine ⟨_, newExp w m min max tags ps, rfl, ?_, hee.symm⟩
        rw [if_pos (List.contains_iff_mem.mpr hs), List.getElem?_append_right (Nat.le_refl _)]
        simp
    · intro y hy s hs
      simp only [w', k2]
      rcases hmem y hy with hy | rfl
      · exact h.seq_lt y hy s hs
      · obtain ⟨c, g1, _⟩ := h.handle_alive (hhandle s hs)
        exact getElem?_lt g1
    · intro s c' hc'
      obtain ⟨c, _, _, _, g⟩ := hcell s c' hc'
      rw [hatt]; exact g
    · intro s c' hc'
      obtain ⟨c, g1, g2, g3, _⟩ := hcell s c' hc'
      rw [g3, h.alive s c g1, habs]
      unfold Spec.State.owned
      simp only [List.any_append]
      by_cases hs : s ∈ tags
      · have hhs := hhandle s hs
        rw [← hasHandle_abs] at hhs
        unfold Spec.State.hasHandle at hhs
        rw [hhs]; simp
      · simp [newExp, hs]
    · intro c es' hes'
      simp only [w', List.getElem?_set] at hes'
      rw [habs]
      simp only [List.filter_append, List.map_append]
      by_cases hmc : m = c
      · subst hmc
        rw [if_pos rfl, if_pos (getElem?_lt hm)] at hes'
        injection hes' with hes'
        rw [← hes', ← hes]
        simp [newExp]
      · rw [if_neg hmc] at hes'
        rw [← h.colls c es' hes']
        simp [newExp, hmc]
    · intro y hy
      simp only [w', List.length_set]
      rcases hmem y hy with hy | rfl
      · exact h.coll_lt y hy
      · exact getElem?_lt hm

/-! ### End of sequences -/

theorem SeqRep.map_congr {q : Sequence} {A : List (Spec.Exp α)} (h : SeqRep q A)
    (f : Spec.Exp α → Spec.Exp α)
    (hf : ∀ y, (f y).min = y.min ∧ (f y).max = y.max ∧ (f y).count = y.count) :
    SeqRep q (A.map f) := by
  have hst : ∀ y, stOf (f y) = stOf y := by
    intro y; obtain ⟨h1, h2, h3⟩ := hf y
    unfold stOf; rw [h1, h2, h3]
  have hget : ∀ (n : Nat) z, (A.map f)[n]? = some z → ∃ y, A[n]? = some y ∧ z = f y := by
    intro n z hz
    rw [List.getElem?_map] at hz
    cases hA : A[n]? with
    | none => rw [hA] at hz; simp at hz
    | some y => rw [hA] at hz; simp at hz; exact ⟨y, rfl, hz.symm⟩
  refine ⟨?_, by simpa using h.len, h.cur_nonneg, by simpa using h.cur_le, ?_, ?_, ?_⟩
  · rw [h.entries, List.map_map]
    apply List.map_congr_left
    intro y _
    exact (hst y).symm
  · intro n z hz hlt
    obtain ⟨y, hy, rfl⟩ := hget n z hz
    have := h.before n y hy hlt
    rw [(hf y).1, (hf y).2.2]; exact this
  · intro n z hz hlt
    obtain ⟨y, hy, rfl⟩ := hget n z hz
    rw [(hf y).2.2]; exact h.after n y hy hlt
  · intro n z hz heq hpos
    obtain ⟨y, hy, rfl⟩ := hget n z hz
    rw [(hf y).2.2]; exact h.at_cur n y hy heq hpos

theorem owned_abs (w : World α) (s : Nat) : w.owned s = (abs w).owned s := by
  unfold World.owned Spec.State.owned
  congr 1
  · simp only [abs, List.getElem?_map]
    cases w.seqs[s]? <;> rfl
  · rw [Bool.eq_iff_iff, List.any_eq_true, List.any_eq_true]
    have hh : ∀ (e : Nat) (x : Exp α), x.holds s = (absExp e x).seqs.contains s := by
      intro e x
      rw [Bool.eq_iff_iff, List.contains_iff_mem]
      simp [Exp.holds, absExp]
    constructor
    · rintro ⟨x, hx, hp⟩
      obtain ⟨e, he⟩ := List.mem_iff_getElem?.mp hx
      refine ⟨absExp e x, abs_mem he, ?_⟩
      rw [← hh e x]
      exact hp
    · rintro ⟨y, hy, hp⟩
      obtain ⟨x, hx, hyx⟩ := (abs_mem_iff w y).mp hy
      refine ⟨x, List.mem_of_getElem? hx, ?_⟩
      rw [hh y.id x]
      rw [hyx] at hp
      exact hp

theorem release_cons (S : Spec.State α) (s : Nat) (ss : List Nat) :
    S.release (s :: ss) = (if S.owned s then [] else S.sequenceEnd s) ++ S.release ss := by
  simp [Spec.State.release]

theorem releaseAll_ok (pend : List Nat) :
    ∀ (w : World α), pend.Nodup →
    (∀ s c, w.seqs[s]? = some c → SeqRep c.seq ((abs w).attached s)) →
    (∀ s ∈ pend, ∃ c, w.seqs[s]? = some c ∧ c.alive = true) →
    ∃ h', w.releaseAll pend = .ok ({ w with seqs := h' }, (abs w).release pend) ∧
      h'.length = w.seqs.length ∧
      ∀ s c', h'[s]? = some c' → ∃ c, w.seqs[s]? = some c ∧ c'.seq = c.seq ∧ c'.handle = c.handle ∧
        c'.alive = (if s ∈ pend then (abs w).owned s else c.alive) := by
  induction pend with
  | nil =>
    intro w _ _ _
    exact ⟨w.seqs, rfl, rfl, fun s c hc => ⟨c, hc, rfl, rfl, by simp⟩⟩
  | cons s pend ih =>
    intro w hnd hrep hp
    rw [List.nodup_cons] at hnd
    obtain ⟨c, hc, hca⟩ := hp s (by simp)
    rw [release_cons]
    simp only [World.releaseAll, World.release, owned_abs]
    cases ho : (abs w).owned s with
    | true =>
      obtain ⟨h', e1, e2, e3⟩ := ih w hnd.2 hrep (fun t ht => hp t (by simp [ht]))
      refine ⟨h', ?_, e2, ?_⟩
      · simp [e1, bind, Except.bind, pure, Except.pure]
      · intro t c' hc'
        obtain ⟨c0, g1, g2, g3, g4⟩ := e3 t c' hc'
        refine ⟨c0, g1, g2, g3, ?_⟩
        rw [g4]
        by_cases hts : t = s
        · subst hts
          rw [if_neg hnd.1, if_pos (by simp), ho]
          rw [g1] at hc; injection hc with hc; rw [hc]; exact hca
        · simp [hts]
    | false =>
      let w1 : World α := { w with seqs := w.seqs.modify s (fun c => { c with alive := false }) }
      have hmod : ∀ t, w1.seqs[t]? = (w.seqs[t]?).map (fun c => if t = s then { c with alive := false } else c) := by
        intro t
        simp only [w1, List.getElem?_modify]
        by_cases hts : s = t
        · subst hts; simp
        · have : ¬ t = s := fun h => hts h.symm
          simp [hts, this]
      have habs : abs w1 = abs w := by
        unfold abs
        congr 1
        apply List.ext_getElem?
        intro t
        rw [List.getElem?_map, List.getElem?_map, hmod]
        cases w.seqs[t]? with
        | none => rfl
        | some c => simp only [Option.map_some]; split <;> rfl
      obtain ⟨h', e1, e2, e3⟩ := ih w1 hnd.2 (by
          intro t c' hc'
          rw [habs]
          rw [hmod] at hc'
          cases hct : w.seqs[t]? with
          | none => rw [hct] at hc'; simp at hc'
          | some c0 =>
            rw [hct] at hc'
            simp at hc'
            subst hc'
            have := hrep t c0 hct
            split <;> exact this)
        (by
          intro t ht
          have hne : t ≠ s := fun he => hnd.1 (he ▸ ht)
          obtain ⟨c0, g1, g2⟩ := hp t (by simp [ht])
          exact ⟨c0, by rw [hmod, g1]; simp [hne], g2⟩)
      refine ⟨h', ?_, ?_, ?_⟩
      · have hdes := (hrep s c hc).destruct
        have hw1 : ({ w with seqs := w.seqs.modify s (fun c => { c with alive := false }) } : World α) = w1 := rfl
        simp only [Bool.false_eq_true, if_false, deref_ok hc hca, hdes, bind, Except.bind, pure,
          Except.pure, Spec.State.sequenceEnd, hw1]
        rw [habs] at e1
        cases hf : ((abs w).attached s).findIdx? (·.unfulfilled) with
        | none => simp [e1, w1]
        | some k => simp [e1, w1]
      · rw [e2]; simp [w1]
      · intro t c' hc'
        obtain ⟨c1, g1, g2, g3, g4⟩ := e3 t c' hc'
        rw [hmod] at g1
        cases hct : w.seqs[t]? with
        | none => rw [hct] at g1; simp at g1
        | some c0 =>
          rw [hct] at g1
          simp at g1
          refine ⟨c0, rfl, ?_, ?_, ?_⟩
          · rw [g2, ← g1]; split <;> rfl
          · rw [g3, ← g1]; split <;> rfl
          · rw [g4, habs]
            by_cases hts : t = s
            · subst hts
              rw [if_neg hnd.1, if_pos (by simp), ho, ← g1]; simp
            · rw [← g1]
              simp [hts]

end Mimic
