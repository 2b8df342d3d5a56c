import Verif.Proofs.Inv

/-!
# Handling a call: simulation of `handle_call` by the specification
-/

set_option autoImplicit false

namespace Mimic

variable {α : Type}

/-! ### Updating all sequences of one expectation -/

theorem store_getElem?_self {h : Seqs} {s : Nat} {c : SeqCell} (hc : h[s]? = some c) (q : Sequence) :
    (h.store s q)[s]? = some { c with seq := q } := by
  simp [Seqs.store, hc]

theorem store_getElem?_ne {h : Seqs} {s t : Nat} (hne : t ≠ s) (q : Sequence) :
    (h.store s q)[t]? = h[t]? := by
  have : ¬ s = t := fun h => hne h.symm
  simp [Seqs.store, this]

theorem store_length (h : Seqs) (s : Nat) (q : Sequence) : (h.store s q).length = h.length := by
  simp [Seqs.store]

theorem forEntries_ok (f : Sequence → Int → M Sequence) (l : List (Nat × Int)) :
    ∀ (h : Seqs), (l.map (·.1)).Nodup →
    (∀ s i, (s, i) ∈ l → ∃ c q', h[s]? = some c ∧ c.alive = true ∧ f c.seq i = .ok q') →
    ∃ h', forEntries f l h = .ok h' ∧ h'.length = h.length ∧
      (∀ s, s ∉ l.map (·.1) → h'[s]? = h[s]?) ∧
      (∀ s i c q', (s, i) ∈ l → h[s]? = some c → f c.seq i = .ok q' →
        h'[s]? = some { c with seq := q' }) := by
  induction l with
  | nil =>
    intro h _ _
    exact ⟨h, rfl, rfl, fun _ _ => rfl, fun s i c q' hm => by simp at hm⟩
  | cons en l ih =>
    obtain ⟨s, i⟩ := en
    intro h hnd hok
    simp only [List.map_cons, List.nodup_cons] at hnd
    obtain ⟨c, q', hc, hca, hf⟩ := hok s i (by simp)
    have hne : ∀ t j, (t, j) ∈ l → t ≠ s := by
      intro t j hm he
      subst he
      exact hnd.1 (List.mem_map.mpr ⟨_, hm, rfl⟩)
    obtain ⟨h', e1, e2, e3, e4⟩ := ih (h.store s q') hnd.2 (by
      intro t j hm
      obtain ⟨c', q'', hc', hca', hf'⟩ := hok t j (by simp [hm])
      exact ⟨c', q'', by rw [store_getElem?_ne (hne t j hm)]; exact hc', hca', hf'⟩)
    refine ⟨h', ?_, by rw [e2, store_length], ?_, ?_⟩
    · simp only [forEntries, Seqs.apply, deref_ok hc hca, hf, bind, Except.bind, pure, Except.pure]
      exact e1
    · intro t ht
      simp only [List.map_cons, List.mem_cons, not_or] at ht
      rw [e3 t ht.2, store_getElem?_ne ht.1]
    · intro t j c' q'' hm hc' hf'
      simp only [List.mem_cons, Prod.mk.injEq] at hm
      rcases hm with ⟨rfl, rfl⟩ | hm
      · rw [e3 t hnd.1]
        rw [hc] at hc'
        injection hc' with hc'
        subst hc'
        rw [hf] at hf'
        injection hf' with hf'
        subst hf'
        exact store_getElem?_self hc q'
      · exact e4 t j c' q'' hm (by rw [store_getElem?_ne (hne t j hm)]; exact hc') hf'

theorem updateSequenceStates_ok (ctl : Control) (h : Seqs) (hnd : (ctl.entries.map (·.1)).Nodup)
    (hok : ∀ s i, (s, i) ∈ ctl.entries → ∃ c q', h[s]? = some c ∧ c.alive = true ∧
      seqUpdate ctl.count ctl.min ctl.max c.seq i = .ok q') :
    ∃ h', ctl.updateSequenceStates h = .ok h' ∧ h'.length = h.length ∧
      (∀ s, s ∉ ctl.entries.map (·.1) → h'[s]? = h[s]?) ∧
      (∀ s i c q', (s, i) ∈ ctl.entries → h[s]? = some c →
        seqUpdate ctl.count ctl.min ctl.max c.seq i = .ok q' →
        h'[s]? = some { c with seq := q' }) := by
  unfold Control.updateSequenceStates
  by_cases h1 : ctl.count = ctl.min
  · rw [if_pos h1]
    have hu : ∀ q i, seqUpdate ctl.count ctl.min ctl.max q i = q.setSatisfied i := by
      intro q i; simp [seqUpdate, h1]
    simp only [hu] at hok ⊢
    exact forEntries_ok _ _ h hnd hok
  · rw [if_neg h1]
    by_cases h2 : ctl.count = ctl.max
    · rw [if_pos h2]
      have hu : ∀ q i, seqUpdate ctl.count ctl.min ctl.max q i = q.setSaturated i := by
        intro q i
        unfold seqUpdate
        rw [if_neg h1, if_pos h2]
      simp only [hu] at hok ⊢
      exact forEntries_ok _ _ h hnd hok
    · rw [if_neg h2]
      have hu : ∀ q i, seqUpdate ctl.count ctl.min ctl.max q i = .ok q := by
        intro q i; simp [seqUpdate, h1, h2]
      simp only [hu]
      refine ⟨h, rfl, rfl, fun _ _ => rfl, ?_⟩
      intro s i c q' _ hc hq
      injection hq with hq
      subst hq
      exact hc

/-! ### The count of one expectation grows -/

theorem bumpExp_id (e : Nat) (x : Spec.Exp α) : (bumpExp e x).id = x.id := by
  unfold bumpExp; split <;> rfl
theorem bumpExp_seqs (e : Nat) (x : Spec.Exp α) : (bumpExp e x).seqs = x.seqs := by
  unfold bumpExp; split <;> rfl
theorem bumpExp_alive (e : Nat) (x : Spec.Exp α) : (bumpExp e x).alive = x.alive := by
  unfold bumpExp; split <;> rfl
theorem bumpExp_mock (e : Nat) (x : Spec.Exp α) : (bumpExp e x).mock = x.mock := by
  unfold bumpExp; split <;> rfl

theorem attached_countMatch (S : Spec.State α) (e s : Nat) :
    (S.countMatch e).attached s = bump (S.attached s) e := by
  unfold Spec.State.attached Spec.State.countMatch bump
  show List.filter _ (List.map (bumpExp e) S.exps) = _
  rw [List.filter_map]
  congr 2
  funext x
  simp [bumpExp_seqs]

theorem owned_countMatch (S : Spec.State α) (e s : Nat) :
    (S.countMatch e).owned s = S.owned s := by
  unfold Spec.State.owned
  show (_ || List.any (List.map (bumpExp e) S.exps) _) = _
  rw [List.any_map]
  congr 2
  funext x
  simp [bumpExp_seqs, bumpExp_alive]

theorem bump_of_not_mem {A : List (Spec.Exp α)} {e : Nat} (h : ∀ x ∈ A, x.id ≠ e) : bump A e = A := by
  unfold bump
  conv => rhs; rw [← List.map_id A]
  apply List.map_congr_left
  intro x hx
  simp [bumpExp, h x hx]

theorem abs_set_count {w : World α} {e : Nat} {x : Exp α} (hx : w.exps[e]? = some x)
    (h0 : 0 ≤ x.control.count) :
    (w.exps.set e { x with control := { x.control with count := x.control.count + 1 } }).mapIdx absExp
      = ((abs w).countMatch e).exps := by
  show _ = List.map (bumpExp e) (abs w).exps
  apply List.ext_getElem?
  intro m
  rw [List.getElem?_map, abs_getElem?, List.getElem?_mapIdx, List.getElem?_set]
  by_cases hm : e = m
  · subst hm
    rw [if_pos rfl, if_pos (getElem?_lt hx), hx]
    simp [bumpExp, absExp]
    omega
  · rw [if_neg hm]
    cases w.exps[m]? with
    | none => rfl
    | some y =>
      have : ¬ m = e := fun h => hm h.symm
      simp [bumpExp, absExp, this]

theorem Inv.consume {w : World α} (h : Inv w) {e : Nat} {x : Exp α} (hx : w.exps[e]? = some x)
    (ha : x.alive = true) (happ : (abs w).applicable (absExp e x) = true) :
    ∃ w', w.consume e = .ok w' ∧ Inv w' ∧ abs w' = (abs w).countMatch e ∧ w'.colls = w.colls := by
  have hmem := abs_mem hx
  have hok := h.ok _ hmem
  have hc := toNat_count h hx
  have hc0 := h.count_nonneg e x hx
  have happ' := happ
  rw [applicable_iff, Bool.and_eq_true, decide_eq_true_eq, List.all_eq_true] at happ'
  obtain ⟨hlt, hall⟩ := happ'
  have hnd : (x.control.entries.map (·.1)).Nodup := h.nodup _ hmem
  have hmin : (absExp e x).min = x.control.min := rfl
  have hmax : (absExp e x).max = x.control.max := rfl
  have hseqs : ∀ s i, (s, i) ∈ x.control.entries → s ∈ (absExp e x).seqs := fun s i hm =>
    List.mem_map.mpr ⟨_, hm, rfl⟩
  -- the sequences of the expectation
  have hstep : ∀ s i, (s, i) ∈ x.control.entries → ∃ c n q', w.seqs[s]? = some c ∧
      c.alive = true ∧ i = (n : Nat) ∧ c.seq.consume i = .ok { c.seq with cursor := i } ∧
      seqUpdate (x.control.count + 1) x.control.min x.control.max { c.seq with cursor := i } i = .ok q' ∧
      q'.strategy = c.seq.strategy ∧ SeqRep q' (bump ((abs w).attached s) e) := by
    intro s i hen
    obtain ⟨c, n, hcs, hca, hn, hA, _, _⟩ := h.isConsumable hx ha hlt hen
    have hokIn := hall s (hseqs s i hen)
    obtain ⟨q', hu1, hu2, hu3⟩ := (h.rep s c hcs).update (attached_sorted w s) hA hlt
      hok.min_le_max hokIn
    have hcons := (h.rep s c hcs).consume (attached_sorted w s) hA hlt hokIn
    refine ⟨c, n, q', hcs, hca, hn, ?_, ?_, hu2, hu3⟩
    · rw [hn]; exact hcons
    · rw [hn, ← hc, ← hmin, ← hmax]; exact hu1
  obtain ⟨h1, f1, f2, f3, f4⟩ := forEntries_ok Sequence.consume x.control.entries w.seqs hnd (by
    intro s i hen
    obtain ⟨c, n, q', g1, g2, g3, g4, _⟩ := hstep s i hen
    exact ⟨c, _, g1, g2, g4⟩)
  obtain ⟨h2, k1, k2, k3, k4⟩ := updateSequenceStates_ok
    { x.control with count := x.control.count + 1 } h1 hnd (by
    intro s i hen
    obtain ⟨c, n, q', g1, g2, g3, g4, g5, _⟩ := hstep s i hen
    exact ⟨_, q', f4 s i c { c.seq with cursor := i } hen g1 g4, g2, g5⟩)
  simp only at k1 k3 k4
  -- contents of the final table
  have hin : ∀ s i, (s, i) ∈ x.control.entries → ∃ c q', w.seqs[s]? = some c ∧
      h2[s]? = some { c with seq := q' } ∧ q'.strategy = c.seq.strategy ∧
      SeqRep q' (bump ((abs w).attached s) e) := by
    intro s i hen
    obtain ⟨c, n, q', g1, g2, g3, g4, g5, g6, g7⟩ := hstep s i hen
    exact ⟨c, q', g1, k4 s i { c with seq := { c.seq with cursor := i } } q' hen (f4 s i c { c.seq with cursor := i } hen g1 g4) g5, g6, g7⟩
  have hout : ∀ s, s ∉ x.control.entries.map (·.1) → h2[s]? = w.seqs[s]? := by
    intro s hs
    rw [k3 s hs, f3 s hs]
  have hlen : h2.length = w.seqs.length := by rw [k2, f2]
  have hcell : ∀ s c', h2[s]? = some c' → ∃ c, w.seqs[s]? = some c ∧ absSeq c' = absSeq c ∧
      c'.alive = c.alive ∧ SeqRep c'.seq (bump ((abs w).attached s) e) := by
    intro s c' hc'
    by_cases hs : s ∈ x.control.entries.map (·.1)
    · obtain ⟨⟨s', i⟩, hen, hs'⟩ := List.mem_map.mp hs
      simp only at hs'
      subst hs'
      obtain ⟨c, q', g1, g2, g3, g4⟩ := hin s' i hen
      rw [g2] at hc'
      injection hc' with hc'
      subst hc'
      exact ⟨c, g1, by simp [absSeq, g3], rfl, g4⟩
    · rw [hout s hs] at hc'
      refine ⟨c', hc', rfl, rfl, ?_⟩
      rw [bump_of_not_mem]
      · exact h.rep s c' hc'
      · intro y hy hid
        have hy' := List.mem_filter.mp hy
        have : y = absExp e x := sorted_mem_id (abs_sorted w) hy'.1 hmem hid
        subst this
        apply hs
        exact List.contains_iff_mem.mp hy'.2
  have hseqsEq : h2.map absSeq = w.seqs.map absSeq := by
    apply List.ext_getElem?
    intro s
    rw [List.getElem?_map, List.getElem?_map]
    cases hc' : h2[s]? with
    | none =>
      rw [List.getElem?_eq_none_iff] at hc'
      have : w.seqs[s]? = none := by rw [List.getElem?_eq_none_iff]; omega
      rw [this]
    | some c' =>
      obtain ⟨c, g1, g2, _⟩ := hcell s c' hc'
      rw [g1]
      exact congrArg some g2
  -- the result
  refine ⟨{ w with seqs := h2, exps := w.exps.set e { x with control := { x.control with count := x.control.count + 1 } } }, ?_, ?_, ?_, rfl⟩
  · have hd : w.deref e = .ok x := by simp [World.deref, hx, ha]
    have hint : toInt (x.control.count + 1) = .ok (x.control.count + 1) := by
      have := hok.max_le
      simp only [toInt]
      rw [if_pos]
      simp only [intMin, intMax] at *
      omega
    simp only [World.consume, hd, Control.consume, h.isApplicable hx ha, happ, check, if_true, bind,
      Except.bind, pure, Except.pure, f1, hint, k1]
  all_goals
    have habs : abs (α := α) { w with seqs := h2, exps := w.exps.set e { x with control := { x.control with count := x.control.count + 1 } } } = (abs w).countMatch e := by
      have hexp := abs_set_count hx hc0
      unfold abs at hexp ⊢
      simp only [Spec.State.countMatch] at hexp ⊢
      rw [hseqsEq, hexp]
  · have hmemB : ∀ y, y ∈ ((abs w).countMatch e).exps → ∃ y₀ ∈ (abs w).exps, y = bumpExp e y₀ := by
      intro y hy
      obtain ⟨y₀, h1, h2⟩ := List.mem_map.mp hy
      exact ⟨y₀, h1, h2.symm⟩
    constructor
    · rw [habs]
      intro y hy
      obtain ⟨y₀, hy₀, rfl⟩ := hmemB y hy
      have ho := h.ok _ hy₀
      unfold bumpExp
      split
      · rename_i hid
        have : y₀ = absExp e x := sorted_mem_id (abs_sorted w) hy₀ hmem hid
        subst this
        exact ⟨ho.1, ho.2, ho.3, by simp; omega⟩
      · exact ho
    · intro m y hy
      simp only [List.getElem?_set] at hy
      by_cases hm : e = m
      · rw [if_pos hm, if_pos (getElem?_lt hx)] at hy
        injection hy with hy
        subst hy
        simp; omega
      · rw [if_neg hm] at hy
        exact h.count_nonneg m y hy
    · rw [habs]
      intro y hy
      obtain ⟨y₀, hy₀, rfl⟩ := hmemB y hy
      rw [bumpExp_seqs]; exact h.nodup _ hy₀
    · rw [habs]
      intro m y hy en hen
      have hold : ∃ y₀, w.exps[m]? = some y₀ ∧ y₀.control.entries = y.control.entries := by
        simp only [List.getElem?_set] at hy
        by_cases hm : e = m
        · rw [if_pos hm, if_pos (getElem?_lt hx)] at hy
          injection hy with hy
          subst hy
          exact ⟨x, by rw [← hm]; exact hx, rfl⟩
        · rw [if_neg hm] at hy
          exact ⟨y, hy, rfl⟩
      obtain ⟨y₀, hy₀, he⟩ := hold
      rw [← he] at hen
      obtain ⟨n, z, p1, p2, p3⟩ := h.pos m y₀ hy₀ en hen
      refine ⟨n, bumpExp e z, p1, ?_, by rw [bumpExp_id]; exact p3⟩
      rw [attached_countMatch, bump, List.getElem?_map, p2]; rfl
    · rw [habs]
      intro y hy s hs
      obtain ⟨y₀, hy₀, rfl⟩ := hmemB y hy
      rw [bumpExp_seqs] at hs
      simp only [hlen]
      exact h.seq_lt _ hy₀ s hs
    · rw [habs]
      intro s c' hc'
      obtain ⟨c, _, _, _, g⟩ := hcell s c' hc'
      rw [attached_countMatch]; exact g
    · rw [habs]
      intro s c' hc'
      obtain ⟨c, g1, _, g3, _⟩ := hcell s c' hc'
      rw [owned_countMatch, g3]
      exact h.alive s c g1
    · rw [habs]
      intro c es hes
      have := h.colls c es hes
      rw [this]
      show _ = List.map _ (List.filter _ (List.map (bumpExp e) (abs w).exps))
      rw [List.filter_map, List.map_map]
      have e1 : (fun x : Spec.Exp α => x.alive && x.mock == c) ∘ bumpExp e
          = (fun x => x.alive && x.mock == c) := by
        funext z; simp [bumpExp_alive, bumpExp_mock]
      have e2 : (fun x : Spec.Exp α => x.id) ∘ bumpExp e = (fun x => x.id) := by
        funext z; simp [bumpExp_id]
      rw [e1, e2]
    · rw [habs]
      intro y hy
      obtain ⟨y₀, hy₀, rfl⟩ := hmemB y hy
      rw [bumpExp_mock]; exact h.coll_lt _ hy₀
  · exact habs

end Mimic
