import Verif.Proofs.SeqRep

/-!
# The representation invariant of the world

`abs` forgets everything the specification does not know; `Inv` says how the forgotten bookkeeping is
determined by what remains.
-/

set_option autoImplicit false

namespace Mimic

variable {α : Type}

/-- Forgets the implementation details of an expectation. -/
def absExp (e : Nat) (x : Exp α) : Spec.Exp α :=
  { id := e, mock := x.coll, min := x.control.min, max := x.control.max,
    seqs := x.control.entries.map (·.1), policies := x.policies,
    count := x.control.count.toNat, alive := x.alive }

/-- Forgets the implementation details of a sequence. -/
def absSeq (c : SeqCell) : Spec.Seq := { strategy := c.seq.strategy, handle := c.handle }

/-- Forgets the implementation details of the world. -/
def abs (w : World α) : Spec.State α :=
  { seqs := w.seqs.map absSeq, exps := w.exps.mapIdx absExp, mocks := w.colls.length }

/-- The representation invariant. -/
structure Inv (w : World α) : Prop where
  /-- limits and counts are legal -/
  ok : ∀ x ∈ (abs w).exps, ExpOk x
  count_nonneg : ∀ (e : Nat) (x : Exp α), w.exps[e]? = some x → 0 ≤ x.control.count
  /-- no expectation is attached twice to a sequence -/
  nodup : ∀ x ∈ (abs w).exps, x.seqs.Nodup
  /-- the ids are the positions -/
  pos : ∀ (e : Nat) (x : Exp α), w.exps[e]? = some x → ∀ en ∈ x.control.entries,
    ∃ (n : Nat) (y : Spec.Exp α), en.2 = n ∧ ((abs w).attached en.1)[n]? = some y ∧ y.id = e
  /-- attached sequences exist -/
  seq_lt : ∀ x ∈ (abs w).exps, ∀ s ∈ x.seqs, s < w.seqs.length
  /-- every sequence object represents its list of attached expectations -/
  rep : ∀ (s : Nat) (c : SeqCell), w.seqs[s]? = some c → SeqRep c.seq ((abs w).attached s)
  /-- a sequence object lives exactly as long as somebody refers to it -/
  alive : ∀ (s : Nat) (c : SeqCell), w.seqs[s]? = some c → c.alive = (abs w).owned s
  /-- the storages hold exactly the living expectations, in creation order -/
  colls : ∀ (c : Nat) (es : List Nat), w.colls[c]? = some es →
    es = ((abs w).exps.filter (fun x => x.alive && x.mock == c)).map (·.id)
  coll_lt : ∀ x ∈ (abs w).exps, x.mock < w.colls.length

theorem abs_getElem? (w : World α) (e : Nat) :
    (abs w).exps[e]? = (w.exps[e]?).map (absExp e) := by
  simp [abs, List.getElem?_mapIdx]

theorem abs_mem_iff (w : World α) (y : Spec.Exp α) :
    y ∈ (abs w).exps ↔ ∃ x, w.exps[y.id]? = some x ∧ y = absExp y.id x := by
  rw [List.mem_iff_getElem?]
  constructor
  · rintro ⟨e, he⟩
    rw [abs_getElem?] at he
    cases h : w.exps[e]? with
    | none => rw [h] at he; simp at he
    | some x =>
      rw [h] at he
      simp at he
      subst he
      exact ⟨x, h, rfl⟩
  · rintro ⟨x, hx, hy⟩
    refine ⟨y.id, ?_⟩
    rw [abs_getElem?, hx]
    simp [← hy]

theorem abs_mem {w : World α} {e : Nat} {x : Exp α} (h : w.exps[e]? = some x) :
    absExp e x ∈ (abs w).exps := by
  rw [abs_mem_iff]; exact ⟨x, h, rfl⟩

theorem abs_exps_length (w : World α) : (abs w).exps.length = w.exps.length := by
  simp [abs]

theorem mapIdx_sorted (l : List (Exp α)) : Sorted (l.mapIdx absExp) := by
  rw [Sorted, List.pairwise_iff_getElem]
  intro i j hi hj hij
  simp [List.getElem_mapIdx, absExp, hij]

theorem abs_sorted (w : World α) : Sorted (abs w).exps := mapIdx_sorted _

theorem attached_sorted (w : World α) (s : Nat) : Sorted ((abs w).attached s) :=
  List.Pairwise.filter _ (abs_sorted w)

theorem sorted_mem_id {A : List (Spec.Exp α)} (hs : Sorted A) {x y : Spec.Exp α} (hx : x ∈ A)
    (hy : y ∈ A) (h : x.id = y.id) : x = y := by
  obtain ⟨m, hm⟩ := List.mem_iff_getElem?.mp hx
  obtain ⟨n, hn⟩ := List.mem_iff_getElem?.mp hy
  have := sorted_getElem?_id hs hm hn h
  subst this
  rw [hm] at hn
  exact Option.some.inj hn

theorem Inv.pos' {w : World α} (h : Inv w) {e : Nat} {x : Exp α} (hx : w.exps[e]? = some x)
    {s : Nat} {i : Int} (hen : (s, i) ∈ x.control.entries) :
    ∃ n : Nat, i = n ∧ ((abs w).attached s)[n]? = some (absExp e x) := by
  obtain ⟨n, y, h1, h2, h3⟩ := h.pos e x hx _ hen
  refine ⟨n, h1, ?_⟩
  rw [h2]
  have hy : y ∈ (abs w).exps := (List.mem_filter.mp (List.mem_of_getElem? h2)).1
  rw [sorted_mem_id (abs_sorted w) hy (abs_mem hx) h3]

theorem Inv.init : Inv (World.init : World α) := by
  constructor <;> simp [World.init, abs]

/-- An entry of a living expectation refers to a living sequence object. -/
theorem Inv.cell {w : World α} (h : Inv w) {e : Nat} {x : Exp α} (hx : w.exps[e]? = some x)
    (ha : x.alive = true) {s : Nat} {i : Int} (hen : (s, i) ∈ x.control.entries) :
    ∃ c, w.seqs[s]? = some c ∧ c.alive = true := by
  have hs : s ∈ (absExp e x).seqs := List.mem_map.mpr ⟨_, hen, rfl⟩
  have hlt := h.seq_lt _ (abs_mem hx) s hs
  refine ⟨w.seqs[s], by rw [List.getElem?_eq_getElem], ?_⟩
  rw [h.alive s _ (by rw [List.getElem?_eq_getElem])]
  unfold Spec.State.owned
  rw [Bool.or_eq_true]
  right
  rw [List.any_eq_true]
  exact ⟨_, abs_mem hx, by simp [absExp, ha]; exact ⟨_, hen⟩⟩

theorem deref_ok {h : Seqs} {s : Nat} {c : SeqCell} (hc : h[s]? = some c) (ha : c.alive = true) :
    h.deref s = .ok c.seq := by
  simp [Seqs.deref, hc, ha]

theorem toNat_count {w : World α} (h : Inv w) {e : Nat} {x : Exp α} (hx : w.exps[e]? = some x) :
    ((absExp e x).count : Int) = x.control.count := by
  have := h.count_nonneg e x hx
  simp [absExp]; omega

theorem toNat_count_lt {w : World α} (h : Inv w) {e : Nat} {x : Exp α} (hx : w.exps[e]? = some x) :
    ((absExp e x).count : Int) < (absExp e x).max ↔ x.control.count ≠ x.control.max := by
  have h1 := toNat_count h hx
  have h2 := (h.ok _ (abs_mem hx)).count_le
  have h3 : (absExp e x).max = x.control.max := rfl
  omega

/-- Consumability of the entries of an expectation in terms of the specification. -/
theorem Inv.isConsumable {w : World α} (h : Inv w) {e : Nat} {x : Exp α}
    (hx : w.exps[e]? = some x) (ha : x.alive = true)
    (hlt : ((absExp e x).count : Int) < (absExp e x).max) {s : Nat} {i : Int}
    (hen : (s, i) ∈ x.control.entries) :
    ∃ c n, w.seqs[s]? = some c ∧ c.alive = true ∧ i = (n : Nat) ∧
      ((abs w).attached s)[n]? = some (absExp e x) ∧
      c.seq.isConsumable i = .ok (okIn ((abs w).attached s) (absExp e x)) ∧
      c.seq.priorityOf i = .ok (if okIn ((abs w).attached s) (absExp e x)
        then some (prio c.seq.strategy n c.seq.cursor) else none) := by
  obtain ⟨c, hc, hca⟩ := h.cell hx ha hen
  obtain ⟨n, hn, hA⟩ := h.pos' hx hen
  refine ⟨c, n, hc, hca, hn, hA, ?_, ?_⟩
  · rw [hn]; exact (h.rep s c hc).isConsumable (attached_sorted w s) hA hlt
  · rw [hn]; exact (h.rep s c hc).priorityOf (attached_sorted w s) hA hlt

theorem applicable_iff (S : Spec.State α) (x : Spec.Exp α) :
    S.applicable x = (decide ((x.count : Int) < x.max) && x.seqs.all (fun s => okIn (S.attached s) x)) :=
  rfl

theorem allConsumable_ok {w : World α} (h : Inv w) {e : Nat} {x : Exp α}
    (hx : w.exps[e]? = some x) (ha : x.alive = true)
    (hlt : ((absExp e x).count : Int) < (absExp e x).max) (l : List (Nat × Int))
    (hl : ∀ en ∈ l, en ∈ x.control.entries) :
    allConsumable w.seqs l
      = .ok ((l.map (·.1)).all (fun s => okIn ((abs w).attached s) (absExp e x))) := by
  induction l with
  | nil => rfl
  | cons en l ih =>
    obtain ⟨s, i⟩ := en
    obtain ⟨c, n, hc, hca, hn, hA, hcons, _⟩ := h.isConsumable hx ha hlt (hl (s, i) (by simp))
    have ih' := ih (fun en hen => hl en (by simp [hen]))
    simp only [allConsumable, deref_ok hc hca, hcons, bind, Except.bind, pure, Except.pure, ih']
    cases hok : okIn ((abs w).attached s) (absExp e x) <;> simp [hok]

theorem Inv.isApplicable {w : World α} (h : Inv w) {e : Nat} {x : Exp α}
    (hx : w.exps[e]? = some x) (ha : x.alive = true) :
    x.control.isApplicable w.seqs = .ok ((abs w).applicable (absExp e x)) := by
  have hc := toNat_count h hx
  have hm : (absExp e x).max = x.control.max := rfl
  rw [applicable_iff, Control.isApplicable]
  split
  · rename_i hlt
    rw [allConsumable_ok h hx ha (by omega) _ (fun _ h => h)]
    have : decide (((absExp e x).count : Int) < (absExp e x).max) = true := by
      simp; omega
    rw [this]; rfl
  · rename_i hlt
    have : decide (((absExp e x).count : Int) < (absExp e x).max) = false := by
      simp; omega
    rw [this]; rfl

/-- The rating of expectation `e` in sequence `s`. -/
def ratingOf (w : World α) (e : Nat) (s : Nat) : Rating :=
  { priority := match w.seqs[s]?, ((abs w).attached s).findIdx? (fun y => y.id == e) with
      | some c, some n => prio c.seq.strategy n c.seq.cursor
      | _, _ => 0
    tag := s }

theorem findIdx?_id {A : List (Spec.Exp α)} (hs : Sorted A) {n : Nat} {x : Spec.Exp α}
    (hn : A[n]? = some x) : A.findIdx? (fun y => y.id == x.id) = some n := by
  rw [List.findIdx?_eq_some_iff_getElem]
  obtain ⟨h', hx⟩ := List.getElem?_eq_some_iff.mp hn
  refine ⟨h', by simp [hx], fun j hj => ?_⟩
  have := List.pairwise_iff_getElem.mp hs j n (by omega) h' hj
  rw [hx] at this
  simp; omega

theorem collectRatings_ok {w : World α} (h : Inv w) {e : Nat} {x : Exp α}
    (hx : w.exps[e]? = some x) (ha : x.alive = true)
    (hlt : ((absExp e x).count : Int) < (absExp e x).max) (l : List (Nat × Int))
    (hl : ∀ en ∈ l, en ∈ x.control.entries) :
    collectRatings w.seqs l
      = .ok (((l.map (·.1)).filter (fun s => okIn ((abs w).attached s) (absExp e x))).map (ratingOf w e),
             (l.map (·.1)).filter (fun s => !okIn ((abs w).attached s) (absExp e x))) := by
  induction l with
  | nil => rfl
  | cons en l ih =>
    obtain ⟨s, i⟩ := en
    obtain ⟨c, n, hc, hca, hn, hA, _, hp⟩ := h.isConsumable hx ha hlt (hl (s, i) (by simp))
    have ih' := ih (fun en hen => hl en (by simp [hen]))
    have hfi : ((abs w).attached s).findIdx? (fun y => y.id == e) = some n := by
      have := findIdx?_id (attached_sorted w s) hA
      exact this
    have hr : ratingOf w e s = { priority := prio c.seq.strategy n c.seq.cursor, tag := s } := by
      simp only [ratingOf, hc, hfi]
    simp only [collectRatings, deref_ok hc hca, hp, bind, Except.bind, pure, Except.pure, ih']
    cases hok : okIn ((abs w).attached s) (absExp e x) <;> simp [hok, hr]

theorem derefTags_ok {w : World α} (h : Inv w) {e : Nat} {x : Exp α}
    (hx : w.exps[e]? = some x) (ha : x.alive = true) (l : List (Nat × Int))
    (hl : ∀ en ∈ l, en ∈ x.control.entries) :
    derefTags w.seqs l = .ok (l.map (·.1)) := by
  induction l with
  | nil => rfl
  | cons en l ih =>
    obtain ⟨s, i⟩ := en
    obtain ⟨c, hc, hca⟩ := h.cell hx ha (hl (s, i) (by simp))
    have ih' := ih (fun en hen => hl en (by simp [hen]))
    simp only [derefTags, deref_ok hc hca, ih', bind, Except.bind, pure, Except.pure]
    rfl

/-- `ControlPolicy::state` in terms of the specification. -/
theorem Inv.state {w : World α} (h : Inv w) {e : Nat} {x : Exp α}
    (hx : w.exps[e]? = some x) (ha : x.alive = true) :
    ∃ st, x.control.state w.seqs = .ok st ∧ st.isApplicable = (abs w).applicable (absExp e x) ∧
      ((abs w).applicable (absExp e x) = true →
        st = .applicable x.control.min x.control.max x.control.count
          ((absExp e x).seqs.map (ratingOf w e))) := by
  have hcl := toNat_count_lt h hx
  rw [applicable_iff]
  by_cases hc : x.control.count = x.control.max
  · refine ⟨.saturated x.control.min x.control.max x.control.count (x.control.entries.map (·.1)), ?_, ?_, ?_⟩
    · simp [Control.state, hc, derefTags_ok h hx ha _ (fun _ h => h), bind, Except.bind, pure,
        Except.pure]
    · have : decide (((absExp e x).count : Int) < (absExp e x).max) = false := by
        simp only [decide_eq_false_iff_not]; rw [hcl]; simp [hc]
      simp [this, ControlState.isApplicable]
    · intro hh
      simp only [Bool.and_eq_true, decide_eq_true_eq] at hh
      exact absurd hc (hcl.mp hh.1)
  · have hlt := hcl.mpr hc
    have hcr := collectRatings_ok h hx ha hlt x.control.entries (fun _ h => h)
    have hseqs : (absExp e x).seqs = x.control.entries.map (·.1) := rfl
    rw [← hseqs] at hcr
    have hd : decide (((absExp e x).count : Int) < (absExp e x).max) = true := by simp [hlt]
    by_cases hall : (absExp e x).seqs.all (fun s => okIn ((abs w).attached s) (absExp e x)) = true
    · have hf1 : (absExp e x).seqs.filter (fun s => okIn ((abs w).attached s) (absExp e x))
          = (absExp e x).seqs := by
        rw [List.filter_eq_self]; exact List.all_eq_true.mp hall
      have hf2 : (absExp e x).seqs.filter (fun s => !okIn ((abs w).attached s) (absExp e x)) = [] := by
        rw [List.filter_eq_nil_iff]
        intro s hs
        simp [List.all_eq_true.mp hall s hs]
      rw [hf1, hf2] at hcr
      refine ⟨_, ?_, ?_, fun _ => rfl⟩
      · simp [Control.state, hc, hcr, bind, Except.bind, pure, Except.pure]
      · rw [hd, hall]; rfl
    · have hne : ((absExp e x).seqs.filter
          (fun s => !okIn ((abs w).attached s) (absExp e x))).isEmpty = false := by
        rw [Bool.eq_false_iff]
        intro hemp
        rw [List.isEmpty_iff, List.filter_eq_nil_iff] at hemp
        apply hall
        rw [List.all_eq_true]
        intro s hs
        have := hemp s hs
        simpa using this
      have hfalse : (absExp e x).seqs.all (fun s => okIn ((abs w).attached s) (absExp e x)) = false := by
        simpa using hall
      refine ⟨.inapplicable x.control.min x.control.max x.control.count
        (((absExp e x).seqs.filter (fun s => okIn ((abs w).attached s) (absExp e x))).map (ratingOf w e))
        ((absExp e x).seqs.filter (fun s => !okIn ((abs w).attached s) (absExp e x))), ?_, ?_, ?_⟩
      · simp only [Control.state, hc, if_false, hcr, bind, Except.bind, pure, Except.pure, hne]
        rfl
      · rw [hfalse]; simp [ControlState.isApplicable]
      · intro hh; rw [hfalse] at hh; simp at hh

end Mimic
