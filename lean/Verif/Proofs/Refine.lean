import Verif.Proofs.Lifetime

/-!
# The refinement theorem

Every client history that the library survives produces exactly the observations of the reference
semantics.
-/

set_option autoImplicit false

namespace Mimic

variable {α : Type}

/-- `withdraw` on one expectation. -/
def killExp (e : Nat) (x : Spec.Exp α) : Spec.Exp α :=
  if x.id = e then { x with alive := false } else x

theorem killExp_same (e : Nat) (x : Spec.Exp α) :
    (killExp e x).id = x.id ∧ (killExp e x).mock = x.mock ∧ (killExp e x).min = x.min ∧
    (killExp e x).max = x.max ∧ (killExp e x).seqs = x.seqs ∧ (killExp e x).count = x.count ∧
    (killExp e x).policies = x.policies := by
  unfold killExp; split <;> exact ⟨rfl, rfl, rfl, rfl, rfl, rfl, rfl⟩

theorem withdraw_exps (S : Spec.State α) (e : Nat) : (S.withdraw e).exps = S.exps.map (killExp e) := rfl

theorem attached_withdraw (S : Spec.State α) (e s : Nat) :
    (S.withdraw e).attached s = (S.attached s).map (killExp e) := by
  unfold Spec.State.attached
  rw [withdraw_exps, List.filter_map]
  congr 1
  apply List.filter_congr
  intro x _
  simp only [Function.comp, (killExp_same e x).2.2.2.2.1]

theorem abs_kill {w : World α} {e : Nat} {x : Exp α} (hx : w.exps[e]? = some x) (cs : List (List Nat))
    (hl : cs.length = w.colls.length) :
    abs { w with exps := w.exps.set e { x with alive := false }, colls := cs } = (abs w).withdraw e := by
  unfold abs Spec.State.withdraw
  simp only [hl]
  congr 1
  apply List.ext_getElem?
  intro n
  rw [List.getElem?_mapIdx, List.getElem?_map, List.getElem?_mapIdx, List.getElem?_set]
  by_cases hn : e = n
  · subst hn
    rw [if_pos rfl, if_pos (getElem?_lt hx), hx]
    simp [absExp]
  · rw [if_neg hn]
    cases w.exps[n]? with
    | none => rfl
    | some y =>
      have : ¬ n = e := fun h => hn h.symm
      simp [absExp, this]

theorem isSatisfied_abs {w : World α} (h : Inv w) {e : Nat} {x : Exp α} (hx : w.exps[e]? = some x) :
    x.isSatisfied = !((absExp e x).unfulfilled || !(absExp e x).policies.all (·.isSatisfied)) := by
  have hok := h.ok _ (abs_mem hx)
  have hcn := toNat_count h hx
  have h4 := hok.count_le
  have e1 : (absExp e x).max = x.control.max := rfl
  have e2 : (absExp e x).min = x.control.min := rfl
  have e3 : (absExp e x).policies = x.policies := rfl
  simp only [Exp.isSatisfied, Control.isSatisfied, Spec.Exp.unfulfilled, e2, e3, Bool.not_or, Bool.not_not]
  congr 1
  rw [hcn] at h4 ⊢
  rw [e1] at h4
  rw [Bool.eq_iff_iff]
  simp
  omega

theorem find_alive {w : World α} (e : Nat) :
    (abs w).exps.find? (fun x => x.id == e && x.alive) =
      match w.exps[e]? with
      | some x => if x.alive then some (absExp e x) else none
      | none => none := by
  cases hf : (abs w).exps.find? (fun x => x.id == e && x.alive) with
  | none =>
    rw [List.find?_eq_none] at hf
    cases hx : w.exps[e]? with
    | none => rfl
    | some x =>
      have := hf _ (abs_mem hx)
      simp [absExp] at this
      simp [this]
  | some y =>
    have hp := List.find?_some hf
    have hm := List.mem_of_find?_eq_some hf
    obtain ⟨x, hx, hy⟩ := (abs_mem_iff w y).mp hm
    simp only [Bool.and_eq_true, beq_iff_eq] at hp
    rw [hp.1] at hx hy
    rw [hx]
    have hal : x.alive = true := by rw [hy] at hp; exact hp.2
    simp [hal, hy]

theorem cell_map_eq {h h' : Seqs} (hl : h'.length = h.length)
    (hc : ∀ (s : Nat) (c' : SeqCell), h'[s]? = some c' → ∃ c : SeqCell, h[s]? = some c ∧ c'.seq = c.seq ∧ c'.handle = c.handle) :
    h'.map absSeq = h.map absSeq := by
  apply List.ext_getElem?
  intro s
  rw [List.getElem?_map, List.getElem?_map]
  cases hc' : h'[s]? with
  | none =>
    rw [List.getElem?_eq_none_iff] at hc'
    have : h[s]? = none := by rw [List.getElem?_eq_none_iff]; omega
    rw [this]
  | some c' =>
    obtain ⟨c, g1, g2, g3⟩ := hc s c' hc'
    rw [g1]
    simp [absSeq, g2, g3]

/-- End of an expectation. -/
theorem Inv.destroy {w : World α} (h : Inv w) {e : Nat} {x : Exp α} (hx : w.exps[e]? = some x)
    (ha : x.alive = true) :
    ∃ w', w.destroyExp e = .ok (w', .destroyed e ::
        (if (absExp e x).unfulfilled || !((absExp e x).policies.all (·.isSatisfied)) then
          [Event.unfulfilled e] else []) ++ ((abs w).withdraw e).release (absExp e x).seqs) ∧
      Inv w' ∧ abs w' = (abs w).withdraw e := by
  have hmem := abs_mem hx
  have hclt : x.coll < w.colls.length := h.coll_lt _ hmem
  have hcoll : w.colls[x.coll]? = some (w.colls[x.coll]'hclt) := List.getElem?_eq_getElem hclt
  obtain ⟨es, hes⟩ : ∃ es, w.colls[x.coll]? = some es := ⟨_, hcoll⟩
  have hesEq := h.colls x.coll es hes
  have hin : es.contains e = true := by
    rw [List.contains_iff_mem, hesEq, List.mem_map]
    exact ⟨absExp e x, List.mem_filter.mpr ⟨hmem, by simp [absExp, ha]⟩, rfl⟩
  let cs := w.colls.set x.coll (es.erase e)
  let w1 : World α := { w with exps := w.exps.set e { x with alive := false }, colls := cs }
  have habs1 : abs w1 = (abs w).withdraw e := abs_kill hx cs (by simp [cs])
  have hrep1 : ∀ s c, w1.seqs[s]? = some c → SeqRep c.seq ((abs w1).attached s) := by
    intro s c hc
    rw [habs1, attached_withdraw]
    exact (h.rep s c hc).map_congr _ (fun y => by
      obtain ⟨_, _, h3, h4, _, h6, _⟩ := killExp_same e y
      exact ⟨h3, h4, h6⟩)
  obtain ⟨h', k1, k2, k3⟩ := releaseAll_ok (absExp e x).seqs w1 (h.nodup _ hmem) hrep1 (by
    intro s hs
    obtain ⟨en, hen, hen'⟩ := List.mem_map.mp hs
    obtain ⟨c, g1, g2⟩ := h.cell hx ha hen
    rw [← hen']
    exact ⟨c, g1, g2⟩)
  let w2 : World α := { w1 with seqs := h' }
  have habs2 : abs w2 = (abs w).withdraw e := by
    rw [← habs1]
    unfold abs
    congr 1
    exact cell_map_eq k2 (fun s c' hc' => by
      obtain ⟨c, g1, g2, g3, _⟩ := k3 s c' hc'
      exact ⟨c, g1, g2, g3⟩)
  refine ⟨w2, ?_, ?_, habs2⟩
  · have hse : (absExp e x).seqs = x.control.entries.map (·.1) := rfl
    rw [hse] at k1
    have hw1 : ({ w with colls := w.colls.set x.coll (es.erase e), exps := w.exps.set e { x with alive := false } } : World α) = w1 := rfl
    simp only [World.destroyExp, hx, ha, hes, hin, check, Bool.not_true, Bool.false_eq_true, if_false,
      if_true, bind, Except.bind, pure, Except.pure, isSatisfied_abs h hx, hse, hw1, k1, habs1]
    cases (absExp e x).unfulfilled || !((absExp e x).policies.all (·.isSatisfied)) <;> rfl
  · have hmap : ∀ y ∈ (abs w2).exps, ∃ z ∈ (abs w).exps, y = killExp e z := by
      intro y hy
      rw [habs2, withdraw_exps] at hy
      obtain ⟨z, hz, rfl⟩ := List.mem_map.mp hy
      exact ⟨z, hz, rfl⟩
    have hget : ∀ (n : Nat) y, w2.exps[n]? = some y → ∃ z, w.exps[n]? = some z ∧
        y.control = z.control ∧ y.coll = z.coll := by
      intro n y hy
      simp only [w2, w1, List.getElem?_set] at hy
      by_cases hn : e = n
      · subst hn
        rw [if_pos rfl, if_pos (getElem?_lt hx)] at hy
        injection hy with hy
        subst hy
        exact ⟨x, hx, rfl, rfl⟩
      · rw [if_neg hn] at hy
        exact ⟨y, hy, rfl, rfl⟩
    constructor
    · intro y hy
      obtain ⟨z, hz, rfl⟩ := hmap y hy
      have := h.ok z hz
      obtain ⟨_, _, h3, h4, _, h6, _⟩ := killExp_same e z
      exact ⟨by rw [h3]; exact this.1, by rw [h3, h4]; exact this.2, by rw [h4]; exact this.3,
        by rw [h6, h4]; exact this.4⟩
    · intro n y hy
      obtain ⟨z, hz, hc, _⟩ := hget n y hy
      rw [hc]; exact h.count_nonneg n z hz
    · intro y hy
      obtain ⟨z, hz, rfl⟩ := hmap y hy
      rw [(killExp_same e z).2.2.2.2.1]; exact h.nodup z hz
    · intro n y hy en hen
      obtain ⟨z, hz, hc, _⟩ := hget n y hy
      rw [hc] at hen
      obtain ⟨k, y', p1, p2, p3⟩ := h.pos n z hz en hen
      refine ⟨k, killExp e y', p1, ?_, ?_⟩
      · rw [habs2, attached_withdraw, List.getElem?_map, p2]; rfl
      · rw [(killExp_same e y').1]; exact p3
    · intro y hy s hs
      obtain ⟨z, hz, rfl⟩ := hmap y hy
      rw [(killExp_same e z).2.2.2.2.1] at hs
      have := h.seq_lt z hz s hs
      simp only [w2, k2]; exact this
    · intro s c' hc'
      obtain ⟨c, g1, g2, _⟩ := k3 s c' hc'
      have := hrep1 s c g1
      rw [habs1] at this
      rw [habs2, g2]
      exact this
    · intro s c' hc'
      obtain ⟨c, g1, g2, g3, g4⟩ := k3 s c' hc'
      rw [g4, habs2, ← habs1]
      split
      · rfl
      · rename_i hns
        rw [h.alive s c g1, habs1]
        unfold Spec.State.owned
        congr 1
        rw [withdraw_exps, List.any_map, Bool.eq_iff_iff, List.any_eq_true, List.any_eq_true]
        have key : ∀ z ∈ (abs w).exps, (z.alive && z.seqs.contains s) = ((killExp e z).alive && (killExp e z).seqs.contains s) := by
          intro z hz
          rw [(killExp_same e z).2.2.2.2.1]
          by_cases hze : z.id = e
          · have : z = absExp e x := sorted_mem_id (abs_sorted w) hz hmem hze
            have hn : z.seqs.contains s = false := by
              rw [Bool.eq_false_iff]
              intro hcc
              rw [List.contains_iff_mem, this] at hcc
              exact hns hcc
            rw [hn]; simp
          · unfold killExp; rw [if_neg hze]
        constructor
        · rintro ⟨z, hz, hp⟩
          exact ⟨z, hz, by simp only [Function.comp]; rw [← key z hz]; exact hp⟩
        · rintro ⟨z, hz, hp⟩
          exact ⟨z, hz, by rw [key z hz]; exact hp⟩
    · intro c es' hes'
      have hfil : (((abs w2).exps.filter (fun y => y.alive && y.mock == c)).map (·.id)) =
          (((abs w).exps.filter (fun y => y.alive && y.mock == c)).map (·.id)).filter (fun i => i != e) := by
        rw [habs2, withdraw_exps, List.filter_map, List.map_map, List.filter_map, List.filter_filter]
        have : ((fun (y : Spec.Exp α) => y.id) ∘ killExp e) = (fun y => y.id) := by
          funext y; exact (killExp_same e y).1
        rw [this]
        congr 1
        apply List.filter_congr
        intro z hz
        simp only [Function.comp, (killExp_same e z).2.1]
        by_cases hze : z.id = e
        · simp [killExp, hze]
        · simp [killExp, hze]
      rw [hfil]
      simp only [w2, w1, cs, List.getElem?_set] at hes'
      by_cases hc : x.coll = c
      · subst hc
        rw [if_pos rfl, if_pos hclt] at hes'
        injection hes' with hes'
        rw [← hes', ← hesEq]
        have hnd : es.Nodup := by
          rw [hesEq]
          have hs : Sorted (List.filter (fun y => y.alive && y.mock == x.coll) (abs w).exps) :=
            List.Pairwise.filter _ (abs_sorted w)
          rw [List.nodup_iff_pairwise_ne, List.pairwise_map]
          refine List.Pairwise.imp (fun hlt => ?_) hs
          omega
        rw [List.Nodup.erase_eq_filter hnd]
      · rw [if_neg hc] at hes'
        rw [← h.colls c es' hes']
        symm
        rw [List.filter_eq_self]
        intro i hi
        simp only [bne_iff_ne, ne_eq]
        rintro rfl
        rw [h.colls c es' hes'] at hi
        obtain ⟨z, hz, hzi⟩ := List.mem_map.mp hi
        rw [List.mem_filter] at hz
        have : z = absExp i x := sorted_mem_id (abs_sorted w) hz.1 hmem hzi
        have h2 := hz.2
        rw [this] at h2
        simp [absExp] at h2
        exact hc h2.2
    · intro y hy
      obtain ⟨z, hz, rfl⟩ := hmap y hy
      rw [(killExp_same e z).2.1]
      simp only [w2, w1, cs, List.length_set]
      exact h.coll_lt z hz

/-- End of a client's sequence object. -/
theorem Inv.drop {w : World α} (h : Inv w) {s : Nat} (hs : w.hasHandle s = true) :
    let S' : Spec.State α :=
      { abs w with seqs := (abs w).seqs.modify s (fun q => { q with handle := false }) }
    ∃ w', w.step (.dropSequence s) = .ok (w', S'.release [s]) ∧ Inv w' ∧ abs w' = S' := by
  intro S'
  obtain ⟨c0, hc0, hca0, hch0⟩ := h.handle_alive hs
  let w1 : World α := { w with seqs := w.seqs.modify s (fun c => { c with handle := false }) }
  have hmod : ∀ t, w1.seqs[t]? = (w.seqs[t]?).map (fun c => if t = s then { c with handle := false } else c) := by
    intro t
    simp only [w1, List.getElem?_modify]
    by_cases hts : s = t
    · subst hts; simp
    · have : ¬ t = s := fun h => hts h.symm
      simp [hts, this]
  have habs1 : abs w1 = S' := by
    simp only [abs, S', w1]
    congr 1
    apply List.ext_getElem?
    intro t
    rw [List.getElem?_map, List.getElem?_modify, List.getElem?_modify, List.getElem?_map]
    cases w.seqs[t]? with
    | none => rfl
    | some c => by_cases hts : s = t <;> simp [hts, absSeq]
  have hS'att : ∀ t, S'.attached t = (abs w).attached t := fun t => rfl
  have hcell1 : ∀ t c', w1.seqs[t]? = some c' → ∃ c, w.seqs[t]? = some c ∧ c'.seq = c.seq ∧
      c'.alive = c.alive ∧ (t ≠ s → c' = c) := by
    intro t c' hc'
    rw [hmod] at hc'
    cases hct : w.seqs[t]? with
    | none => rw [hct] at hc'; simp at hc'
    | some c =>
      rw [hct] at hc'
      simp at hc'
      subst hc'
      refine ⟨c, rfl, ?_, ?_, ?_⟩
      · split <;> rfl
      · split <;> rfl
      · intro hts; rw [if_neg hts]
  obtain ⟨h', k1, k2, k3⟩ := releaseAll_ok [s] w1 (by simp)
    (by
      intro t c' hc'
      obtain ⟨c, g1, g2, _⟩ := hcell1 t c' hc'
      rw [habs1, hS'att, g2]; exact h.rep t c g1)
    (by
      intro t ht
      simp at ht
      subst ht
      exact ⟨{ c0 with handle := false }, by rw [hmod, hc0]; simp, hca0⟩)
  let w2 : World α := { w1 with seqs := h' }
  have habs2 : abs w2 = S' := by
    rw [← habs1]
    unfold abs
    congr 1
    exact cell_map_eq k2 (fun t c' hc' => by
      obtain ⟨c, g1, g2, g3, _⟩ := k3 t c' hc'
      exact ⟨c, g1, g2, g3⟩)
  refine ⟨w2, ?_, ?_, habs2⟩
  · have hstep : w.step (.dropSequence s) = w1.release s := by
      simp only [World.step, hs, if_true]
      rfl
    rw [hstep]
    have hall : w1.releaseAll [s] = (do let r ← w1.release s; pure (r.1, r.2 ++ [])) := rfl
    rw [hall] at k1
    cases hr : w1.release s with
    | error x => rw [hr] at k1; simp [bind, Except.bind] at k1
    | ok r =>
      rw [hr] at k1
      simp [bind, Except.bind, pure, Except.pure] at k1
      rw [← habs1, ← k1.2]
      have : r.1 = w2 := k1.1
      rw [← this]
  · have hexps : (abs w2).exps = (abs w).exps := by rw [habs2]
    have hatt : ∀ t, (abs w2).attached t = (abs w).attached t := by
      intro t; rw [habs2]; rfl
    constructor
    · intro y hy; rw [hexps] at hy; exact h.ok y hy
    · intro n y hy; exact h.count_nonneg n y hy
    · intro y hy; rw [hexps] at hy; exact h.nodup y hy
    · intro n y hy en hen
      rw [hatt]; exact h.pos n y hy en hen
    · intro y hy t ht
      rw [hexps] at hy
      have := h.seq_lt y hy t ht
      simp only [w2, k2, w1, List.length_modify]; exact this
    · intro t c' hc'
      obtain ⟨c1, g1, g2, _⟩ := k3 t c' hc'
      obtain ⟨c, j1, j2, _⟩ := hcell1 t c1 g1
      rw [hatt, g2, j2]; exact h.rep t c j1
    · intro t c' hc'
      obtain ⟨c1, g1, g2, g3, g4⟩ := k3 t c' hc'
      obtain ⟨c, j1, j2, j3, j4⟩ := hcell1 t c1 g1
      rw [g4, habs2, ← habs1]
      split
      · rfl
      · rename_i hts
        simp at hts
        rw [j3, h.alive t c j1, habs1]
        unfold Spec.State.owned
        congr 1
        simp only [S', List.getElem?_modify]
        have : ¬ s = t := fun h => hts h.symm
        simp only [if_neg this]
        cases (abs w).seqs[t]? <;> rfl
    · intro c es hes
      rw [hexps]; exact h.colls c es hes
    · intro y hy
      rw [hexps] at hy
      exact h.coll_lt y hy

theorem attached_lt {w : World α} (h : Inv w) {s : Nat} (hs : w.seqs.length ≤ s) :
    (abs w).attached s = [] := by
  unfold Spec.State.attached
  rw [List.filter_eq_nil_iff]
  intro y hy hc
  rw [List.contains_iff_mem] at hc
  have := h.seq_lt y hy s hc
  omega

theorem SeqRep.new (st : Strategy) : SeqRep (Sequence.new st) ([] : List (Spec.Exp α)) := by
  refine ⟨rfl, ?_, ?_, ?_, ?_, ?_, ?_⟩ <;> simp [Sequence.new, intMax]

/-- Definition of a sequence object. -/
theorem Inv.newSequence {w : World α} (h : Inv w) (st : Strategy) :
    ∃ w', w.step (.newSequence st) = .ok (w', [.sequenceCreated w.seqs.length st]) ∧ Inv w' ∧
      abs w' = { abs w with seqs := (abs w).seqs ++ [{ strategy := st, handle := true }] } := by
  let w' : World α := { w with seqs := w.seqs ++ [{ seq := Sequence.new st, handle := true, alive := true }] }
  have habs : abs w' = { abs w with seqs := (abs w).seqs ++ [{ strategy := st, handle := true }] } := by
    simp [abs, w', absSeq, Sequence.new]
  refine ⟨w', rfl, ?_, habs⟩
  have hexps : (abs w').exps = (abs w).exps := by rw [habs]
  have hatt : ∀ t, (abs w').attached t = (abs w).attached t := by intro t; rw [habs]; rfl
  have hcell : ∀ s c, w'.seqs[s]? = some c → w.seqs[s]? = some c ∨
      (s = w.seqs.length ∧ c = { seq := Sequence.new st, handle := true, alive := true }) := by
    intro s c hc
    simp only [w', List.getElem?_append] at hc
    split at hc
    · left; exact hc
    · right
      have := getElem?_lt hc
      simp at this
      have hm := List.mem_of_getElem? hc
      simp at hm
      exact ⟨by omega, hm⟩
  constructor
  · intro y hy; rw [hexps] at hy; exact h.ok y hy
  · intro n y hy; exact h.count_nonneg n y hy
  · intro y hy; rw [hexps] at hy; exact h.nodup y hy
  · intro n y hy en hen
    rw [hatt]; exact h.pos n y hy en hen
  · intro y hy t ht
    rw [hexps] at hy
    have := h.seq_lt y hy t ht
    simp only [w', List.length_append]; omega
  · intro t c hc
    rw [hatt]
    rcases hcell t c hc with hc | ⟨rfl, rfl⟩
    · exact h.rep t c hc
    · rw [attached_lt h (Nat.le_refl _)]; exact SeqRep.new st
  · intro t c hc
    rcases hcell t c hc with hc | ⟨rfl, rfl⟩
    · rw [h.alive t c hc, habs]
      unfold Spec.State.owned
      congr 1
      have : t < (abs w).seqs.length := by simp [abs]; exact getElem?_lt hc
      simp only [List.getElem?_append_left this]
    · rw [habs]
      unfold Spec.State.owned
      have : (abs w).seqs.length = w.seqs.length := by simp [abs]
      rw [← this]
      simp
  · intro c es hes
    rw [hexps]; exact h.colls c es hes
  · intro y hy
    rw [hexps] at hy
    exact h.coll_lt y hy

/-- Creation of a mock. -/
theorem Inv.newMock {w : World α} (h : Inv w) :
    ∃ w', w.step .newMock = .ok (w', [.mockCreated w.colls.length]) ∧ Inv w' ∧
      abs w' = { abs w with mocks := (abs w).mocks + 1 } := by
  let w' : World α := { w with colls := w.colls ++ [[]] }
  have habs : abs w' = { abs w with mocks := (abs w).mocks + 1 } := by simp [abs, w']
  refine ⟨w', rfl, ?_, habs⟩
  have hexps : (abs w').exps = (abs w).exps := by rw [habs]
  have hatt : ∀ t, (abs w').attached t = (abs w).attached t := by intro t; rw [habs]; rfl
  constructor
  · intro y hy; rw [hexps] at hy; exact h.ok y hy
  · intro n y hy; exact h.count_nonneg n y hy
  · intro y hy; rw [hexps] at hy; exact h.nodup y hy
  · intro n y hy en hen
    rw [hatt]; exact h.pos n y hy en hen
  · intro y hy t ht
    rw [hexps] at hy
    exact h.seq_lt y hy t ht
  · intro t c hc
    rw [hatt]; exact h.rep t c hc
  · intro t c hc
    rw [h.alive t c hc, habs]; rfl
  · intro c es hes
    rw [hexps]
    simp only [w', List.getElem?_append] at hes
    split at hes
    · exact h.colls c es hes
    · rename_i hge
      have hm := List.mem_of_getElem? hes
      simp at hm
      subst hm
      symm
      rw [List.map_eq_nil_iff, List.filter_eq_nil_iff]
      intro y hy hc
      have := h.coll_lt y hy
      simp at hc
      omega
  · intro y hy
    rw [hexps] at hy
    have := h.coll_lt y hy
    simp only [w', List.length_append]; omega

/-- Some sequence the operation attaches to cannot take another expectation. -/
def Spec.State.full (S : Spec.State α) : Op α → Prop
  | .expect _ min max tags _ =>
    Spec.validTimes min max ∧ tags.Nodup ∧ ∃ s ∈ tags, ¬ ((S.attached s).length : Int) ≤ intMax
  | _ => False

/-- One step of the library against one step of the reference semantics. -/
theorem Inv.step {w : World α} (h : Inv w) (op : Op α) :
    match (abs w).step op with
    | none => ∃ why, w.step op = .error (.client why)
    | some (S', ev) =>
      ((abs w).full op → ∃ why, w.step op = .error (.terminate why)) ∧
      (¬ (abs w).full op → ∃ w', w.step op = .ok (w', ev) ∧ Inv w' ∧ abs w' = S') := by
  cases op with
  | newSequence st =>
    obtain ⟨w', e1, e2, e3⟩ := h.newSequence st
    have hl : (abs w).seqs.length = w.seqs.length := by simp [abs]
    simp only [Spec.State.step, hl]
    exact ⟨fun hf => hf.elim, fun _ => ⟨w', e1, e2, e3⟩⟩
  | newMock =>
    obtain ⟨w', e1, e2, e3⟩ := h.newMock
    exact ⟨fun hf => hf.elim, fun _ => ⟨w', e1, e2, e3⟩⟩
  | dropSequence s =>
    simp only [Spec.State.step, hasHandle_abs]
    cases hs : w.hasHandle s with
    | false => exact ⟨_, by simp only [World.step, hs]; rfl⟩
    | true =>
      obtain ⟨w', e1, e2, e3⟩ := h.drop hs
      exact ⟨fun hf => hf.elim, fun _ => ⟨w', e1, e2, e3⟩⟩
  | call m a =>
    simp only [Spec.State.step]
    have hl : (abs w).mocks = w.colls.length := rfl
    by_cases hm : m < (abs w).mocks
    · simp only [hm, if_true]
      rw [hl] at hm
      obtain ⟨w', e1, e2, e3⟩ := h.handleCall hm a
      refine ⟨fun hf => hf.elim, fun _ => ⟨w', ?_, e2, e3⟩⟩
      simp only [World.step, e1, bind, Except.bind, pure, Except.pure]
    · simp only [hm, if_false]
      rw [hl] at hm
      have : w.colls[m]? = none := by rw [List.getElem?_eq_none_iff]; omega
      simp only [World.step, World.handleCall, this, bind, Except.bind]
      exact ⟨_, rfl⟩
  | destroy e =>
    simp only [Spec.State.step, find_alive]
    cases hx : w.exps[e]? with
    | none => exact ⟨_, by simp only [World.step, World.destroyExp, hx]; rfl⟩
    | some x =>
      cases ha : x.alive with
      | false =>
        simp only [ha, Bool.false_eq_true, if_false]
        exact ⟨_, by simp only [World.step, World.destroyExp, hx, ha]; rfl⟩
      | true =>
        obtain ⟨w', e1, e2, e3⟩ := h.destroy hx ha
        simp only [ha, if_true]
        exact ⟨fun hf => hf.elim, fun _ => ⟨w', e1, e2, e3⟩⟩
  | expect m min max tags ps =>
    simp only [Spec.State.step]
    have hl : (abs w).mocks = w.colls.length := rfl
    have hhe : tags.all (abs w).hasHandle = tags.all w.hasHandle := by
      congr 1; funext s; exact hasHandle_abs w s
    rw [hhe, hl]
    by_cases hc : m < w.colls.length ∧ tags.all w.hasHandle = true ∧ isInt min = true ∧ isInt max = true
    · rw [if_pos hc]
      obtain ⟨hm, hh, hi, hi'⟩ := hc
      have hmm := List.getElem?_eq_getElem hm
      have hcond : (tags.all w.hasHandle && isInt min && isInt max) = true := by simp [hh, hi, hi']
      by_cases hv : Spec.validTimes min max ∧ tags.Nodup
      · rw [if_pos hv]
        have hlenE : (abs w).exps.length = w.exps.length := abs_exps_length w
        refine ⟨fun hf => ?_, fun hf => ?_⟩
        · obtain ⟨why, hw⟩ := makeSequenceEntries_full (fun s => (abs w).attached s) tags w.seqs hv.2
            (by
              intro s hs
              obtain ⟨c, g1, g2, _⟩ := h.handle_alive (List.all_eq_true.mp hh s hs)
              exact ⟨c, g1, g2, h.rep s c g1⟩) hf.2.2
          refine ⟨why, ?_⟩
          simp only [World.step, World.expect, hmm, hcond, if_true, timesMake_eq, hv.1, seqConfig_eq, hv.2,
            Control.make, hw, bind, Except.bind]
        · obtain ⟨w', e1, e2, e3⟩ := h.expect_ok hmm ps hh hi hi' hv.1 hv.2 (by
            intro s hs
            refine Classical.byContradiction (fun hcon => hf ⟨hv.1, hv.2, s, hs, hcon⟩))
          refine ⟨w', ?_, e2, ?_⟩
          · rw [hlenE]; exact e1
          · rw [e3, hlenE]; rfl
      · rw [if_neg hv]
        refine ⟨fun hf => absurd ⟨hf.1, hf.2.1⟩ hv, fun _ => ⟨w, ?_, h, rfl⟩⟩
        simp only [World.step, World.expect, hmm, hcond, if_true, timesMake_eq, seqConfig_eq]
        by_cases hv1 : Spec.validTimes min max
        · have hv2 : ¬ tags.Nodup := fun h2 => hv ⟨hv1, h2⟩
          simp only [hv1, hv2, if_true, if_false]; rfl
        · simp only [hv1, if_false]; rfl
    · rw [if_neg hc]
      simp only [World.step, World.expect]
      by_cases hm : m < w.colls.length
      · have hmm := List.getElem?_eq_getElem hm
        have hcond : (tags.all w.hasHandle && isInt min && isInt max) = false := by
          rw [Bool.eq_false_iff]
          intro hcc
          simp only [Bool.and_eq_true] at hcc
          exact hc ⟨hm, hcc.1.1, hcc.1.2, hcc.2⟩
        simp only [hmm, hcond, Bool.false_eq_true, if_false]
        exact ⟨_, rfl⟩
      · have : w.colls[m]? = none := by rw [List.getElem?_eq_none_iff]; omega
        simp only [this]
        exact ⟨_, rfl⟩

end Mimic
