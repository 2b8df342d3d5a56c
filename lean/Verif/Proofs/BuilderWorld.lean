import Verif.Proofs.Builder

/-!
# Builders as objects: every history with builders is a history without them
-/

set_option autoImplicit false

namespace Mimic

variable {α φ : Type}

theorem no_rejected {tr : Trace α} {w w' : World α} (h : Reach tr w) {op : Op α} {ev : List Event}
    (hs : w.step op = .ok (w', ev)) (hop : ∀ m min max ss ps, op = .expect m min max ss ps →
      Spec.validTimes min max ∧ ss.Nodup) : ev.filter (fun e => decide (e ≠ .rejected)) = ev := by
  rw [List.filter_eq_self]
  intro e he
  rw [decide_eq_true_eq]
  rintro rfl
  have hspec := h.spec_step hs
  cases op with
  | newSequence st => simp [Spec.State.step] at hspec; rw [← hspec.2] at he; simp at he
  | newMock => simp [Spec.State.step] at hspec; rw [← hspec.2] at he; simp at he
  | dropSequence s =>
    simp only [Spec.State.step] at hspec
    split at hspec
    · simp only [Option.some.injEq, Prod.mk.injEq] at hspec
      rw [← hspec.2] at he
      obtain ⟨_, _, _, hh⟩ := release_mem he
      rcases hh with hh | ⟨k, n, hh⟩ <;> simp at hh
    · simp at hspec
  | call m a =>
    simp only [Spec.State.step] at hspec
    split at hspec
    · simp only [Option.some.injEq, Prod.mk.injEq] at hspec
      obtain ⟨us, last, hev, _, hcase⟩ := call_events (abs w) m a
      rw [← hspec.2, hev] at he
      rcases hcase with ⟨x, older, _, hl, _⟩ | ⟨_, _, hl, _⟩ | ⟨_, _, hl, _⟩ <;> rw [hl] at he <;> simp at he
    · simp at hspec
  | expect m min max ss ps =>
    simp only [Spec.State.step] at hspec
    split at hspec
    · rw [if_pos (hop m min max ss ps rfl)] at hspec
      simp only [Option.some.injEq, Prod.mk.injEq] at hspec
      rw [← hspec.2] at he
      simp at he
    · simp at hspec
  | destroy e =>
    simp only [Spec.State.step] at hspec
    split at hspec
    · simp at hspec
    · simp only [Option.some.injEq, Prod.mk.injEq] at hspec
      rw [← hspec.2] at he
      simp only [List.cons_append, List.mem_cons, List.mem_append, reduceCtorEq, false_or] at he
      rcases he with he | he
      · split at he <;> simp at he
      · obtain ⟨_, _, _, hh⟩ := release_mem he
        rcases hh with hh | ⟨k, n, hh⟩ <;> simp at hh

/-- What an operation does to the client's references and to the number of mocks. -/
theorem handle_step {tr : Trace α} {w w' : World α} (h : Reach tr w) {op : Op α} {ev : List Event}
    (hs : w.step op = .ok (w', ev)) :
    w.colls.length ≤ w'.colls.length ∧
    (∀ s, w'.hasHandle s = match op with
      | .newSequence _ => w.hasHandle s || decide (s = w.seqs.length)
      | .dropSequence t => if t = s then false else w.hasHandle s
      | _ => w.hasHandle s) ∧
    (w'.seqs.length = match op with
      | .newSequence _ => w.seqs.length + 1
      | _ => w.seqs.length) := by
  have hspec := h.spec_step hs
  have hc : ∀ w : World α, w.colls.length = (abs w).mocks := fun w => rfl
  have hl : ∀ w : World α, w.seqs.length = (abs w).seqs.length := fun w => by simp [abs]
  simp only [← hasHandle_abs, hc, hl]
  generalize abs w' = S' at hspec ⊢
  cases op with
  | newSequence st =>
    simp only [Spec.State.step, Option.some.injEq, Prod.mk.injEq] at hspec
    obtain ⟨rfl, _⟩ := hspec
    refine ⟨Nat.le_refl _, fun s => ?_, by simp⟩
    simp only [Spec.State.hasHandle]
    rcases Nat.lt_trichotomy s (abs w).seqs.length with hlt | heq | hgt
    · rw [List.getElem?_append_left hlt]
      have : ¬ s = (abs w).seqs.length := by omega
      simp [this]
    · subst heq; simp
    · rw [List.getElem?_append_right (by omega)]
      have h1 : (abs w).seqs[s]? = none := by rw [List.getElem?_eq_none_iff]; omega
      have h2 : [({ strategy := st, handle := true } : Spec.Seq)][s - (abs w).seqs.length]? = none := by
        rw [List.getElem?_eq_none_iff]; simp; omega
      have : ¬ s = (abs w).seqs.length := by omega
      simp [h1, this]
      rw [h2]
  | newMock =>
    simp only [Spec.State.step, Option.some.injEq, Prod.mk.injEq] at hspec
    obtain ⟨rfl, _⟩ := hspec
    exact ⟨by simp, fun _ => rfl, rfl⟩
  | dropSequence t =>
    simp only [Spec.State.step] at hspec
    split at hspec
    · simp only [Option.some.injEq, Prod.mk.injEq] at hspec
      obtain ⟨rfl, _⟩ := hspec
      exact ⟨Nat.le_refl _, fun s => hasHandle_modify _ _ _, by simp⟩
    · simp at hspec
  | call m a =>
    simp only [Spec.State.step] at hspec
    split at hspec
    · simp only [Option.some.injEq, Prod.mk.injEq] at hspec
      obtain ⟨_, _, _, _, hcase⟩ := call_events (abs w) m a
      rw [← hspec.1]
      rcases hcase with ⟨x, older, _, _, hc⟩ | ⟨_, _, _, hc⟩ | ⟨_, _, _, hc⟩ <;> rw [hc] <;>
        exact ⟨Nat.le_refl _, fun _ => rfl, rfl⟩
    · simp at hspec
  | expect m min max ss ps =>
    simp only [Spec.State.step] at hspec
    split at hspec
    · split at hspec <;> simp only [Option.some.injEq, Prod.mk.injEq] at hspec <;> rw [← hspec.1] <;>
        exact ⟨Nat.le_refl _, fun _ => rfl, rfl⟩
    · simp at hspec
  | destroy e =>
    simp only [Spec.State.step] at hspec
    split at hspec
    · simp at hspec
    · simp only [Option.some.injEq, Prod.mk.injEq] at hspec
      rw [← hspec.1]
      exact ⟨Nat.le_refl _, fun _ => rfl, rfl⟩

/-- What is known about builders and the client's references. -/
structure BInv (bw : BWorld α φ) : Prop where
  objs : bw.objs.length = bw.w.seqs.length
  handle : ∀ s, bw.w.hasHandle s = bw.clientRef s
  nodup : ∀ c ∈ bw.builders, c.refs.Nodup
  cell : ∀ c ∈ bw.builders, ∀ x, c.builder = some x → c.refs = x.seqs ∧ x.coll < bw.w.colls.length ∧
    Spec.validTimes x.times.min x.times.max ∧ isInt x.times.min = true ∧ isInt x.times.max = true

theorem releaseRefs_ok (ss : List Nat) : ∀ {tr : Trace α} {bw : BWorld α φ}, Reach tr bw.w → ss.Nodup →
    (∀ s, bw.w.hasHandle s = (bw.clientRef s || decide (s ∈ ss))) →
    ∃ w' tr', bw.releaseRefs ss = .ok ({ bw with w := w' }, tr'.events) ∧ Reach (tr ++ tr') w' ∧
      (∀ s, w'.hasHandle s = bw.clientRef s) ∧ bw.w.colls.length ≤ w'.colls.length ∧
      w'.seqs.length = bw.w.seqs.length ∧
      tr'.events.filter (fun e => decide (e ≠ .rejected)) = tr'.events := by
  induction ss with
  | nil =>
    intro tr bw hr _ hh
    exact ⟨bw.w, [], rfl, by simpa using hr, by simpa using hh, Nat.le_refl _, rfl, rfl⟩
  | cons s ss ih =>
    intro tr bw hr hn hh
    rw [List.nodup_cons] at hn
    unfold BWorld.releaseRefs
    cases hc : bw.clientRef s with
    | true =>
      simp only [if_true]
      apply ih hr hn.2
      intro t
      rw [hh t]
      by_cases hts : t = s
      · subst hts; simp [hc]
      · simp [hts]
    | false =>
      have hhs : bw.w.hasHandle s = true := by rw [hh s]; simp
      have hval : tr.valid (.dropSequence s) := by
        rw [Trace.valid, ← hr.view.2.hasHandle_iff, hasHandle_abs]; exact hhs
      obtain ⟨w', ev, hs⟩ := (C17_progress hr (.dropSequence s)).1 hval (by simp [Trace.overflows])
      obtain ⟨g1, g2, g3⟩ := handle_step hr hs
      simp only at g2 g3
      have hcr : ∀ t, ({ bw with w := w' } : BWorld α φ).clientRef t = bw.clientRef t := fun _ => rfl
      obtain ⟨w'', tr', e1, e2, e3, e4, e5, e6⟩ := ih (bw := { bw with w := w' }) (hr.step hs) hn.2 (by
        intro t
        show w'.hasHandle t = _
        rw [g2 t, hcr]
        by_cases hts : s = t
        · subst hts; simp [hc, hn.1]
        · have : ¬ t = s := fun h => hts h.symm
          rw [if_neg hts, hh t]; simp [this])
      refine ⟨w'', (.dropSequence s, ev) :: tr', ?_, by simpa using e2, fun t => by rw [e3]; rfl,
        Nat.le_trans g1 e4, by rw [e5]; exact g3, ?_⟩
      · simp only [hs, e1, bind, Except.bind, pure, Except.pure]
        rfl
      · show List.filter _ (ev ++ tr'.events) = ev ++ tr'.events
        rw [List.filter_append, e6, no_rejected hr hs (by simp)]

theorem mem_set_other {β : Type} {l : List β} {b : Nat} {c c0 c' : β} (hb : l[b]? = some c0) (hc : c ∈ l) :
    c = c0 ∨ c ∈ l.set b c' := by
  obtain ⟨i, hi⟩ := List.mem_iff_getElem?.mp hc
  by_cases h : b = i
  · subst h; left; rw [hb] at hi; exact (Option.some.inj hi).symm
  · right
    refine List.mem_iff_getElem?.mpr ⟨i, ?_⟩
    rw [List.getElem?_set]; simp [h, hi]

theorem mem_set_self {β : Type} {l : List β} {b : Nat} {c0 c' : β} (hb : l[b]? = some c0) : c' ∈ l.set b c' := by
  refine List.mem_iff_getElem?.mpr ⟨b, ?_⟩
  have := (List.getElem?_eq_some_iff.mp hb).1
  rw [List.getElem?_set]; simp [this]

theorem clientRef_iff (bw : BWorld α φ) (s : Nat) : bw.clientRef s = true ↔
    bw.object s = true ∨ ∃ c ∈ bw.builders, c.alive = true ∧ s ∈ c.refs := by
  unfold BWorld.clientRef
  simp only [Bool.or_eq_true, List.any_eq_true, Bool.and_eq_true, List.contains_iff_mem]

theorem and_some {x x' : Builder α φ} {item : Item α φ} (h : x.and item = some x') :
    x'.coll = x.coll ∧ x'.seqs = x.seqs ++ sequencesOf [item] ∧ (x.seqs.Nodup → x'.seqs.Nodup) ∧
    (∀ min max, item = .times min max → Spec.validTimes min max ∧ x'.times = ⟨min, max⟩) ∧
    ((∀ min max, item ≠ .times min max) → x'.times = x.times) := by
  cases item with
  | policy p =>
    simp only [Builder.and, Option.some.injEq] at h
    subst h; simp [sequencesOf]
  | finalizer f =>
    simp only [Builder.and, Option.some.injEq] at h
    subst h; simp [sequencesOf]
  | times a c =>
    simp only [Builder.and, timesMake_eq] at h
    by_cases hv : Spec.validTimes a c
    · simp only [if_pos hv, Option.some.injEq] at h
      subst h
      refine ⟨rfl, by simp [sequencesOf], id, ?_, fun hh => absurd rfl (hh a c)⟩
      intro m1 m2 he
      injection he with e1 e2
      subst e1; subst e2
      exact ⟨hv, rfl⟩
    · simp [if_neg hv] at h
  | sequences ss =>
    simp only [Builder.and, seqConfigConcat, seqConfig_eq] at h
    by_cases hss : ss.Nodup
    · simp only [if_pos hss] at h
      by_cases hv : (x.seqs ++ ss).Nodup
      · simp only [if_pos hv, Option.some.injEq] at h
        subst h
        simp [sequencesOf, hv]
      · simp [if_neg hv] at h
    · simp [if_neg hss] at h

/-- One operation of a client with builders is a (possibly empty) sequence of operations without. -/
theorem BInv.step {bw bw' : BWorld α φ} (h : BInv bw) {tr : Trace α} (hr : Reach tr bw.w) {op : BOp α φ}
    {ev : List Event} (hs : bw.step op = .ok (bw', ev)) :
    BInv bw' ∧ ∃ tr', Reach (tr ++ tr') bw'.w ∧
      tr'.events = ev.filter (fun e => decide (e ≠ .rejected)) := by
  have plain : ∀ o : Op α, (∀ st, o ≠ .newSequence st) → (∀ s, o ≠ .dropSequence s) →
      (∀ m min max ss ps, o ≠ .expect m min max ss ps) → bw.plain o = .ok (bw', ev) →
      BInv bw' ∧ ∃ tr', Reach (tr ++ tr') bw'.w ∧
        tr'.events = ev.filter (fun e => decide (e ≠ .rejected)) := by
    intro o h1 h2 h3 ho
    simp only [BWorld.plain, bind, Except.bind] at ho
    cases hw : bw.w.step o with
    | error x => rw [hw] at ho; simp at ho
    | ok r =>
      rw [hw] at ho
      simp only [pure, Except.pure, Except.ok.injEq, Prod.mk.injEq] at ho
      obtain ⟨rfl, rfl⟩ := ho
      obtain ⟨g1, g2, g3⟩ := handle_step (w' := r.1) (ev := r.2) hr hw
      have g2' : ∀ s, r.1.hasHandle s = bw.w.hasHandle s := by
        intro s; rw [g2 s]
        cases o <;> simp_all
      have g3' : r.1.seqs.length = bw.w.seqs.length := by
        rw [g3]
        cases o <;> simp_all
      refine ⟨⟨?_, ?_, h.nodup, ?_⟩, [(o, r.2)], hr.step hw, ?_⟩
      · show bw.objs.length = r.1.seqs.length
        rw [g3', h.objs]
      · intro s
        show r.1.hasHandle s = _
        rw [g2', h.handle]; rfl
      · intro c hc x hx
        obtain ⟨e1, e2, e3⟩ := h.cell c hc x hx
        exact ⟨e1, Nat.lt_of_lt_of_le e2 g1, e3⟩
      · rw [no_rejected hr hw (fun m min max ss ps he => absurd he (h3 m min max ss ps))]
        simp [Trace.events]
  cases op with
  | newMock => exact plain .newMock (by simp) (by simp) (by simp) hs
  | call m a => exact plain (.call m a) (by simp) (by simp) (by simp) hs
  | destroy e => exact plain (.destroy e) (by simp) (by simp) (by simp) hs
  | newSequence st =>
    simp only [BWorld.step, bind, Except.bind] at hs
    cases hw : bw.w.step (.newSequence st) with
    | error x => rw [hw] at hs; simp at hs
    | ok r =>
      rw [hw] at hs
      simp only [pure, Except.pure, Except.ok.injEq, Prod.mk.injEq] at hs
      obtain ⟨rfl, rfl⟩ := hs
      obtain ⟨g1, g2, g3⟩ := handle_step (w' := r.1) (ev := r.2) hr hw
      simp only at g2 g3
      refine ⟨⟨?_, ?_, h.nodup, ?_⟩, [(.newSequence st, r.2)], hr.step hw, ?_⟩
      · show (bw.objs ++ [true]).length = r.1.seqs.length
        rw [g3, ← h.objs]; simp
      · intro s
        show r.1.hasHandle s = _
        rw [g2, h.handle, ← h.objs]
        rw [Bool.eq_iff_iff, Bool.or_eq_true, clientRef_iff, clientRef_iff]
        simp only [BWorld.object, decide_eq_true_eq, beq_iff_eq]
        rcases Nat.lt_trichotomy s bw.objs.length with hlt | heq | hgt
        · rw [List.getElem?_append_left hlt]
          have : ¬ s = bw.objs.length := by omega
          simp [this]
        · subst heq; simp
        · have h1 : bw.objs[s]? = none := by rw [List.getElem?_eq_none_iff]; omega
          have h2 : (bw.objs ++ [true])[s]? = none := by
            rw [List.getElem?_eq_none_iff]; simp; omega
          have : ¬ s = bw.objs.length := by omega
          rw [h1, h2]; simp [this]
      · intro c hc x hx
        obtain ⟨e1, e2, e3⟩ := h.cell c hc x hx
        exact ⟨e1, Nat.lt_of_lt_of_le e2 g1, e3⟩
      · rw [no_rejected hr hw (by simp)]
        simp [Trace.events]
  | dropObject s =>
    simp only [BWorld.step] at hs
    split at hs
    · rename_i ho
      have hobj : ∀ t, ({ bw with objs := bw.objs.set s false } : BWorld α φ).object t
          = (if s = t then false else bw.object t) := by
        intro t
        simp only [BWorld.object, List.getElem?_set]
        by_cases hst : s = t
        · subst hst
          by_cases hl : s < bw.objs.length <;> simp [hl]
        · simp [hst]
      obtain ⟨w', tr', e1, e2, e3, e4, e5, e6⟩ := releaseRefs_ok [s]
        (bw := { bw with objs := bw.objs.set s false }) hr (by simp) (by
        intro t
        show bw.w.hasHandle t = _
        rw [h.handle, Bool.eq_iff_iff, Bool.or_eq_true, clientRef_iff, clientRef_iff, hobj t]
        by_cases hst : s = t
        · subst hst; simp [ho]
        · have : ¬ t = s := fun h => hst h.symm
          simp [hst, this])
      rw [e1] at hs
      simp only [Except.ok.injEq, Prod.mk.injEq] at hs
      obtain ⟨rfl, rfl⟩ := hs
      refine ⟨⟨?_, e3, h.nodup, ?_⟩, tr', e2, e6.symm⟩
      · show (bw.objs.set s false).length = w'.seqs.length
        rw [e5, List.length_set]; exact h.objs
      · intro c hc x hx
        obtain ⟨g1, g2, g3⟩ := h.cell c hc x hx
        exact ⟨g1, Nat.lt_of_lt_of_le g2 e4, g3⟩
    · simp at hs
  | beginExpect m rv args =>
    simp only [BWorld.step] at hs
    split at hs
    · rename_i hm
      simp only [Except.ok.injEq, Prod.mk.injEq] at hs
      obtain ⟨rfl, rfl⟩ := hs
      refine ⟨⟨h.objs, ?_, ?_, ?_⟩, [], by simpa using hr, rfl⟩
      · intro s
        show bw.w.hasHandle s = _
        rw [h.handle, Bool.eq_iff_iff, clientRef_iff, clientRef_iff]
        simp [BWorld.object]
      · intro c hc
        simp only [List.mem_append, List.mem_singleton] at hc
        rcases hc with hc | rfl
        · exact h.nodup c hc
        · simp
      · intro c hc x hx
        simp only [List.mem_append, List.mem_singleton] at hc
        rcases hc with hc | rfl
        · exact h.cell c hc x hx
        · simp only [Option.some.injEq] at hx
          subst hx
          exact ⟨rfl, hm, ⟨(by decide : (0 : Int) ≤ 1), (by decide : (1 : Int) ≤ 1)⟩, (by decide : isInt 1 = true), (by decide : isInt 1 = true)⟩
    · simp at hs
  | extend b item =>
    simp only [BWorld.step] at hs
    split at hs
    · rename_i x refs hb
      split at hs
      · rename_i hok
        rw [Bool.and_eq_true] at hok
        have hbm := List.mem_of_getElem? hb
        obtain ⟨c1, c2, c3⟩ := h.cell _ hbm x rfl
        simp only at c1
        subst c1
        have hnd : x.seqs.Nodup := h.nodup _ hbm
        split at hs
        · simp only [Except.ok.injEq, Prod.mk.injEq] at hs
          obtain ⟨rfl, rfl⟩ := hs
          exact ⟨h, [], by simpa using hr, rfl⟩
        · rename_i x' hx'
          simp only [Except.ok.injEq, Prod.mk.injEq] at hs
          obtain ⟨rfl, rfl⟩ := hs
          obtain ⟨a1, a2, a3, a4, a5⟩ := and_some hx'
          have hleft : item.leftOver x = x.seqs ∨ item.leftOver x = [] := by
            cases item <;> simp [Item.leftOver]
          have hobjs : ∀ s ∈ sequencesOf [item], bw.object s = true := by
            intro s hs
            cases item with
            | sequences ss =>
              have : s ∈ ss := by simpa [sequencesOf] using hs
              exact List.all_eq_true.mp hok.2 s this
            | _ => simp [sequencesOf] at hs
          refine ⟨⟨h.objs, ?_, ?_, ?_⟩, [], by simpa using hr, rfl⟩
          · intro s
            show bw.w.hasHandle s = _
            rw [h.handle, Bool.eq_iff_iff, clientRef_iff, clientRef_iff]
            simp only [List.mem_append, List.mem_singleton]
            constructor
            · rintro (ho | ⟨c, hc, hca, hcs⟩)
              · exact Or.inl ho
              · right
                rcases mem_set_other (c' := ⟨none, item.leftOver x, true⟩) hb hc with rfl | hc
                · exact ⟨_, Or.inr rfl, rfl, by rw [a2]; exact List.mem_append_left _ hcs⟩
                · exact ⟨c, Or.inl hc, hca, hcs⟩
            · rintro (ho | ⟨c, hc, hca, hcs⟩)
              · exact Or.inl ho
              · rcases hc with hc | rfl
                · rcases List.mem_or_eq_of_mem_set hc with hc | rfl
                  · exact Or.inr ⟨c, hc, hca, hcs⟩
                  · right
                    refine ⟨_, hbm, rfl, ?_⟩
                    rcases hleft with hl | hl
                    · simp only [hl] at hcs; exact hcs
                    · simp only [hl] at hcs; simp at hcs
                · simp only [a2, List.mem_append] at hcs
                  rcases hcs with hcs | hcs
                  · exact Or.inr ⟨_, hbm, rfl, hcs⟩
                  · exact Or.inl (hobjs s hcs)
          · intro c hc
            simp only [List.mem_append, List.mem_singleton] at hc
            rcases hc with hc | rfl
            · rcases List.mem_or_eq_of_mem_set hc with hc | rfl
              · exact h.nodup c hc
              · rcases hleft with hl | hl
                · simp only [hl]; exact hnd
                · simp [hl]
            · exact a3 hnd
          · intro c hc y hy
            simp only [List.mem_append, List.mem_singleton] at hc
            rcases hc with hc | rfl
            · rcases List.mem_or_eq_of_mem_set hc with hc | rfl
              · exact h.cell c hc y hy
              · simp at hy
            · simp only [Option.some.injEq] at hy
              subst hy
              refine ⟨rfl, by rw [a1]; exact c2, ?_⟩
              cases item with
              | times m1 m2 =>
                obtain ⟨t1, t2⟩ := a4 m1 m2 rfl
                rw [t2]
                have := hok.2
                simp only [BWorld.usable, Bool.and_eq_true] at this
                exact ⟨t1, this⟩
              | _ => rw [a5 (by simp)]; exact c3
      · simp at hs
    · simp at hs
  | finalize b =>
    simp only [BWorld.step] at hs
    split at hs
    · rename_i x refs hb
      split at hs
      · have hbm := List.mem_of_getElem? hb
        obtain ⟨c1, c2, c3, c4, c5⟩ := h.cell _ hbm x rfl
        simp only at c1
        subst c1
        have hnd : x.seqs.Nodup := h.nodup _ hbm
        simp only [bind, Except.bind] at hs
        cases hw : bw.w.step (.expect x.coll x.times.min x.times.max x.seqs x.policies) with
        | error x => rw [hw] at hs; simp at hs
        | ok r =>
          rw [hw] at hs
          simp only [pure, Except.pure, Except.ok.injEq, Prod.mk.injEq] at hs
          obtain ⟨rfl, rfl⟩ := hs
          obtain ⟨g1, g2, g3⟩ := handle_step (w' := r.1) (ev := r.2) hr hw
          simp only at g2 g3
          refine ⟨⟨?_, ?_, ?_, ?_⟩, [(_, r.2)], hr.step hw, ?_⟩
          · show bw.objs.length = r.1.seqs.length
            rw [g3, h.objs]
          · intro s
            show r.1.hasHandle s = _
            rw [g2, h.handle, Bool.eq_iff_iff, clientRef_iff, clientRef_iff]
            apply or_congr Iff.rfl
            constructor
            · rintro ⟨c, hc, hca, hcs⟩
              rcases mem_set_other (c' := ⟨none, x.seqs, true⟩) hb hc with rfl | hc
              · exact ⟨_, mem_set_self hb, rfl, hcs⟩
              · exact ⟨c, hc, hca, hcs⟩
            · rintro ⟨c, hc, hca, hcs⟩
              rcases List.mem_or_eq_of_mem_set hc with hc | rfl
              · exact ⟨c, hc, hca, hcs⟩
              · exact ⟨_, hbm, rfl, hcs⟩
          · intro c hc
            rcases List.mem_or_eq_of_mem_set hc with hc | rfl
            · exact h.nodup c hc
            · exact hnd
          · intro c hc y hy
            rcases List.mem_or_eq_of_mem_set hc with hc | rfl
            · obtain ⟨e1, e2, e3⟩ := h.cell c hc y hy
              exact ⟨e1, Nat.lt_of_lt_of_le e2 g1, e3⟩
            · simp at hy
          · rw [no_rejected hr hw (by
              intro m min max ss ps he
              injection he with _ e1 e2 e3 _
              rw [← e1, ← e2, ← e3]
              exact ⟨c3, hnd⟩)]
            simp [Trace.events]
      · simp at hs
    · simp at hs
  | dropBuilder b =>
    simp only [BWorld.step] at hs
    split at hs
    · rename_i x refs hb
      have hbm := List.mem_of_getElem? hb
      obtain ⟨w', tr', e1, e2, e3, e4, e5, e6⟩ := releaseRefs_ok refs
        (bw := { bw with builders := bw.builders.set b ⟨x, refs, false⟩ }) hr (h.nodup _ hbm) (by
        intro t
        show bw.w.hasHandle t = _
        rw [h.handle, Bool.eq_iff_iff, Bool.or_eq_true, clientRef_iff, clientRef_iff, decide_eq_true_eq, or_assoc]
        apply or_congr Iff.rfl
        constructor
        · rintro ⟨c, hc, hca, hcs⟩
          rcases mem_set_other (c' := ⟨x, refs, false⟩) hb hc with rfl | hc
          · exact Or.inr hcs
          · exact Or.inl ⟨c, hc, hca, hcs⟩
        · rintro (⟨c, hc, hca, hcs⟩ | hcs)
          · rcases List.mem_or_eq_of_mem_set hc with hc | rfl
            · exact ⟨c, hc, hca, hcs⟩
            · simp at hca
          · exact ⟨_, hbm, rfl, hcs⟩)
      rw [e1] at hs
      simp only [Except.ok.injEq, Prod.mk.injEq] at hs
      obtain ⟨rfl, rfl⟩ := hs
      refine ⟨⟨?_, e3, ?_, ?_⟩, tr', e2, e6.symm⟩
      · show bw.objs.length = w'.seqs.length
        rw [e5]; exact h.objs
      · intro c hc
        rcases List.mem_or_eq_of_mem_set hc with hc | rfl
        · exact h.nodup c hc
        · exact h.nodup ⟨x, refs, true⟩ hbm
      · intro c hc y hy
        rcases List.mem_or_eq_of_mem_set hc with hc | rfl
        · obtain ⟨g1, g2, g3⟩ := h.cell c hc y hy
          exact ⟨g1, Nat.lt_of_lt_of_le g2 e4, g3⟩
        · obtain ⟨g1, g2, g3⟩ := h.cell ⟨x, refs, true⟩ hbm y hy
          exact ⟨g1, Nat.lt_of_lt_of_le g2 e4, g3⟩
    · simp at hs
  | moveBuilder b =>
    simp only [BWorld.step] at hs
    split at hs
    · rename_i x refs hb
      have hbm := List.mem_of_getElem? hb
      simp only [Except.ok.injEq, Prod.mk.injEq] at hs
      obtain ⟨rfl, rfl⟩ := hs
      refine ⟨⟨h.objs, ?_, ?_, ?_⟩, [], by simpa using hr, rfl⟩
      · intro s
        show bw.w.hasHandle s = _
        rw [h.handle, Bool.eq_iff_iff, clientRef_iff, clientRef_iff]
        simp only [List.mem_append, List.mem_singleton]
        apply or_congr Iff.rfl
        constructor
        · rintro ⟨c, hc, hca, hcs⟩
          rcases mem_set_other (c' := ⟨none, [], true⟩) hb hc with rfl | hc
          · exact ⟨_, Or.inr rfl, rfl, hcs⟩
          · exact ⟨c, Or.inl hc, hca, hcs⟩
        · rintro ⟨c, hc | rfl, hca, hcs⟩
          · rcases List.mem_or_eq_of_mem_set hc with hc | rfl
            · exact ⟨c, hc, hca, hcs⟩
            · simp at hcs
          · exact ⟨_, hbm, rfl, hcs⟩
      · intro c hc
        simp only [List.mem_append, List.mem_singleton] at hc
        rcases hc with hc | rfl
        · rcases List.mem_or_eq_of_mem_set hc with hc | rfl
          · exact h.nodup c hc
          · simp
        · exact h.nodup _ hbm
      · intro c hc y hy
        simp only [List.mem_append, List.mem_singleton] at hc
        rcases hc with hc | rfl
        · rcases List.mem_or_eq_of_mem_set hc with hc | rfl
          · exact h.cell c hc y hy
          · simp at hy
        · exact h.cell _ hbm y hy
    · simp at hs

theorem BInv.init : BInv (BWorld.init : BWorld α φ) := by
  constructor <;> simp [BWorld.init, World.init, World.hasHandle, BWorld.clientRef, BWorld.object]

theorem BReach.sim {btr : BTrace α φ} {bw : BWorld α φ} (h : BReach btr bw) :
    BInv bw ∧ ∃ tr, Reach tr bw.w ∧
      tr.events = (btr.flatMap (·.2)).filter (fun e => decide (e ≠ .rejected)) := by
  induction h with
  | init => exact ⟨BInv.init, [], Reach.init, rfl⟩
  | step _ hs ih =>
    obtain ⟨hi, tr, hr, he⟩ := ih
    obtain ⟨g1, tr', g2, g3⟩ := hi.step hr hs
    refine ⟨g1, tr ++ tr', g2, ?_⟩
    rw [events_append, he, g3]
    simp

theorem releaseRefs_builders (ss : List Nat) : ∀ {bw bw' : BWorld α φ} {ev : List Event},
    bw.releaseRefs ss = .ok (bw', ev) → bw'.builders = bw.builders := by
  induction ss with
  | nil => intro bw bw' ev h; simp only [BWorld.releaseRefs, Except.ok.injEq, Prod.mk.injEq] at h; rw [← h.1]
  | cons s ss ih =>
    intro bw bw' ev h
    unfold BWorld.releaseRefs at h
    split at h
    · exact ih h
    · simp only [bind, Except.bind] at h
      split at h
      · simp at h
      · split at h
        · simp at h
        · next v hv v' hv' =>
          simp only [pure, Except.pure, Except.ok.injEq, Prod.mk.injEq] at h
          rw [← h.1]
          exact (ih (bw := { bw with w := _ }) hv').trans rfl

/-- A builder that was used up stays as it is until it is destroyed or moved. -/
theorem builder_stays {bw bw' : BWorld α φ} {op : BOp α φ} {ev : List Event} (hs : bw.step op = .ok (bw', ev)) {b : Nat}
    (hne : op ≠ .dropBuilder b) (hnm : op ≠ .moveBuilder b) {refs : List Nat} (hb : bw.builders[b]? = some ⟨none, refs, true⟩) :
    bw'.builders[b]? = some ⟨none, refs, true⟩ := by
  have hlt := (List.getElem?_eq_some_iff.mp hb).1
  cases op with
  | newSequence st =>
    simp only [BWorld.step, bind, Except.bind] at hs
    split at hs
    · simp at hs
    · simp only [pure, Except.pure, Except.ok.injEq, Prod.mk.injEq] at hs; rw [← hs.1]; exact hb
  | dropObject s =>
    simp only [BWorld.step] at hs
    split at hs
    · rw [releaseRefs_builders _ hs]; exact hb
    · simp at hs
  | newMock =>
    simp only [BWorld.step, BWorld.plain, bind, Except.bind] at hs
    split at hs
    · simp at hs
    · simp only [pure, Except.pure, Except.ok.injEq, Prod.mk.injEq] at hs; rw [← hs.1]; exact hb
  | call c a =>
    simp only [BWorld.step, BWorld.plain, bind, Except.bind] at hs
    split at hs
    · simp at hs
    · simp only [pure, Except.pure, Except.ok.injEq, Prod.mk.injEq] at hs; rw [← hs.1]; exact hb
  | destroy e =>
    simp only [BWorld.step, BWorld.plain, bind, Except.bind] at hs
    split at hs
    · simp at hs
    · simp only [pure, Except.pure, Except.ok.injEq, Prod.mk.injEq] at hs; rw [← hs.1]; exact hb
  | beginExpect coll rv args =>
    simp only [BWorld.step] at hs
    split at hs
    · simp only [Except.ok.injEq, Prod.mk.injEq] at hs
      rw [← hs.1]
      simp only
      rw [List.getElem?_append_left hlt]; exact hb
    · simp at hs
  | extend b' item =>
    simp only [BWorld.step] at hs
    split at hs
    · next x refs' hb' =>
      split at hs
      · split at hs
        · simp only [Except.ok.injEq, Prod.mk.injEq] at hs; rw [← hs.1]; exact hb
        · simp only [Except.ok.injEq, Prod.mk.injEq] at hs
          have hbb : b' ≠ b := by rintro rfl; rw [hb] at hb'; simp at hb'
          rw [← hs.1]
          simp only
          rw [List.getElem?_append_left (by simpa using hlt), List.getElem?_set_ne hbb]; exact hb
      · simp at hs
    · simp at hs
  | finalize b' =>
    simp only [BWorld.step] at hs
    split at hs
    · next x refs' hb' =>
      have hbb : b' ≠ b := by rintro rfl; rw [hb] at hb'; simp at hb'
      split at hs
      · simp only [bind, Except.bind] at hs
        split at hs
        · simp at hs
        · simp only [pure, Except.pure, Except.ok.injEq, Prod.mk.injEq] at hs
          rw [← hs.1]
          simp only
          rw [List.getElem?_set_ne hbb]; exact hb
      · simp at hs
    · simp at hs
  | dropBuilder b' =>
    have hbb : b' ≠ b := by rintro rfl; exact hne rfl
    simp only [BWorld.step] at hs
    split at hs
    · rw [releaseRefs_builders _ hs]
      simp only
      rw [List.getElem?_set_ne hbb]; exact hb
    · simp at hs
  | moveBuilder b' =>
    have hbb : b' ≠ b := by rintro rfl; exact hnm rfl
    simp only [BWorld.step] at hs
    split at hs
    · simp only [Except.ok.injEq, Prod.mk.injEq] at hs
      rw [← hs.1]
      simp only
      rw [List.getElem?_append_left (by simpa using hlt), List.getElem?_set_ne hbb]; exact hb
    · simp at hs

end Mimic
