import Verif.Proofs.Watched
import Verif.Spec.WatchedTerminate

/-! # When operations on watched objects terminate the program: lemmas -/

set_option autoImplicit false

namespace Mimic

variable {α : Type} {a0 : Trigger α}

/-- Only expectations can be too many. -/
theorem Reach.no_terminate {tr : Trace α} {w : World α} (h : Reach tr w) {op : Op α} (ho : ¬ (abs w).full op) (why : String) :
    w.step op ≠ .error (.terminate why) := by
  intro hs
  have := h.view.1.step op
  split at this
  · obtain ⟨why', h1⟩ := this
    rw [hs] at h1
    cases h1
  · obtain ⟨w', h1, -⟩ := this.2 ho
    rw [hs] at h1
    cases h1

theorem lib_terminate {ww : WWorld α} {tr : Trace α} (h : Reach tr ww.w) {op : Op α} (ho : ¬ (abs ww.w).full op) {f : WWorld α → List Event → WRes α}
    {why : String} (hs : ww.lib op f = .error (.terminate why)) :
    ∃ w' ev, ww.w.step op = .ok (w', ev) ∧ f { ww with w := w' } ev = .error (.terminate why) := by
  unfold WWorld.lib at hs
  split at hs
  · rename_i x hx
    simp only [Except.error.injEq] at hs
    subst hs
    exact absurd hx (h.no_terminate ho why)
  · rename_i w' ev hx
    refine ⟨w', ev, hx, ?_⟩
    split at hs
    · rename_i x hf
      rw [hf]
      exact hs
    · cases hs

theorem full_newMock {S : Spec.State α} : ¬ S.full .newMock := id
theorem full_call {S : Spec.State α} {m : Nat} {a : α} : ¬ S.full (.call m a) := id

/-- Operations of the objects themselves. -/
def own : WOp α → Bool
  | .plain _ => false
  | .expect _ _ _ _ _ => false
  | _ => true

theorem fresh_terminate {ww : WWorld α} {tr : Trace α} (h : Reach tr ww.w) {f : WWorld α → Nat → WRes α} {why : String}
    (hs : ww.fresh f = .error (.terminate why)) : ∃ (ww' : WWorld α) (c : Nat) (tr' : Trace α), Reach tr' ww'.w ∧ f ww' c = .error (.terminate why) := by
  obtain ⟨w', ev, h1, h2⟩ := lib_terminate h full_newMock hs
  exact ⟨_, _, _, h.step h1, h2⟩

theorem step_terminate {tr : WTrace α} {ww : WWorld α} (h : WReach a0 tr ww) {op : WOp α} (ho : own op = true) (why : String) :
    ww.step a0 op ≠ .error (.terminate why) := by
  have hr := h.inv.reach
  intro hs
  cases op with
  | plain => simp [own] at ho
  | expect => simp [own] at ho
  | create kind =>
    simp only [WWorld.step, WWorld.construct] at hs
    obtain ⟨_, _, _, _, h2⟩ := fresh_terminate hr hs
    cases h2
  | copy src =>
    simp only [WWorld.step, WWorld.construct, WWorld.renew] at hs
    split at hs
    · cases hs
    · obtain ⟨_, _, _, _, h2⟩ := fresh_terminate hr hs
      cases h2
  | move src =>
    simp only [WWorld.step, WWorld.construct, WWorld.renew] at hs
    split at hs
    · cases hs
    · split at hs
      · cases hs
      · obtain ⟨ww', c, tr', h1, h2⟩ := fresh_terminate hr hs
        split at h2
        · cases h2
        · obtain ⟨_, _, _, h3⟩ := lib_terminate h1 full_call h2
          split at h3 <;> cases h3
  | copyAssign dst src =>
    simp only [WWorld.step, WWorld.construct, WWorld.renew] at hs
    split at hs
    · split at hs
      · split at hs
        · split at hs
          · obtain ⟨_, _, _, _, h2⟩ := fresh_terminate hr hs
            cases h2
          · obtain ⟨w', ev, h1, h3⟩ := lib_terminate (tr := tr.flat) (by exact hr) full_call hs
            split at h3
            · cases h3
            · obtain ⟨_, _, _, _, h4⟩ := fresh_terminate (by exact hr.step h1) h3
              cases h4
        · obtain ⟨_, _, _, _, h2⟩ := fresh_terminate hr hs
          cases h2
      · cases hs
    · cases hs
  | moveAssign dst src =>
    simp only [WWorld.step, WWorld.construct, WWorld.renew] at hs
    split at hs
    · split at hs
      · split at hs
        · split at hs <;> cases hs
        · split at hs
          · cases hs
          · obtain ⟨_, _, _, h3⟩ := lib_terminate hr full_call hs
            split at h3
            · cases h3
            · split at h3 <;> cases h3
      · cases hs
    · cases hs
  | drop o =>
    simp only [WWorld.step, WWorld.construct, WWorld.renew] at hs
    split at hs
    · cases hs
    · split at hs
      · obtain ⟨_, _, _, h3⟩ := lib_terminate (tr := tr.flat) (by exact hr) full_call hs
        cases h3
      · cases hs
  | abandon o =>
    simp only [WWorld.step, WWorld.construct, WWorld.renew] at hs
    split at hs
    · cases hs
    · split at hs
      · split at hs
        · cases hs
        · split at hs <;> cases hs
      · split at hs <;> cases hs

theorem createdBy_eq (log : List (WEvent α)) : createdBy log = (objectsOf log).map (·.1) := by
  unfold createdBy objectsOf
  induction log with
  | nil => rfl
  | cons x xs ih => cases x <;> simp_all

theorem unwind_terminate {tr : WTrace α} {ww : WWorld α} (h : WReach a0 tr ww) {os : List Nat} {why : String}
    (hu : unwind a0 ww os = .error (.terminate why)) :
    ∃ d ww', WRuns a0 ww d ww' ∧ d.map (·.1) <+: os.map .drop ∧ ∃ st ∈ d, ¬ completed st.2 := by
  induction os generalizing tr ww with
  | nil => cases hu
  | cons o os ih =>
    simp only [unwind] at hu
    split at hu
    · rename_i x hx
      simp only [Except.error.injEq] at hu
      subst hu
      exact absurd hx (step_terminate h rfl why)
    · rename_i ww1 log hs
      split at hu
      · rename_i ht
        exact ⟨[(.drop o, log)], ww1, .cons hs (.nil _), by simp, _, List.mem_singleton.mpr rfl, thrown_iff.mp ht⟩
      · split at hu
        · rename_i x hx
          simp only [Except.error.injEq] at hu
          subst hu
          obtain ⟨d, ww', h1, h2, st, h3, h4⟩ := ih (h.step hs) hx
          exact ⟨(.drop o, log) :: d, ww', .cons hs h1, by simpa using h2, st, by simp [h3], h4⟩
        · cases hu

theorem build_terminate {nothrow : Bool} {tr : WTrace α} {ww : WWorld α} (h : WReach a0 tr ww) {made : List Nat} {ops : List (WOp α)} {why : String}
    (hm : ∀ op ∈ ops, makes op) (hb : build a0 nothrow ww made ops = .error (.terminate why)) :
    ∃ (b : WTrace α) (st : WOp α × List (WEvent α)) (d : WTrace α) (ww' : WWorld α), createdBy st.2 = [] ∧ WRuns a0 ww (b ++ st :: d) ww' ∧ (b ++ [st]).map (·.1) <+: ops ∧ (∀ x ∈ b, completed x.2) ∧ ¬ completed st.2 ∧
      (nothrow = true ∨ (d.map (·.1) <+: (b.createdIn.reverse ++ made).map .drop ∧ ∃ x ∈ d, ¬ completed x.2)) := by
  induction ops generalizing tr ww made with
  | nil => cases hb
  | cons op ops ih =>
    have hop := hm op (by simp)
    simp only [build] at hb
    split at hb
    · rename_i x hx
      simp only [Except.error.injEq] at hb
      subst hb
      exact absurd hx (step_terminate h (by cases op <;> simp_all [makes, own]) why)
    · rename_i ww1 log hs
      split at hb
      · rename_i ht
        split at hb
        · rename_i hn
          exact ⟨[], (op, log), [], ww1, by rw [createdBy_eq, (makes_fail hop hs ht).2.1]; rfl, .cons hs (.nil _), by simp, by simp, thrown_iff.mp ht, .inl hn⟩
        · split at hb
          · rename_i x hx
            simp only [Except.error.injEq] at hb
            subst hb
            obtain ⟨d, ww', h1, h2, h3⟩ := unwind_terminate (h.step hs) hx
            exact ⟨[], (op, log), d, ww', by rw [createdBy_eq, (makes_fail hop hs ht).2.1]; rfl, .cons hs h1, by simp, by simp, thrown_iff.mp ht, .inr ⟨by simpa [WTrace.createdIn] using h2, h3⟩⟩
          · cases hb
      · rename_i ht
        split at hb
        · rename_i x hx
          simp only [Except.error.injEq] at hb
          subst hb
          have ht' : thrown log = false := by simpa using ht
          obtain ⟨b, st, d, ww', h0, h1, h2, h3, h4, h5⟩ := ih (h.step hs) (fun o ho => hm o (by simp [ho])) hx
          obtain ⟨-, kd, ho, -⟩ := makes_ok hop hs ht'
          refine ⟨(op, log) :: b, st, d, ww', h0, .cons hs h1, by simpa using h2, ?_, h4, ?_⟩
          · intro y hy
            rcases List.mem_cons.mp hy with rfl | hy
            · exact thrown_false.mp ht'
            · exact h3 y hy
          · rcases h5 with h5 | ⟨h5, h6⟩
            · exact .inl h5
            · refine .inr ⟨?_, h6⟩
              have : createdBy log = [ww.objs.length] := by rw [createdBy_eq, ho]; rfl
              simpa [WTrace.createdIn, this] using h5
        · cases hb

theorem created_runs {ww ww' : WWorld α} {tr : WTrace α} (hr : WRuns a0 ww tr ww') (hm : ∀ st ∈ tr, makes st.1) (hq : quiet tr) :
    tr.createdIn = List.range' ww.objs.length tr.length := by
  induction hr with
  | nil ww => rfl
  | @cons ww ww1 ww2 op log tr hs hr ih =>
    have ht : thrown log = false := hq (op, log) (by simp)
    obtain ⟨hl, kd, hk1, hk2⟩ := makes_ok (hm (op, log) (by simp)) hs ht
    have := ih (fun st hst => hm st (by simp [hst])) (fun st hst => hq st (by simp [hst]))
    have h2 : createdBy log = [ww.objs.length] := by rw [createdBy_eq, hk1]; rfl
    unfold WTrace.createdIn at this ⊢
    rw [List.flatMap_cons, this, h2, hl, List.length_cons, List.range'_succ]
    rfl

theorem construct_terminate {tr : WTrace α} {cw : CWorld α} (h : WReach a0 tr cw.ww) {base : BaseSpec} {kinds : List Watcher} {nothrow fails : Bool}
    {ops : List (WOp α)} {why : String} (hm : ∀ op ∈ ops, makes op)
    (hc : cw.construct a0 base kinds nothrow ops fails = .error (.terminate why)) :
    ∃ (b d : WTrace α) (ww' : WWorld α), WReach a0 (tr ++ b ++ d) ww' ∧ FailsIn ops fails b ∧
      (nothrow = true ∨ (d.map (·.1) <+: b.createdIn.reverse.map .drop ∧ ∃ x ∈ d, ¬ completed x.2)) := by
  simp only [CWorld.construct] at hc
  split at hc
  · rename_i x hx
    simp only [Except.error.injEq] at hc
    subst hc
    obtain ⟨b, st, d, ww', h0, h1, h2, h3, h4, h5⟩ := build_terminate h hm hx
    refine ⟨b ++ [st], d, ww', ?_, .inl ⟨b, st, rfl, h2, h3, h4⟩, ?_⟩
    · have := h1.reach h
      simpa using this
    · rcases h5 with h5 | ⟨h5, h6⟩
      · exact .inl h5
      · refine .inr ⟨?_, h6⟩
        simpa [WTrace.createdIn, h0] using h5
  · cases hc
  · rename_i ww1 t made hb
    split at hc
    · rename_i hf
      rcases build_runs hm hb with ⟨m, hm', h1, h2, h3, h4, h5⟩ | ⟨hm', -⟩
      · have hcr : t.createdIn.reverse = made := by
          simp only [Option.some.injEq] at hm'
          have hmk : ∀ st ∈ t, makes st.1 := fun st hst => hm st.1 (by rw [← h2]; exact List.mem_map_of_mem hst)
          rw [created_runs h1 hmk h3, hm', h4, List.append_nil, ← h2, List.length_map]
        split at hc
        · rename_i hn
          refine ⟨t, [], ww1, ?_, .inr ⟨hf, h2, fun x hx => thrown_false.mp (h3 x hx)⟩, .inl hn⟩
          have := h1.reach h
          simpa using this
        · split at hc
          · rename_i x hx
            simp only [Except.error.injEq] at hc
            subst hc
            have hr := h1.reach h
            obtain ⟨d, ww', k1, k2, k3⟩ := unwind_terminate hr hx
            refine ⟨t, d, ww', k1.reach hr, .inr ⟨hf, h2, fun x hx => thrown_false.mp (h3 x hx)⟩, .inr ⟨?_, k3⟩⟩
            rw [hcr]; exact k2
          · cases hc
      · cases hm'
    · cases hc

theorem assign_terminate {nothrow : Bool} {tr : WTrace α} {ww : WWorld α} (h : WReach a0 tr ww) {ops : List (WOp α)} {why : String}
    (hm : ∀ op ∈ ops, own op = true) (hb : assign a0 nothrow ww ops = .error (.terminate why)) :
    nothrow = true ∧ ∃ b st ww', WRuns a0 ww (b ++ [st]) ww' ∧ (b ++ [st]).map (·.1) <+: ops ∧ (∀ x ∈ b, completed x.2) ∧ ¬ completed st.2 := by
  induction ops generalizing tr ww with
  | nil => cases hb
  | cons op ops ih =>
    simp only [assign] at hb
    split at hb
    · rename_i x hx
      simp only [Except.error.injEq] at hb
      subst hb
      exact absurd hx (step_terminate h (hm op (by simp)) why)
    · rename_i ww1 log hs
      split at hb
      · rename_i ht
        split at hb
        · rename_i hn
          exact ⟨hn, [], (op, log), ww1, .cons hs (.nil _), by simp, by simp, thrown_iff.mp ht⟩
        · cases hb
      · rename_i ht
        split at hb
        · rename_i x hx
          simp only [Except.error.injEq] at hb
          subst hb
          obtain ⟨hn, b, st, ww', h1, h2, h3, h4⟩ := ih (h.step hs) (fun o ho => hm o (by simp [ho])) hx
          refine ⟨hn, (op, log) :: b, st, ww', .cons hs h1, by simpa using h2, ?_, h4⟩
          intro y hy
          rcases List.mem_cons.mp hy with rfl | hy
          · exact thrown_false.mp (by simpa using ht)
          · exact h3 y hy
        · cases hb

theorem dropParts_terminate {nothrow : Bool} {tr : WTrace α} {ww : WWorld α} (h : WReach a0 tr ww) {threw : Bool} {os : List Nat} {why : String}
    (hb : dropParts a0 nothrow ww threw os = .error (.terminate why)) :
    ∃ b st ww', WRuns a0 ww (b ++ [st]) ww' ∧ (b ++ [st]).map (·.1) <+: os.map .drop ∧ ¬ completed st.2 ∧
      (nothrow = true ∨ threw = true ∨ ∃ x ∈ b, ¬ completed x.2) := by
  induction os generalizing tr ww threw with
  | nil => cases hb
  | cons o os ih =>
    simp only [dropParts] at hb
    split at hb
    · rename_i x hx
      simp only [Except.error.injEq] at hb
      subst hb
      exact absurd hx (step_terminate h rfl why)
    · rename_i ww1 log hs
      split at hb
      · rename_i ht
        simp only [Bool.and_eq_true, Bool.or_eq_true] at ht
        refine ⟨[], (.drop o, log), ww1, .cons hs (.nil _), by simp, thrown_iff.mp ht.1, ?_⟩
        rcases ht.2 with h1 | h1
        · exact .inl h1
        · exact .inr (.inl h1)
      · split at hb
        · rename_i x hx
          simp only [Except.error.injEq] at hb
          subst hb
          obtain ⟨b, st, ww', h1, h2, h3, h4⟩ := ih (h.step hs) hx
          refine ⟨(.drop o, log) :: b, st, ww', .cons hs h1, by simpa using h2, h3, ?_⟩
          rcases h4 with h4 | h4 | ⟨x, hx, h4⟩
          · exact .inl h4
          · simp only [Bool.or_eq_true] at h4
            rcases h4 with h4 | h4
            · exact .inr (.inl h4)
            · exact .inr (.inr ⟨_, List.mem_cons_self, thrown_iff.mp h4⟩)
          · exact .inr (.inr ⟨x, by simp [hx], h4⟩)
        · cases hb

end Mimic
