import Verif.Proofs.WatcherLife
import Verif.Props.Outcome
import Verif.Props.Limits
import Verif.Props.Safety

/-!
# C34–C36: object watchers
-/

set_option autoImplicit false

namespace Mimic

variable {α : Type} {a0 : Trigger α}

/-! ## Who carries a watch -/

/-- C34, C36: a watch is carried by at most one object, and an object carries at most one watch. -/
theorem C34_carrier {tr : WTrace α} {ww : WWorld α} (h : WReach a0 tr ww) :
    (∀ o o' k, tr.carries o k → tr.carries o' k → o = o') ∧ (∀ o k k', tr.carries o k → tr.carries o k' → k = k') :=
  carrier_unique h

open Classical in
/-- C34, C36: an operation triggers a watch exactly once if it destroys or copy-assigns over the object with the
lifetime watcher that carries the watch, or if it moves from the object with the relocation watcher that carries it;
otherwise it does not trigger it. -/
theorem C34_trigger {tr : WTrace α} {ww ww' : WWorld α} (h : WReach a0 tr ww) {op : WOp α} {log : List (WEvent α)}
    (hs : ww.step a0 op = .ok (ww', log)) {k : Nat} (hk : tr.watch k) :
    triggers log k = if ∃ o, tr.carries o k ∧ tr.reportable op o then 1 else 0 :=
  trigger_spec h hs hk

/-! ## Lifetime watchers -/

/-- C34: when an object with a lifetime watcher is destroyed or copy-assigned over, the watch it carried is triggered now,
once, and then never again. -/
theorem C34_once {tr post : WTrace α} {ww : WWorld α} {op : WOp α} {log : List (WEvent α)}
    (h : WReach a0 (tr ++ (op, log) :: post) ww) {o k : Nat} (hc : tr.carries o k) (hl : tr.isKind o .lifetime)
    (he : ends op o) :
    triggers log k = 1 ∧ WTrace.triggers post k = 0 := by
  have h' : WReach a0 ((tr ++ [(op, log)]) ++ post) ww := by simpa using h
  obtain ⟨ww1, h1⟩ := h'.prefix
  obtain ⟨ww0, h0, hs⟩ := h1.snoc_inv
  have hw := carries_watch hc
  refine ⟨?_, ?_⟩
  · rw [C34_trigger h0 hs hw, if_pos ⟨o, hc, Or.inl ⟨hl, he⟩⟩]
  · refine (uncarried_forever h' (k := k) (watch_snoc.mpr (Or.inl hw)) ?_).2
    intro o' ho'
    rw [carries_snoc] at ho'
    rcases ho' with hb | ⟨s, hm, hc'⟩ | ⟨hc', hlv⟩
    · have h1 := born_fresh h0.inv (.of_step hs) hb
      have h2 := h0.inv.owned k (h0.inv.watch k hw)
      omega
    · rcases he with rfl | ⟨_, rfl⟩ <;> simp [movesTo] at hm
    · have := (C34_carrier h0).1 _ _ _ hc hc'
      subst this
      rcases he with rfl | ⟨_, rfl⟩ <;> simp [leaves] at hlv

/-- C34: a watch that is carried by an object with a lifetime watcher is triggered at most once in whatever happens later. -/
theorem C34_at_most_once {tr post : WTrace α} {ww : WWorld α} (h : WReach a0 (tr ++ post) ww) {o k : Nat}
    (hc : tr.carries o k) (hl : tr.isKind o .lifetime) : WTrace.triggers post k ≤ 1 := by
  induction post generalizing tr o with
  | nil => simp [WTrace.triggers]
  | cons st post ih =>
    have h' : WReach a0 ((tr ++ [st]) ++ post) ww := by simpa using h
    obtain ⟨ww1, h1⟩ := h'.prefix
    obtain ⟨ww0, h0, hs⟩ := h1.snoc_inv
    have hw := carries_watch hc
    have hsplit : WTrace.triggers (st :: post) k = triggers st.2 k + WTrace.triggers post k := by
      simp [WTrace.triggers]
    rw [hsplit]
    by_cases he : ends st.1 o
    · have := C34_once h hc hl he
      omega
    · have ht : triggers st.2 k = 0 := by
        rw [C34_trigger h0 hs hw, if_neg]
        rintro ⟨o', hc', hr⟩
        have := (C34_carrier h0).1 _ _ _ hc hc'
        subst this
        rcases hr with ⟨_, hr⟩ | ⟨hr, _⟩
        · exact he hr
        · have := (h0.inv2.kind _ _).mp hr
          rw [(h0.inv2.kind _ _).mp hl] at this
          simp at this
      by_cases hn : ∃ o', (tr ++ [st] : WTrace α).carries o' k
      · obtain ⟨o', hc'⟩ := hn
        have := ih h' hc' (carrier_kind h0 hs hc hl hc')
        omega
      · have := (uncarried_forever h' (k := k) (watch_snoc.mpr (Or.inl hw)) (fun o' ho' => hn ⟨o', ho'⟩)).2
        omega

/-- C34: an object that carries nothing (because it was moved from) is destroyed without any report. -/
theorem C34_moved_from {tr : WTrace α} {ww ww' : WWorld α} (h : WReach a0 tr ww) {o : Nat} {log : List (WEvent α)}
    (hs : ww.step a0 (.drop o) = .ok (ww', log)) (hn : ∀ k, ¬ tr.carries o k) : log = [] := by
  have hi := h.inv
  cases WStep.of_step hs with
  | dropSilent _ _ => rfl
  | @dropL _ c x w' ev hx _ hc _ =>
    exact absurd ((hi.carries o c).mpr ((obj_some hx).2.2.2.trans hc)) (hn c)
  | make hop => simp at hop
  | refused _ _ _ hop => simp at hop

/-- C34: copying an object of either kind yields an object with a new watch and without any expectation, and changes nothing
else; the same holds for an object that is copy-assigned over. -/
theorem C34_copy {tr : WTrace α} {ww ww' : WWorld α} (h : WReach a0 tr ww) {op : WOp α} {src : Nat} {log : List (WEvent α)}
    (hs : ww.step a0 op = .ok (ww', log)) (hd : completed log)
    (hop : op = .copy src ∨ ∃ dst, op = .copyAssign dst src) :
    ∃ o k, ((op = .copy src ∧ ¬ (∃ kd, tr.isKind o kd)) ∨ op = .copyAssign o src) ∧
      (∀ o' k', (tr ++ [(op, log)] : WTrace α).carries o' k' ↔ if o' = o then k' = k else tr.carries o' k') ∧
      ¬ tr.watch k ∧
      ((tr ++ [(op, log)] : WTrace α).isKind o .lifetime → ¬ (tr ++ [(op, log)] : WTrace α).armed o) ∧
      ∀ e d, (tr ++ [(op, log)] : WTrace α).flat.decl e = some d → d.mock ≠ k := by
  have hi := h.inv
  have hi2 := h.inv2
  have hi' := hi.step (WStep.of_step hs)
  have hi2' := hi2.step (WStep.of_step hs)
  have hmem : ∀ k, ww.w.colls.length ≤ k → ¬ tr.watch k := by
    intro k hk hw
    have := hi.owned k (hi.watch k hw)
    omega
  have hkd : ∀ o, ww.objs.length ≤ o → ¬ ∃ kd, tr.isKind o kd := by
    rintro o ho ⟨kd, hkd⟩
    have := fieldAt_lt ((hi2.kind o kd).mp hkd)
    omega
  have hdecl : ∀ (k : Nat) (e : Nat) (d : Decl α), ww.w.colls.length ≤ k →
      (∀ st ∈ libOps log, ∀ m min max tags ps, st.1 ≠ Op.expect m min max tags ps) →
      (tr ++ [(op, log)] : WTrace α).flat.decl e = some d → d.mock ≠ k := by
    intro k e d hk hn hd
    rw [flat_snoc, decl_append_none hn] at hd
    have := decl_mock_lt hi.reach hd
    omega
  simp only [hi'.carries, hi.carries, hi2'.kind]
  cases WStep.of_step hs with
  | make hop' =>
    have : op = .copy src := by
      rcases hop with rfl | ⟨dst, rfl⟩
      · rfl
      · simp at hop'
    subst this
    refine ⟨ww.objs.length, ww.w.colls.length, Or.inl ⟨rfl, hkd _ (Nat.le_refl _)⟩, fun o' k' => ?_, hmem _ (Nat.le_refl _),
      fun hk => ?_, fun e d => hdecl _ e d (Nat.le_refl _) (by simp [libOps])⟩
    · simp only [mockAt_push]
      split <;> simp [eq_comm]
    · rw [hi2'.armed _ hk]
      simp [fieldAt_push]
  | @copyAssign dst src x y hx hy hxy hm =>
    have hlt := (obj_some hx).2.2.1
    refine ⟨dst, ww.w.colls.length, Or.inr (by rcases hop with hop | ⟨_, hop⟩ <;> simp_all), fun o' k' => ?_, hmem _ (Nat.le_refl _),
      fun hk => ?_, fun e d => hdecl _ e d (Nat.le_refl _) (by simp [libOps])⟩
    · simp only [mockAt_set]
      grind
    · rw [hi2'.armed _ hk]
      simp [fieldAt_set, hlt]
  | @copyAssignL dst src c x y w' ev hx hy hxy hk hc hst hu =>
    have hlt := (obj_some hx).2.2.1
    have hl := colls_call hi.reach hst
    refine ⟨dst, w'.colls.length, Or.inr (by rcases hop with hop | ⟨_, hop⟩ <;> simp_all), fun o' k' => ?_, hmem _ (by omega),
      fun hk => ?_, fun e d => hdecl _ e d (by omega) (by simp [libOps])⟩
    · simp only [mockAt_set]
      grind
    · rw [hi2'.armed _ hk]
      simp [fieldAt_set, hlt]
  | copyAssignLfail => simp [completed] at hd
  | refused _ _ _ hop' => rcases hop with rfl | ⟨_, rfl⟩ <;> simp at hop'
  | _ => simp at hop

/-- C34: `expect_destruct` on an object that has an expectation already throws `std::logic_error` and does nothing else;
nothing else throws it. -/
theorem C34_logic_error {tr : WTrace α} {ww ww' : WWorld α} (h : WReach a0 tr ww) {op : WOp α} {log : List (WEvent α)}
    (hs : ww.step a0 op = .ok (ww', log)) :
    (WEvent.logicError ∈ log ↔ ∃ o, ((∃ min max tags ps, op = .expect o min max tags ps) ∨ op = .abandon o) ∧
      tr.isKind o .lifetime ∧ tr.armed o) ∧
    (WEvent.logicError ∈ log → log = [.logicError] ∧ ww' = ww) := by
  have hi2 := h.inv2
  have key : ∀ o x, ww.obj o = some x → (tr.isKind o .lifetime ∧ tr.armed o ↔ x.kind = .lifetime ∧ x.has = true) := by
    intro o x hx
    obtain ⟨_, h1, h2, _⟩ := obj_fields hx
    rw [hi2.kind, h1]
    constructor
    · rintro ⟨ha, hb⟩
      rw [ha] at h1
      rw [hi2.armed o h1, h2] at hb
      simp_all
    · rintro ⟨ha, hb⟩
      rw [ha] at h1
      exact ⟨by rw [ha], by rw [hi2.armed o h1, h2, hb]⟩
  cases WStep.of_step hs with
  | make hop => rcases hop with rfl | ⟨src, x, rfl, _, _⟩ <;> simp
  | @dropL _ _ _ _ ev _ _ _ _ => cases a0.fails ev <;> simp
  | @refused _ o x hx hk hh hop =>
    refine ⟨⟨fun _ => ⟨o, hop, (key o x hx).mpr ⟨hk, hh⟩⟩, fun _ => by simp⟩, fun _ => ⟨rfl, rfl⟩⟩
  | @expectL o c x _ _ _ _ _ _ hx hk hh hc hs =>
    have := key o x hx
    simp_all
  | @expectR o c x _ _ _ _ _ _ hx hk hc hs =>
    have := key o x hx
    simp_all
  | @abandonL o c x hx hk hh hc =>
    have := key o x hx
    simp_all
  | @abandonR o c x hx hk hc =>
    have := key o x hx
    simp_all
  | _ => simp

/-- C34: a destruction expectation is an expectation on the watch that the object carries, for exactly one call. -/
theorem C34_expect {tr : WTrace α} {ww ww' : WWorld α} (h : WReach a0 tr ww) {o : Nat} {min max : Int} {tags : List Nat}
    {ps : List (Policy α)} {log : List (WEvent α)} (hs : ww.step a0 (.expect o min max tags ps) = .ok (ww', log))
    (hl : tr.isKind o .lifetime) (ha : ¬ tr.armed o) :
    ∃ k ev, tr.carries o k ∧ log = [.lib (.expect k 1 1 tags ps) ev] := by
  have hi := h.inv
  have hi2 := h.inv2
  cases WStep.of_step hs with
  | make hop => simp at hop
  | @expectL o c x _ _ _ _ _ ev hx hk hh hc hs =>
    exact ⟨c, ev, (hi.carries o c).mpr ((obj_some hx).2.2.2.trans hc), rfl⟩
  | @expectR o c x _ _ _ _ _ _ hx hk hc hs =>
    have h1 := (obj_fields hx).2.1
    rw [(hi2.kind _ _).mp hl, hk] at h1
    simp at h1
  | @refused _ o x hx hk hh hop =>
    simp at hop
    subst hop
    obtain ⟨_, h1, h2, _⟩ := obj_fields hx
    rw [hk] at h1
    rw [hh] at h2
    exact absurd ((hi2.armed o h1).mpr h2) ha

/-- C34, C36: a report ends without an exception exactly if some expectation on the watch is a candidate for it and the one that is
chosen (as for calls, C08) does not throw itself. -/
theorem C34_outcome {tr : WTrace α} {ww ww' : WWorld α} (h : WReach a0 tr ww) {op : WOp α} {log : List (WEvent α)}
    (hs : ww.step a0 op = .ok (ww', log)) {o k : Nat} (hc : tr.carries o k) (hr : tr.reportable op o) :
    (∀ e, ¬ tr.flat.candidate k a0.arg e) ∧ ¬ completed log ∨
    ∃ x older e, YoungestFirst (tr.flat.candidate k a0.arg) (x :: older) ∧ tr.flat.Chosen x older e ∧
      (completed log ↔ a0.throws e = false) := by
  have hi := h.inv
  have hi2 := h.inv2
  rw [hi.carries] at hc
  simp only [WTrace.reportable, hi2.kind] at hr
  have hcand : ∀ e, Trace.candidate (tr.flat ++ [(.newMock, [.mockCreated ww.w.colls.length])]) k a0.arg e ↔
      tr.flat.candidate k a0.arg e := fun e => candidate_newMock
  have hch : ∀ x older e, Trace.Chosen (tr.flat ++ [(.newMock, [.mockCreated ww.w.colls.length])]) x older e ↔
      tr.flat.Chosen x older e := fun _ _ _ => chosen_newMock
  have hyf : ∀ es, YoungestFirst (Trace.candidate (tr.flat ++ [(.newMock, [.mockCreated ww.w.colls.length])]) k a0.arg) es ↔
      YoungestFirst (tr.flat.candidate k a0.arg) es := by
    intro es; simp only [YoungestFirst, hcand]
  have hobj : ∀ (o : Nat) (x : WatchObj), ww.obj o = some x → fieldAt (·.kind) ww.objs o = some x.kind ∧
      mockAt ww.objs o = x.mock := fun o x hx => ⟨(obj_fields hx).2.1, (obj_some hx).2.2.2⟩
  cases WStep.of_step hs with
  | make hop => rcases hop with rfl | ⟨src, x, rfl, _, _⟩ <;> simp [ends, movesFrom] at hr
  | refused _ _ _ hop => rcases hop with ⟨_, _, _, _, rfl⟩ | rfl <;> simp [ends, movesFrom] at hr
  | moveL hx _ => have := hobj _ _ hx; simp [ends, movesFrom] at hr; grind
  | moveR hx _ _ hst hu =>
    have := hobj _ _ hx
    have := fails_iff (a0 := a0) (grown_reach hi.reach) hst
    simp [ends, movesFrom, completed] at hr ⊢; grind
  | moveRfail hx _ _ hst hu =>
    have := hobj _ _ hx
    have := fails_iff (a0 := a0) (grown_reach hi.reach) hst
    simp [ends, movesFrom, completed] at hr ⊢; grind
  | copyAssign hx hy _ _ => have := hobj _ _ hx; simp [ends, movesFrom] at hr; grind
  | copyAssignL hx hy _ _ _ hst hu =>
    have := hobj _ _ hx
    have := fails_iff (a0 := a0) hi.reach hst
    simp [ends, movesFrom, completed] at hr ⊢; grind
  | copyAssignLfail hx hy _ _ _ hst hu =>
    have := hobj _ _ hx
    have := fails_iff (a0 := a0) hi.reach hst
    simp [ends, movesFrom, completed] at hr ⊢; grind
  | moveAssignSelfL hx _ => have := hobj _ _ hx; simp [ends, movesFrom] at hr; grind
  | moveAssignL hx hy _ _ _ => have := hobj _ _ hy; simp [ends, movesFrom] at hr; grind
  | moveAssignSelfR hx _ _ hst hu =>
    have := hobj _ _ hx
    have := fails_iff (a0 := a0) hi.reach hst
    simp [ends, movesFrom, completed] at hr ⊢; grind
  | moveAssignR hx hy _ _ _ _ hst hu =>
    have := hobj _ _ hy
    have := fails_iff (a0 := a0) hi.reach hst
    simp [ends, movesFrom, completed] at hr ⊢; grind
  | moveAssignRfail hx hy _ _ _ hst hu =>
    have := hobj _ _ hy
    have := fails_iff (a0 := a0) hi.reach hst
    simp [ends, movesFrom, completed] at hr ⊢; grind
  | dropSilent hx _ => have := hobj _ _ hx; simp [ends, movesFrom] at hr; grind
  | @dropL o c x w' ev hx _ _ hst =>
    have := hobj _ _ hx
    have := fails_iff (a0 := a0) hi.reach hst
    simp [ends, movesFrom] at hr
    cases hu : a0.fails ev <;> simp [completed] <;> grind
  | _ => simp [ends, movesFrom] at hr

/-! ## Gaps -/

/-- C35: move-assigning over an object discards its watch: it is not triggered now nor ever again, and none of its
expectations resolves another call. -/
theorem C35_discard {tr post : WTrace α} {ww : WWorld α} {o s : Nat} {log : List (WEvent α)}
    (h : WReach a0 (tr ++ (.moveAssign o s, log) :: post) ww) (hne : s ≠ o) (hd : completed log) {k : Nat}
    (hc : tr.carries o k) :
    triggers log k = 0 ∧ WTrace.triggers post k = 0 ∧
    ∀ e d, (tr ++ (.moveAssign o s, log) :: post : WTrace α).flat.decl e = some d → d.mock = k →
      (tr ++ (.moveAssign o s, log) :: post : WTrace α).flat.matched e = tr.flat.matched e := by
  have h' : WReach a0 ((tr ++ [(.moveAssign o s, log)]) ++ post) ww := by simpa using h
  obtain ⟨ww1, h1⟩ := h'.prefix
  obtain ⟨ww0, h0, hs⟩ := h1.snoc_inv
  have hw := carries_watch hc
  have t1 : triggers log k = 0 := by
    rw [C34_trigger h0 hs hw, if_neg]
    rintro ⟨o', ho', hr⟩
    have := (C34_carrier h0).1 _ _ _ hc ho'
    subst this
    simp [WTrace.reportable, ends, movesFrom] at hr
    exact hne hr.2
  have t2 : WTrace.triggers post k = 0 := by
    refine (uncarried_forever h' (k := k) (watch_snoc.mpr (Or.inl hw)) ?_).2
    intro o' ho'
    rw [carries_snoc] at ho'
    rcases ho' with hb | ⟨s', hm, hc'⟩ | ⟨hc', hlv⟩
    · have h1 := born_fresh h0.inv (.of_step hs) hb
      have h2 := h0.inv.owned k (h0.inv.watch k hw)
      omega
    · simp [movesTo] at hm
      have := (C34_carrier h0).1 _ _ _ hc hc'
      grind
    · have := (C34_carrier h0).1 _ _ _ hc hc'
      subst this
      apply hlv
      exact Or.inr (Or.inr ⟨hd, Or.inr (Or.inr ⟨s, hne, rfl⟩)⟩)
  refine ⟨t1, t2, fun e d hde hdk => untriggered_matched h ?_ hde hdk⟩
  simp only [WTrace.triggers, List.map_cons, List.sum_cons] at t2 ⊢
  simp [t1, t2]

/-- C35: so a destruction expectation on a discarded watch is reported as unfulfilled when it goes out of scope. -/
theorem C35_unfulfilled {tr post : WTrace α} {ww ww' : WWorld α} {o s : Nat} {log log' : List (WEvent α)}
    (h : WReach a0 (tr ++ (.moveAssign o s, log) :: post) ww) (hne : s ≠ o) (hd : completed log) {k : Nat}
    (hc : tr.carries o k) {e : Nat} {d : Decl α}
    (hde : (tr ++ (.moveAssign o s, log) :: post : WTrace α).flat.decl e = some d)
    (hk : d.mock = k) (hmin : d.min = 1) (h0 : tr.flat.matched e = 0)
    (hs : ww.step a0 (.plain (.destroy e)) = .ok (ww', log')) :
    ∃ ev, log' = [.lib (.destroy e) ev] ∧ Event.unfulfilled e ∈ ev := by
  have hm := (C35_discard h hne hd hc).2.2 e d hde hk
  cases WStep.of_step hs with
  | @plain _ w' ev _ hst =>
    refine ⟨ev, rfl, ?_⟩
    obtain ⟨d', hd', hiff⟩ := C03_unfulfilled_iff h.inv.reach hst
    rw [hde] at hd'
    simp only [Option.some.injEq] at hd'
    subst hd'
    rw [hiff]
    left
    rw [hm, h0, hmin]
    decide
  | make hop => simp at hop
  | refused _ _ _ hop => simp at hop

/-- C35, C36: undefined behaviour occurs exactly on use of an object that carries nothing: setting an expectation on an
object with a lifetime watcher that has none yet, and moving from an object with a relocation watcher or setting an
expectation on it. -/
theorem C35_undefined {tr : WTrace α} {ww : WWorld α} (h : WReach a0 tr ww) (op : WOp α) :
    (∃ why, ww.step a0 op = .error (.ub why)) ↔
      ∃ o, tr.exists o ∧ (∀ k, ¬ tr.carries o k) ∧
        (((∃ min max tags ps, op = .expect o min max tags ps) ∨ op = .abandon o) ∧
            (tr.isKind o .lifetime → ¬ tr.armed o) ∨
         tr.isKind o .relocation ∧ (op = .move o ∨ ∃ d, op = .moveAssign d o ∧ tr.exists d ∧ tr.isKind d .relocation)) := by
  have hi := h.inv
  have hi2 := h.inv2
  have hno : ∀ (op : Op α) (why : String), ww.w.step op ≠ .error (.ub why) := fun op why => C17_no_ub hi.reach op why
  have hno2 : ∀ (op : Op α) (why : String), ww.grown.w.step op ≠ .error (.ub why) :=
    fun op why => C17_no_ub (grown_reach hi.reach) op why
  simp only [h.exists_iff, hi.carries, hi2.kind]
  cases op with
  | plain op =>
    simp only [WWorld.step]
    split
    · simp
    · rw [lib_ub (hno op)]; simp
  | create kind => simp [WWorld.step, WWorld.construct, fresh_ub]
  | copy src =>
    simp only [WWorld.step]
    split
    · simp
    · simp [WWorld.construct, fresh_ub]
  | move src =>
    simp only [WWorld.step]
    split
    · rename_i hn
      simp; grind
    · rename_i x hx
      obtain ⟨_, h1, h2, _, _⟩ := obj_fields hx
      have h3 := (obj_some hx).2.2.2
      split
      · rename_i hk
        simp; grind
      · rename_i hk
        rw [fresh_ub]
        split
        · rename_i hm
          simp; grind
        · rename_i c hm
          rw [lib_ub (hno2 _)]
          constructor
          · rintro ⟨why, w', ev, _, hf⟩
            split at hf <;> simp at hf
          · simp; grind
  | copyAssign dst src =>
    simp only [WWorld.step]
    split
    · rename_i x y hx hy
      split
      · split
        · split
          · simp [WWorld.renew, fresh_ub]
          · rw [lib_ub (by exact hno _)]
            simp
            intro why w' ev _
            split
            · simp
            · intro hf
              have := fresh_ub.mp ⟨why, hf⟩
              simp at this
        · simp [WWorld.renew, fresh_ub]
      · simp
    · simp
  | moveAssign dst src =>
    simp only [WWorld.step]
    split
    · rename_i x y hx hy
      obtain ⟨_, h1, h2, _, _⟩ := obj_fields hy
      obtain ⟨_, g1, g2, _, _⟩ := obj_fields hx
      have h3 := (obj_some hy).2.2.2
      split
      · rename_i hxy
        split
        · rename_i hk
          split <;> simp <;> grind
        · rename_i hk
          split
          · rename_i hm
            simp; grind
          · rename_i c hm
            rw [lib_ub (hno _)]
            constructor
            · rintro ⟨why, w', ev, _, hf⟩
              split at hf
              · simp at hf
              · split at hf <;> simp at hf
            · simp; grind
      · rename_i hxy
        simp
        grind
    · simp
      grind
  | drop o =>
    simp only [WWorld.step]
    split
    · simp
    · rename_i x hx
      split
      · rw [lib_ub (by exact hno _)]; simp
      · simp
  | expect o min max tags ps =>
    simp only [WWorld.step]
    split
    · rename_i hn
      simp; grind
    · rename_i x hx
      obtain ⟨_, h1, h2, _, _⟩ := obj_fields hx
      have h3 := (obj_some hx).2.2.2
      have h4 := hi2.armed o
      split
      · rename_i hk
        split
        · simp; grind
        · split
          · simp; grind
          · rw [lib_ub (by exact hno _)]; simp; grind
      · rename_i hk
        split
        · rename_i hm
          simp
          exact ⟨o, ⟨x, hx⟩, by simp [h3, hm], rfl, by simp [h1, hk]⟩
        · rw [lib_ub (hno _)]; simp; grind
  | abandon o =>
    simp only [WWorld.step]
    split
    · rename_i hn
      simp; grind
    · rename_i x hx
      obtain ⟨_, h1, h2, _, _⟩ := obj_fields hx
      have h3 := (obj_some hx).2.2.2
      have h4 := hi2.armed o
      split
      · rename_i hk
        split
        · simp; grind
        · split
          · simp; grind
          · simp; grind
      · rename_i hk
        split
        · rename_i hm
          simp
          exact ⟨o, ⟨x, hx⟩, by simp [h3, hm], rfl, by simp [h1, hk]⟩
        · simp; grind

/-! ## Relocation watchers -/

/-- C36: moving from an object with a relocation watcher triggers its watch exactly once. If that is resolved, the watch
travels to the destination, the source carries nothing and everybody else keeps what they had. -/
theorem C36_travel {tr : WTrace α} {ww ww' : WWorld α} (h : WReach a0 tr ww) {op : WOp α} {log : List (WEvent α)}
    (hs : ww.step a0 op = .ok (ww', log)) {s k : Nat} (hk : tr.isKind s .relocation) (hm : movesFrom op s)
    (hc : tr.carries s k) :
    triggers log k = 1 ∧
    (completed log → ∃ d, ((op = .move s ∧ ¬ (∃ kd, tr.isKind d kd) ∧ (tr ++ [(op, log)] : WTrace α).isKind d .relocation) ∨
        op = .moveAssign d s) ∧
      ∀ o k', (tr ++ [(op, log)] : WTrace α).carries o k' ↔
        if o = d then k' = k else if o = s then False else tr.carries o k') := by
  refine ⟨?_, fun hd => ?_⟩
  · rw [C34_trigger h hs (carries_watch hc), if_pos ⟨s, hc, Or.inr ⟨hk, hm⟩⟩]
  · have hi := h.inv
    have hi2 := h.inv2
    have hi' := hi.step (WStep.of_step hs)
    have hi2' := hi2.step (WStep.of_step hs)
    have hlen := fieldAt_len (·.kind) ww.objs
    simp only [hi'.carries, hi.carries, hi2.kind, hi2'.kind] at hk hc ⊢
    have hobj : ∀ (o : Nat) (x : WatchObj), ww.obj o = some x → fieldAt (·.kind) ww.objs o = some x.kind ∧
        mockAt ww.objs o = x.mock ∧ o < ww.objs.length :=
      fun o x hx => ⟨(obj_fields hx).2.1, (obj_some hx).2.2.2, (obj_some hx).2.2.1⟩
    cases WStep.of_step hs with
    | make hop => rcases hop with rfl | ⟨src, x, rfl, _, _⟩ <;> simp [movesFrom] at hm
    | refused _ _ _ hop => rcases hop with ⟨_, _, _, _, rfl⟩ | rfl <;> simp [movesFrom] at hm
    | moveL hx _ => have := hobj _ _ hx; simp [movesFrom] at hm; grind
    | moveR hx _ _ hst hu =>
      have := hobj _ _ hx
      simp [movesFrom] at hm
      subst hm
      refine ⟨ww.objs.length, Or.inl ⟨rfl, by rw [hlen]; simp, by simp [fieldAt_push]; grind⟩, fun o k' => ?_⟩
      simp only [mockAt_push, mockAt_set]
      grind
    | moveRfail => simp [completed] at hd
    | moveAssignSelfL hx _ => have := hobj _ _ hx; simp [movesFrom] at hm; grind
    | moveAssignL hx hy _ _ _ => have := hobj _ _ hy; simp [movesFrom] at hm; grind
    | @moveAssignSelfR o c x w' ev hx _ _ hst hu =>
      have := hobj _ _ hx
      simp [movesFrom] at hm
      subst hm
      exact ⟨o, Or.inr rfl, fun o' k' => by dsimp only; grind⟩
    | @moveAssignR dst src c x y w' ev hx hy _ _ _ _ hst hu =>
      have := hobj _ _ hy
      have := hobj _ _ hx
      simp [movesFrom] at hm
      subst hm
      refine ⟨dst, Or.inr rfl, fun o k' => ?_⟩
      simp only [mockAt_set]
      grind
    | moveAssignRfail => simp [completed] at hd
    | _ => simp [movesFrom] at hm

/-- C36: if the report of a move fails, no object comes into being, nobody's watch changes and no object gets or loses an
expectation. No expectation resolves a call either, but for one that throws itself. -/
theorem C36_failure {tr : WTrace α} {ww ww' : WWorld α} (h : WReach a0 tr ww) {op : WOp α} {log : List (WEvent α)}
    (hs : ww.step a0 op = .ok (ww', log)) {s : Nat} (hm : movesFrom op s) (hd : ¬ completed log) :
    (∀ o k, (tr ++ [(op, log)] : WTrace α).carries o k ↔ tr.carries o k) ∧
    (∀ o kd, (tr ++ [(op, log)] : WTrace α).isKind o kd ↔ tr.isKind o kd) ∧ ww'.objs = ww.objs ∧
    (∀ e, (tr ++ [(op, log)] : WTrace α).flat.decl e = tr.flat.decl e) ∧
    ((∀ e, (tr ++ [(op, log)] : WTrace α).flat.matched e = tr.flat.matched e) ∨
     ∃ e, a0.throws e = true ∧ ∀ e', (tr ++ [(op, log)] : WTrace α).flat.matched e' =
       tr.flat.matched e' + if e' = e then 1 else 0) := by
  have hi := h.inv
  have hi2 := h.inv2
  have hi' := hi.step (WStep.of_step hs)
  have hi2' := hi2.step (WStep.of_step hs)
  simp only [hi'.carries, hi.carries, hi2.kind, hi2'.kind, flat_snoc]
  cases WStep.of_step hs with
  | make hop => rcases hop with rfl | ⟨src, x, rfl, _, _⟩ <;> simp [movesFrom] at hm
  | refused _ _ _ hop => rcases hop with ⟨_, _, _, _, rfl⟩ | rfl <;> simp [movesFrom] at hm
  | moveL => simp [completed] at hd
  | moveR => simp [completed] at hd
  | moveRfail hx _ _ hst hu =>
    refine ⟨fun _ _ => Iff.rfl, fun _ _ => Iff.rfl, rfl, decl_append_none (by simp [libOps]), ?_⟩
    simpa [Trace.matched, Trace.events, libOps] using fails_count (grown_reach hi.reach) hst hu
  | moveAssignSelfL => simp [completed] at hd
  | moveAssignL => simp [completed] at hd
  | moveAssignSelfR => simp [completed] at hd
  | moveAssignR => simp [completed] at hd
  | moveAssignRfail hx hy _ _ _ hst hu =>
    refine ⟨fun _ _ => Iff.rfl, fun _ _ => Iff.rfl, rfl, decl_append_none (by simp [libOps]), ?_⟩
    simpa [Trace.matched, Trace.events, libOps] using fails_count hi.reach hst hu
  | _ => simp [movesFrom] at hm

/-- C34, C36: during any further history a watch is triggered as often as its carriers have something to report. -/
theorem C36_count {tr post : WTrace α} {ww : WWorld α} (h : WReach a0 (tr ++ post) ww) {k : Nat} (hk : tr.watch k) :
    WTrace.triggers post k = tr.reports post k := by
  induction post generalizing tr with
  | nil => rfl
  | cons st post ih =>
    have h' : WReach a0 ((tr ++ [st]) ++ post) ww := by simpa using h
    obtain ⟨ww1, h1⟩ := h'.prefix
    obtain ⟨ww0, h0, hs⟩ := h1.snoc_inv
    rw [WTrace.reports, ← ih h' (watch_snoc.mpr (Or.inl hk)), ← C34_trigger h0 hs hk]
    rfl

/-! ## Examples -/

namespace WatcherExamples

/-- No expectation throws. -/
def calm : Trigger Unit := ⟨(), fun _ => false⟩

/-- Runs a client. -/
def run (ww : WWorld Unit) (ops : List (WOp Unit)) (a0 : Trigger Unit := calm) : Option (WTrace Unit × WWorld Unit) :=
  match ops with
  | [] => some ([], ww)
  | op :: ops =>
    match ww.step a0 op with
    | .error _ => none
    | .ok (ww', log) => (run ww' ops a0).map (fun r => ((op, log) :: r.1, r.2))

theorem run_reach {tr : WTrace Unit} {ww ww' : WWorld Unit} {ops : List (WOp Unit)} {tr' : WTrace Unit}
    {a0 : Trigger Unit} (h : WReach a0 tr ww) (hr : run ww ops a0 = some (tr', ww')) : WReach a0 (tr ++ tr') ww' := by
  induction ops generalizing tr ww tr' with
  | nil =>
    simp only [run, Option.some.injEq, Prod.mk.injEq] at hr
    obtain ⟨rfl, rfl⟩ := hr
    simpa using h
  | cons op ops ih =>
    simp only [run] at hr
    split at hr
    · simp at hr
    · rename_i ww1 log hs
      simp only [Option.map_eq_some_iff] at hr
      obtain ⟨⟨tr1, ww2⟩, h1, h2⟩ := hr
      simp only [Prod.mk.injEq] at h2
      obtain ⟨rfl, rfl⟩ := h2
      have := ih (.step h hs) h1
      simpa using this

/-- What happened, without the functions. -/
inductive Note where
  | trigger (watch : Nat) (ev : List Event)
  | expect (watch : Nat) (min max : Int)
  | destroy (e : Nat) (ev : List Event)
  | object (o : Nat)
  | born (o watch : Nat)
  | exception
  | logicError
deriving DecidableEq

def note : WEvent Unit → Option Note
  | .lib (.call m _) ev => some (.trigger m ev)
  | .lib (.expect m min max _ _) _ => some (.expect m min max)
  | .lib (.destroy e) ev => some (.destroy e ev)
  | .lib _ _ => none
  | .object o _ => some (.object o)
  | .born o k => some (.born o k)
  | .exception => some .exception
  | .logicError => some .logicError

def short (ops : List (WOp Unit)) (a0 : Trigger Unit := calm) : Option (List (List Note)) :=
  (run WWorld.init ops a0).map (fun r => r.1.map (fun st => st.2.filterMap note))

/-- C34: a second expectation is refused; the watch travels with a move; the moved-from object is silent; the carrier
triggers the watch. -/
example : short [.create .lifetime, .expect 0 0 0 [] [], .abandon 0, .move 0, .drop 0, .drop 1, .plain (.destroy 0)] =
    some [[.object 0, .born 0 0], [.expect 0 1 1], [.logicError], [.object 1], [], [.trigger 0 [.fullMatch 0]],
      [.destroy 0 [.destroyed 0]]] := rfl

/-- C34: a copy has no expectation, so its destruction is an error; copy-assignment triggers the watch of the object that is
assigned over. -/
example : short [.create .lifetime, .expect 0 0 0 [] [], .copy 0, .drop 1, .create .lifetime, .copyAssign 0 2, .drop 0] =
    some [[.object 0, .born 0 0], [.expect 0 1 1], [.object 1, .born 1 1], [.trigger 1 [.noMatch []], .exception],
      [.object 2, .born 2 2], [.trigger 0 [.fullMatch 0], .born 0 3], [.trigger 3 [.noMatch []], .exception]] := rfl

/-- C35: move-assignment over an object with an expectation. -/
example : short [.create .lifetime, .expect 0 0 0 [] [], .create .lifetime, .expect 1 0 0 [] [], .moveAssign 0 1, .drop 0,
      .drop 1, .plain (.destroy 0), .plain (.destroy 1)] =
    some [[.object 0, .born 0 0], [.expect 0 1 1], [.object 1, .born 1 1], [.expect 1 1 1], [],
      [.trigger 1 [.fullMatch 1]], [], [.destroy 0 [.destroyed 0, .unfulfilled 0]], [.destroy 1 [.destroyed 1]]] := rfl

/-- C35: `expect_destruct` on a moved-from object. -/
example : ∃ ww ww1 log why, WReach calm [(.create .lifetime, log)] ww ∧ (∃ log', ww.step calm (.move 0) = .ok (ww1, log')) ∧
    ww1.step calm (.expect 0 1 1 [] []) = .error (.ub why) :=
  ⟨_, _, _, _, .step .init rfl, ⟨_, rfl⟩, rfl⟩

/-- C36: two moves on one watch, then a third one that is not expected any more. -/
example : short [.create .relocation, .expect 0 2 2 [] [], .move 0, .move 1, .move 2, .drop 0, .drop 1, .drop 2,
      .plain (.destroy 0)] =
    some [[.object 0, .born 0 0], [.expect 0 2 2], [.trigger 0 [.fullMatch 0], .object 1],
      [.trigger 0 [.fullMatch 0], .object 2], [.trigger 0 [.inapplicable [0]], .exception], [], [], [],
      [.destroy 0 [.destroyed 0]]] := rfl

/-- C36: the expectation throws: it is fulfilled, but the object stays where it was, and the next move is unexpected. -/
example : short [.create .relocation, .expect 0 1 1 [] [], .move 0, .move 0, .plain (.destroy 0)] ⟨(), fun _ => true⟩ =
    some [[.object 0, .born 0 0], [.expect 0 1 1], [.trigger 0 [.fullMatch 0], .exception], [.trigger 0 [.inapplicable [0]], .exception],
      [.destroy 0 [.destroyed 0]]] := rfl

/-- C34: the older expectation throws, the younger one does not. -/
example : short [.create .lifetime, .create .lifetime, .expect 0 1 1 [] [], .expect 1 1 1 [] [], .drop 1, .drop 0] ⟨(), (· == 0)⟩ =
    some [[.object 0, .born 0 0], [.object 1, .born 1 1], [.expect 0 1 1], [.expect 1 1 1], [.trigger 1 [.fullMatch 1]],
      [.trigger 0 [.fullMatch 0], .exception]] := rfl

/-- The hypotheses of the theorems can be met: after an object was moved, the new object carries the watch and the old one
carries nothing. -/
example : ∃ tr ww, WReach calm tr ww ∧ tr.carries 1 0 ∧ (∀ k, ¬ tr.carries 0 k) ∧ tr.isKind 1 .lifetime ∧ tr.armed 1 ∧
    tr.watch 0 ∧ tr.exists 0 ∧ ∃ ww' log, ww.step calm (.drop 1) = .ok (ww', log) := by
  have h : WReach calm _ _ := run_reach (ops := [.create .lifetime, .expect 0 0 0 [] [], .move 0]) .init rfl
  refine ⟨_, _, h, ?_, ?_, ?_, ?_, ?_, ?_, _, _, rfl⟩
  · rw [h.inv.carries]; rfl
  · intro k; rw [h.inv.carries]; simp [mockAt, WWorld.init]
  · rw [h.inv2.kind]; rfl
  · rw [h.inv2.armed _ rfl]; rfl
  · exact carries_watch (o := 1) (by rw [h.inv.carries]; rfl)
  · rw [h.exists_iff]; exact ⟨_, rfl⟩

end WatcherExamples

end Mimic
