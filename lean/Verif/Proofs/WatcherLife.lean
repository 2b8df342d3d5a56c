import Verif.Proofs.WatcherInv
import Verif.Props.Outcome
import Verif.Props.Selection

/-!
# The life of a watch
-/

set_option autoImplicit false
set_option linter.unusedSimpArgs false

namespace Mimic

variable {α : Type} {a0 : Trigger α}

theorem snocInd {β : Type} {P : List β → Prop} (nil : P []) (snoc : ∀ l x, P l → P (l ++ [x])) (l : List β) : P l := by
  have : ∀ l : List β, P l.reverse := by
    intro l
    induction l with
    | nil => exact nil
    | cons x l ih => rw [List.reverse_cons]; exact snoc _ _ ih
  simpa using this l.reverse

/-- A watch is carried by at most one object, and an object carries at most one watch. -/
theorem carrier_unique {tr : WTrace α} {ww : WWorld α} (h : WReach a0 tr ww) :
    (∀ o o' k, tr.carries o k → tr.carries o' k → o = o') ∧ (∀ o k k', tr.carries o k → tr.carries o k' → k = k') := by
  have hi := h.inv
  refine ⟨fun o o' k h1 h2 => hi.inj o o' k ((hi.carries _ _).mp h1) ((hi.carries _ _).mp h2), fun o k k' h1 h2 => ?_⟩
  have := ((hi.carries _ _).mp h1).symm.trans ((hi.carries _ _).mp h2)
  simpa using this

open Classical in
/-- An operation triggers a watch exactly once if it destroys or copy-assigns over the object with the
lifetime watcher that carries the watch, or if it moves from the object with the relocation watcher that carries it;
otherwise it does not trigger it. -/
theorem trigger_spec {tr : WTrace α} {ww ww' : WWorld α} (h : WReach a0 tr ww) {op : WOp α} {log : List (WEvent α)}
    (hs : ww.step a0 op = .ok (ww', log)) {k : Nat} (hk : tr.watch k) :
    triggers log k = if ∃ o, tr.carries o k ∧ tr.reportable op o then 1 else 0 := by
  have hi := h.inv
  have hi2 := h.inv2
  have hown := hi.watch k hk
  simp only [hi.carries, WTrace.reportable, hi2.kind]
  have hobj : ∀ (o : Nat) (x : WatchObj), ww.obj o = some x → fieldAt (·.kind) ww.objs o = some x.kind ∧
      mockAt ww.objs o = x.mock := fun o x hx => ⟨(obj_fields hx).2.1, (obj_some hx).2.2.2⟩
  cases WStep.of_step hs with
  | @plain op w' ev ht hs =>
    have h0 : isTrigger k (WEvent.lib op ev) = false := by
      cases op with
      | call m a =>
        simp only [isTrigger]
        simp only [WWorld.touches] at ht
        by_cases hmk : m = k
        · subst hmk
          simp [hown] at ht
        · simpa using hmk
      | _ => rfl
    simp [triggers, h0, ends, movesFrom]
  | make hop =>
    rcases hop with rfl | ⟨src, x, rfl, _, _⟩ <;> simp [triggers, isTrigger, ends, movesFrom]
  | moveL hx _ =>
    have := hobj _ _ hx
    simp [triggers, isTrigger, ends, movesFrom]; grind
  | moveR hx _ _ _ _ =>
    have := hobj _ _ hx
    have := hi.inj
    simp [triggers, isTrigger, ends, movesFrom, List.countP_cons]; grind
  | moveRfail hx _ _ _ _ =>
    have := hobj _ _ hx
    have := hi.inj
    simp [triggers, isTrigger, ends, movesFrom, List.countP_cons]; grind
  | copyAssign hx hy _ _ =>
    have := hobj _ _ hx
    simp [triggers, isTrigger, ends, movesFrom, List.countP_cons]; grind
  | copyAssignL hx hy _ _ _ _ _ =>
    have := hobj _ _ hx
    have := hi.inj
    simp [triggers, isTrigger, ends, movesFrom, List.countP_cons]; grind
  | copyAssignLfail hx hy _ _ _ _ _ =>
    have := hobj _ _ hx
    have := hi.inj
    simp [triggers, isTrigger, ends, movesFrom, List.countP_cons]; grind
  | moveAssignSelfL hx _ =>
    have := hobj _ _ hx
    simp [triggers, isTrigger, ends, movesFrom, List.countP_cons]; grind
  | moveAssignL hx hy _ _ _ =>
    have := hobj _ _ hy
    simp [triggers, isTrigger, ends, movesFrom, List.countP_cons]; grind
  | moveAssignSelfR hx _ _ _ _ =>
    have := hobj _ _ hx
    have := hi.inj
    simp [triggers, isTrigger, ends, movesFrom, List.countP_cons]; grind
  | moveAssignR hx hy _ _ _ _ _ _ =>
    have := hobj _ _ hy
    have := hi.inj
    simp [triggers, isTrigger, ends, movesFrom, List.countP_cons]; grind
  | moveAssignRfail hx hy _ _ _ _ _ =>
    have := hobj _ _ hy
    have := hi.inj
    simp [triggers, isTrigger, ends, movesFrom, List.countP_cons]; grind
  | dropSilent hx _ =>
    have := hobj _ _ hx
    simp [triggers, isTrigger, ends, movesFrom, List.countP_cons]; grind
  | @dropL o c x w' ev hx _ _ _ =>
    have := hobj _ _ hx
    have := hi.inj
    cases a0.fails ev <;> simp [triggers, isTrigger, ends, movesFrom, List.countP_cons] <;> grind
  | refused hx _ _ hop =>
    rcases hop with ⟨_, _, _, _, rfl⟩ | rfl <;> simp [triggers, isTrigger, ends, movesFrom]
  | expectL hx _ _ _ _ => simp [triggers, isTrigger, ends, movesFrom]
  | expectR hx _ _ _ => simp [triggers, isTrigger, ends, movesFrom]
  | abandonL hx _ _ _ => simp [triggers, isTrigger, ends, movesFrom]
  | abandonR hx _ _ => simp [triggers, isTrigger, ends, movesFrom]

theorem born_fresh {tr : WTrace α} {ww ww' : WWorld α} (h : WInv tr ww) {op : WOp α} {log : List (WEvent α)}
    (hs : WStep a0 ww op ww' log) {o k : Nat} (hb : WEvent.born o k ∈ log) : ww.w.colls.length ≤ k := by
  cases hs with
  | copyAssignL _ _ _ _ _ hs _ =>
    have := colls_call h.reach hs
    simp at hb
    omega
  | @dropL _ _ _ _ ev _ _ _ _ => cases hu : a0.fails ev <;> simp [hu] at hb
  | _ => simp at hb <;> omega

/-- A watch that nobody carries is never carried again. -/
theorem uncarried_step {tr : WTrace α} {ww ww' : WWorld α} (h : WReach a0 tr ww) {op : WOp α} {log : List (WEvent α)}
    (hs : ww.step a0 op = .ok (ww', log)) {k : Nat} (hk : tr.watch k) (hn : ∀ o, ¬ tr.carries o k) (o : Nat) :
    ¬ (tr ++ [(op, log)] : WTrace α).carries o k := by
  rw [carries_snoc]
  rintro (hb | ⟨s, _, hc⟩ | ⟨hc, _⟩)
  · have h1 := born_fresh h.inv (.of_step hs) hb
    have h2 := h.inv.owned k (h.inv.watch k hk)
    omega
  · exact hn s hc
  · exact hn o hc

theorem WReach.snoc_inv {tr : WTrace α} {st : WOp α × List (WEvent α)} {ww : WWorld α}
    (h : WReach a0 (tr ++ [st]) ww) : ∃ ww0, WReach a0 tr ww0 ∧ ww0.step a0 st.1 = .ok (ww, st.2) := by
  generalize ht : tr ++ [st] = t at h
  cases h with
  | init => simp at ht
  | step h hs =>
    have := List.append_inj' ht rfl
    obtain ⟨rfl, h2⟩ := this
    simp only [List.cons.injEq, and_true] at h2
    subst h2
    exact ⟨_, h, hs⟩

theorem WReach.prefix {tr post : WTrace α} {ww : WWorld α} (h : WReach a0 (tr ++ post) ww) : ∃ ww0, WReach a0 tr ww0 := by
  induction post using snocInd generalizing ww with
  | nil => exact ⟨ww, by simpa using h⟩
  | snoc post st ih =>
    rw [← List.append_assoc] at h
    obtain ⟨ww0, h0, _⟩ := h.snoc_inv
    exact ih h0

/-- A watch that nobody carries is never triggered again. -/
theorem uncarried_forever {tr post : WTrace α} {ww : WWorld α} (h : WReach a0 (tr ++ post) ww) {k : Nat}
    (hk : tr.watch k) (hn : ∀ o, ¬ tr.carries o k) :
    (∀ o, ¬ (tr ++ post : WTrace α).carries o k) ∧ WTrace.triggers post k = 0 := by
  induction post using snocInd generalizing ww with
  | nil => exact ⟨by simpa using hn, rfl⟩
  | snoc post st ih =>
    rw [← List.append_assoc] at h ⊢
    obtain ⟨ww0, h0, hs⟩ := h.snoc_inv
    obtain ⟨ih1, ih2⟩ := ih h0
    have hk' : (tr ++ post : WTrace α).watch k := by
      obtain ⟨st, hst, o, ho⟩ := hk
      exact ⟨st, by simp [hst], o, ho⟩
    refine ⟨fun o => uncarried_step h0 hs hk' ih1 o, ?_⟩
    have ht := trigger_spec h0 hs hk'
    rw [if_neg (by rintro ⟨o, ho, _⟩; exact ih1 o ho)] at ht
    simp only [WTrace.triggers, List.map_append, List.sum_append] at ih2 ⊢
    simp [ih2, ht]

theorem carries_watch {tr : WTrace α} {o k : Nat} (h : tr.carries o k) : tr.watch k := by
  induction tr using snocInd generalizing o with
  | nil => simp [WTrace.carries, CarriesRev] at h
  | snoc tr st ih =>
    rw [watch_snoc]
    rcases (carries_snoc (tr := tr)).mp h with hb | ⟨s, _, hc⟩ | ⟨hc, _⟩
    · exact Or.inr ⟨o, hb⟩
    · exact Or.inl (ih hc)
    · exact Or.inl (ih hc)

/-! ### Expectations on a watch -/

theorem decl_mock_lt {tr : Trace α} {w : World α} (h : Reach tr w) {e : Nat} {d : Decl α} (hd : tr.decl e = some d) :
    d.mock < w.colls.length := by
  have := h.view.1.coll_lt _ (h.view.2.mem hd)
  exact this

theorem decl_append_none {tr post : Trace α} (h : ∀ st ∈ post, ∀ m min max tags ps, st.1 ≠ Op.expect m min max tags ps)
    (e : Nat) : Trace.decl (tr ++ post) e = tr.decl e := by
  induction post using snocInd with
  | nil => simp
  | snoc post st ih =>
    rw [← List.append_assoc, decl_snoc_none, ih (fun st' hst => h st' (by simp [hst]))]
    have := h st (by simp)
    obtain ⟨op, ev⟩ := st
    cases op with
    | expect m min max tags ps => exact absurd rfl (this m min max tags ps)
    | _ => rfl

/-- A new mock changes nothing for expectations. -/
theorem candidate_newMock {tr : Trace α} {c m e : Nat} {a : α} :
    Trace.candidate (tr ++ [(.newMock, [.mockCreated c])]) m a e ↔ tr.candidate m a e := by
  have h1 : ∀ e, Trace.decl (tr ++ [(.newMock, [.mockCreated c])]) e = tr.decl e := fun e => decl_snoc_none rfl
  have h2 : ∀ e, Trace.matched (tr ++ [(.newMock, [.mockCreated c])]) e = tr.matched e := by
    intro e; rw [matched_snoc]; simp
  have h3 : ∀ e, Event.destroyed e ∈ Trace.events (tr ++ [(.newMock, [.mockCreated c])]) ↔ Event.destroyed e ∈ tr.events := by
    intro e; rw [events_snoc]; simp
  simp only [Trace.candidate, Trace.accepts, Trace.applicable, Trace.live, Trace.turn, Trace.attached, Trace.tooFew, h1, h2, h3]

theorem chosen_newMock {tr : Trace α} {c : Nat} {x : Nat} {older : List Nat} {e : Nat} :
    Trace.Chosen (tr ++ [(.newMock, [.mockCreated c])]) x older e ↔ tr.Chosen x older e := by
  have h1 : ∀ e, Trace.decl (tr ++ [(.newMock, [.mockCreated c])]) e = tr.decl e := fun e => decl_snoc_none rfl
  have h2 : ∀ ss st, Trace.kindCount (tr ++ [(.newMock, [.mockCreated c])]) ss st = tr.kindCount ss st := by
    intro ss st
    unfold Trace.kindCount
    congr 1
    funext s
    rw [decide_eq_decide, events_snoc]
    simp
  have hw : ∀ x y, Trace.givesWay (tr ++ [(.newMock, [.mockCreated c])]) x y ↔ tr.givesWay x y := by
    intro x y
    simp only [Trace.givesWay, Trace.attached, h1, h2]
  constructor
  · intro h
    induction h with
    | done x => exact .done x
    | move hg _ ih => exact .move ((hw _ _).mp hg) ih
    | stay hg _ ih => exact .stay (fun h => hg ((hw _ _).mpr h)) ih
  · intro h
    induction h with
    | done x => exact .done x
    | move hg _ ih => exact .move ((hw _ _).mpr hg) ih
    | stay hg _ ih => exact .stay (fun h => hg ((hw _ _).mp h)) ih

/-- How a call of a watch ends. -/
theorem fails_iff {a0 : Trigger α} {tr : Trace α} {w w' : World α} (h : Reach tr w) {m : Nat} {ev : List Event}
    (hs : w.step (.call m a0.arg) = .ok (w', ev)) :
    (∀ e, ¬ tr.candidate m a0.arg e) ∧ a0.fails ev = true ∨
    ∃ x older e, YoungestFirst (tr.candidate m a0.arg) (x :: older) ∧ tr.Chosen x older e ∧ a0.fails ev = a0.throws e := by
  rcases C08_selection h hs with ⟨hn, hf⟩ | ⟨x, older, e, hy, hc, hf⟩
  · left
    refine ⟨hn, ?_⟩
    simp only [Trigger.fails, unresolved, Bool.or_eq_true, Bool.not_eq_true', List.any_eq_false]
    left
    intro y hy
    split
    · rename_i e; exact absurd hy (hf e)
    · simp
  · right
    refine ⟨x, older, e, hy, hc, ?_⟩
    have h1 : unresolved ev = false := by
      simp only [unresolved, Bool.not_eq_eq_eq_not, Bool.not_false, List.any_eq_true]
      exact ⟨_, (hf e).mpr rfl, rfl⟩
    simp only [Trigger.fails, h1, Bool.false_or]
    cases ht : a0.throws e with
    | true =>
      rw [List.any_eq_true]
      exact ⟨_, (hf e).mpr rfl, ht⟩
    | false =>
      rw [List.any_eq_false]
      intro y hy
      split
      · rename_i e'
        rw [(hf e').mp hy, ht]; simp
      · simp

/-- What a failed call of a watch did to the numbers of resolved calls. -/
theorem fails_count {a0 : Trigger α} {tr : Trace α} {w w' : World α} (h : Reach tr w) {m : Nat} {ev : List Event}
    (hs : w.step (.call m a0.arg) = .ok (w', ev)) (hf : a0.fails ev = true) :
    (∀ e, ev.count (.fullMatch e) = 0) ∨
    ∃ e, a0.throws e = true ∧ ∀ e', ev.count (.fullMatch e') = if e' = e then 1 else 0 := by
  obtain ⟨us, last, rfl, _, hl⟩ := C10_outcome h hs
  have hus : ∀ e, (us.map Event.unhandled).count (.fullMatch e) = 0 := by
    intro e; rw [List.count_eq_zero]; simp
  rcases hl with ⟨e, _, rfl⟩ | ⟨_, _, es, rfl, _⟩ | ⟨_, es, rfl, _⟩
  · right
    refine ⟨e, ?_, fun e' => ?_⟩
    · simpa [Trigger.fails, unresolved] using hf
    · rw [List.count_append, hus]
      by_cases h : e' = e
      · simp [h]
      · rw [if_neg h, Nat.zero_add, List.count_eq_zero]; simp [h]
  · left; intro e; rw [List.count_append, hus]; simp
  · left; intro e; rw [List.count_append, hus]; simp

theorem unresolved_iff {tr : Trace α} {w w' : World α} (h : Reach tr w) {m : Nat} {a : α} {ev : List Event}
    (hs : w.step (.call m a) = .ok (w', ev)) : unresolved ev = false ↔ ∃ e, tr.candidate m a e := by
  have hu : unresolved ev = false ↔ ∃ e, Event.fullMatch e ∈ ev := by
    simp only [unresolved, Bool.not_eq_eq_eq_not, Bool.not_false, List.any_eq_true]
    constructor
    · rintro ⟨x, hx, hm⟩
      split at hm
      · rename_i e; exact ⟨e, hx⟩
      · simp at hm
    · rintro ⟨e, he⟩
      exact ⟨_, he, rfl⟩
  rw [hu]
  constructor
  · rintro ⟨e, he⟩
    obtain ⟨m', a', hop, hc⟩ := fullMatch_source h hs he
    simp only [Op.call.injEq] at hop
    obtain ⟨rfl, rfl⟩ := hop
    exact ⟨e, hc⟩
  · rintro ⟨e, he⟩
    obtain ⟨us, last, rfl, _, (⟨e', _, rfl⟩ | ⟨hn, _⟩ | ⟨hn, _⟩)⟩ := C10_outcome h hs
    · exact ⟨e', by simp⟩
    · exact absurd he (hn e)
    · exact absurd he.1 (hn e)

theorem mem_flat {tr : WTrace α} {op : Op α} {ev : List Event} :
    (op, ev) ∈ tr.flat ↔ ∃ st ∈ tr, WEvent.lib op ev ∈ st.2 := by
  simp only [WTrace.flat, List.mem_flatMap, libOps, List.mem_filterMap]
  constructor
  · rintro ⟨st, hst, x, hx, hm⟩
    split at hm
    · simp only [Option.some.injEq, Prod.mk.injEq] at hm
      obtain ⟨rfl, rfl⟩ := hm
      exact ⟨st, hst, hx⟩
    · simp at hm
  · rintro ⟨st, hst, hx⟩
    exact ⟨st, hst, _, hx, rfl⟩

theorem untriggered_call {tr : WTrace α} {k : Nat} (h : tr.triggers k = 0) {a : α} {ev : List Event} :
    (Op.call k a, ev) ∉ tr.flat := by
  rw [mem_flat]
  rintro ⟨st, hst, hx⟩
  have h0 : triggers st.2 k = 0 := by
    by_cases h1 : triggers st.2 k = 0
    · exact h1
    · exfalso
      obtain ⟨l1, l2, rfl⟩ := List.append_of_mem hst
      simp only [WTrace.triggers, List.map_append, List.map_cons, List.sum_append, List.sum_cons] at h
      omega
  rw [triggers, List.countP_eq_zero] at h0
  have := h0 _ hx
  simp [isTrigger] at this

theorem wflat_append (tr post : WTrace α) : (tr ++ post : WTrace α).flat = tr.flat ++ WTrace.flat post := by
  simp [WTrace.flat]

/-- As long as a watch is not triggered its expectations stand still. -/
theorem untriggered_matched {tr post : WTrace α} {ww : WWorld α} (h : WReach a0 (tr ++ post) ww) {k : Nat}
    (ht : WTrace.triggers post k = 0) {e : Nat} {d : Decl α} (hd : (tr ++ post : WTrace α).flat.decl e = some d)
    (hk : d.mock = k) : (tr ++ post : WTrace α).flat.matched e = tr.flat.matched e := by
  have hr := h.inv.reach
  rw [wflat_append] at hr hd ⊢
  unfold Trace.matched
  rw [events_append, List.count_append]
  have : List.count (Event.fullMatch e) (Trace.events (WTrace.flat post)) = 0 := by
    rw [List.count_eq_zero]
    intro hm
    simp only [Trace.events, List.mem_flatMap] at hm
    obtain ⟨⟨op, ev⟩, hst, he⟩ := hm
    obtain ⟨l1, l2, hl⟩ := List.append_of_mem hst
    have hr' : Reach ((tr.flat ++ l1) ++ (op, ev) :: l2) ww.w := by
      rw [List.append_assoc, ← hl]; exact hr
    obtain ⟨m, a, d', rfl, hd', hm', _⟩ := C13_in_force hr' he
    have hd2 := decl_mono (tr' := (Op.call m a, ev) :: l2) hd'
    rw [List.append_assoc, ← hl, hd] at hd2
    simp only [Option.some.injEq] at hd2
    subst hd2
    rw [← hm', hk] at hst
    exact untriggered_call ht hst
  omega

/-! ### Existence and undefined behaviour -/

theorem WReach.exists_iff {tr : WTrace α} {ww : WWorld α} (h : WReach a0 tr ww) (o : Nat) :
    tr.exists o ↔ ∃ x, ww.obj o = some x := by
  have hi2 := h.inv2
  unfold WTrace.exists
  simp only [hi2.kind]
  constructor
  · rintro ⟨⟨kd, hk⟩, hn⟩
    have hlt := fieldAt_lt hk
    have ha := (hi2.alive o hlt).mpr hn
    have hx : ww.objs[o]? = some ww.objs[o] := List.getElem?_eq_getElem hlt
    simp only [fieldAt, hx, Option.map_some, Option.some.injEq] at ha
    exact ⟨ww.objs[o], by simp only [WWorld.obj, hx, ha, if_true]⟩
  · rintro ⟨x, hx⟩
    obtain ⟨h1, h2, _, h4, _⟩ := obj_fields hx
    exact ⟨⟨x.kind, h2⟩, (hi2.alive o h1).mp h4⟩

theorem lib_ub {ww : WWorld α} {op : Op α} {f : WWorld α → List Event → WRes α}
    (hn : ∀ why, ww.w.step op ≠ .error (.ub why)) :
    (∃ why, ww.lib op f = .error (.ub why)) ↔
      ∃ why w' ev, ww.w.step op = .ok (w', ev) ∧ f { ww with w := w' } ev = .error (.ub why) := by
  unfold WWorld.lib
  cases hs : ww.w.step op with
  | error x =>
    have : ∀ why, x ≠ .ub why := by
      rintro why rfl
      exact hn why hs
    simp [this]
  | ok r =>
    obtain ⟨w', ev⟩ := r
    have : (∃ why w'' ev', Except.ok (w', ev) = (Except.ok (w'', ev') : M _) ∧
        f { ww with w := w'' } ev' = .error (.ub why)) ↔ ∃ why, f { ww with w := w' } ev = .error (.ub why) := by
      constructor
      · rintro ⟨why, w'', ev', he, hf⟩
        simp only [Except.ok.injEq, Prod.mk.injEq] at he
        obtain ⟨rfl, rfl⟩ := he
        exact ⟨why, hf⟩
      · rintro ⟨why, hf⟩
        exact ⟨why, w', ev, rfl, hf⟩
    rw [this]
    cases hf : f { ww with w := w' } ev with
    | error x => simp [hf]
    | ok r => simp [hf]

theorem fresh_ub {ww : WWorld α} {f : WWorld α → Nat → WRes α} :
    (∃ why, ww.fresh f = .error (.ub why)) ↔ ∃ why, f ww.grown ww.w.colls.length = .error (.ub why) := by
  rw [WWorld.fresh_eq]
  cases f ww.grown ww.w.colls.length with
  | error x => simp
  | ok r => simp

/-- A watch stays with objects of the same kind. -/
theorem carrier_kind {tr : WTrace α} {ww ww' : WWorld α} (h : WReach a0 tr ww) {op : WOp α} {log : List (WEvent α)}
    (hs : ww.step a0 op = .ok (ww', log)) {o o' k : Nat} {kd : Watcher} (hc : tr.carries o k) (hl : tr.isKind o kd)
    (hc' : (tr ++ [(op, log)] : WTrace α).carries o' k) : (tr ++ [(op, log)] : WTrace α).isKind o' kd := by
  have hi := h.inv
  have hi2 := h.inv2
  have hobj : ∀ (o : Nat) (x : WatchObj), ww.obj o = some x → fieldAt (·.kind) ww.objs o = some x.kind :=
      fun o x hx => (obj_fields hx).2.1
  rw [isKind_snoc]
  rw [carries_snoc] at hc'
  rcases hc' with hb | ⟨s, hm, hcs⟩ | ⟨hco, _⟩
  · have h1 := born_fresh hi (.of_step hs) hb
    have h2 := hi.owned k (hi.watch k (carries_watch hc))
    omega
  · have := (carrier_unique h).1 _ _ _ hc hcs
    subst this
    rw [hi2.kind] at hl ⊢
    cases WStep.of_step hs with
    | make hop => rcases hop with rfl | ⟨src, x, rfl, _, _⟩ <;> simp [movesTo] at hm
    | refused _ _ _ hop => rcases hop with ⟨_, _, _, _, rfl⟩ | rfl <;> simp [movesTo] at hm
    | moveL hx _ => have := hobj _ _ hx; simp [movesTo] at hm ⊢; grind
    | moveR hx _ _ _ _ => have := hobj _ _ hx; simp [movesTo] at hm ⊢; grind
    | moveAssignSelfL hx _ => simp [movesTo] at hm ⊢; grind
    | moveAssignL hx hy _ _ _ => have := hobj _ _ hx; have := hobj _ _ hy; simp [movesTo] at hm ⊢; grind
    | moveAssignSelfR hx _ _ _ _ => simp [movesTo] at hm ⊢; grind
    | moveAssignR hx hy _ _ _ _ _ _ => have := hobj _ _ hx; have := hobj _ _ hy; simp [movesTo] at hm ⊢; grind
    | moveAssignRfail hx hy _ _ _ _ _ => simp [movesTo, completed] at hm
    | moveRfail hx _ _ _ _ => simp [movesTo, completed] at hm
    | _ => simp [movesTo] at hm
  · have := (carrier_unique h).1 _ _ _ hc hco
    subst this
    exact Or.inl hl

end Mimic
