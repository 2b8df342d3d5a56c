import Verif.Spec.Watched
import Verif.Props.Watchers

/-!
# Lemmas about watched objects
-/

set_option autoImplicit false
set_option linter.unusedSimpArgs false

namespace Mimic

variable {α : Type} {a0 : Trigger α}

theorem thrown_iff {log : List (WEvent α)} : thrown log = true ↔ ¬ completed log := by
  simp only [thrown, completed, List.any_eq_true, Classical.not_not]
  constructor
  · rintro ⟨x, hx, hm⟩
    split at hm
    · exact hx
    · simp at hm
  · intro h
    exact ⟨_, h, rfl⟩

theorem thrown_false {log : List (WEvent α)} : thrown log = false ↔ completed log := by
  rw [← Bool.not_eq_true, thrown_iff, Classical.not_not]

/-- Consecutive operations on watchers. -/
inductive WRuns (a0 : Trigger α) : WWorld α → WTrace α → WWorld α → Prop where
  | nil (ww : WWorld α) : WRuns a0 ww [] ww
  | cons {ww ww' ww'' : WWorld α} {op : WOp α} {log : List (WEvent α)} {tr : WTrace α} :
    ww.step a0 op = .ok (ww', log) → WRuns a0 ww' tr ww'' → WRuns a0 ww ((op, log) :: tr) ww''

theorem WRuns.reach {tr inner : WTrace α} {ww ww' : WWorld α} (h : WReach a0 tr ww) (hr : WRuns a0 ww inner ww') :
    WReach a0 (tr ++ inner) ww' := by
  induction hr generalizing tr with
  | nil => simpa using h
  | cons hs _ ih => have := ih (.step h hs); simpa using this

theorem WRuns.append {ww ww' ww'' : WWorld α} {t1 t2 : WTrace α} (h1 : WRuns a0 ww t1 ww') (h2 : WRuns a0 ww' t2 ww'') :
    WRuns a0 ww (t1 ++ t2) ww'' := by
  induction h1 with
  | nil => exact h2
  | cons hs _ ih => exact .cons hs (ih h2)

/-- No exception left any of the operations. -/
def quiet (tr : WTrace α) : Prop := ∀ st ∈ tr, thrown st.2 = false

theorem unwind_runs {ww ww' : WWorld α} {os : List Nat} {tr : WTrace α} (h : unwind a0 ww os = .ok (ww', tr)) :
    WRuns a0 ww tr ww' ∧ tr.map (·.1) = os.map .drop ∧ quiet tr := by
  induction os generalizing ww tr with
  | nil =>
    simp only [unwind, Except.ok.injEq, Prod.mk.injEq] at h
    obtain ⟨rfl, rfl⟩ := h
    exact ⟨.nil _, rfl, by simp [quiet]⟩
  | cons o os ih =>
    simp only [unwind] at h
    split at h
    · simp at h
    · rename_i ww1 log hs
      split at h
      · simp at h
      · rename_i ht
        split at h
        · simp at h
        · rename_i ww2 tr' hu
          simp only [Except.ok.injEq, Prod.mk.injEq] at h
          obtain ⟨rfl, rfl⟩ := h
          obtain ⟨h1, h2, h3⟩ := ih hu
          refine ⟨.cons hs h1, by simp [h2], ?_⟩
          intro st hst
          rcases List.mem_cons.mp hst with rfl | hst
          · simpa using ht
          · exact h3 st hst

/-- An operation that creates a watcher. -/
def makes : WOp α → Prop
  | .create _ => True
  | .copy _ => True
  | .move _ => True
  | _ => False

/-- The watchers that one operation brings into being. -/
def objectsOf (log : List (WEvent α)) : List (Nat × Watcher) :=
  log.filterMap (fun x => match x with | .object o k => some (o, k) | _ => none)

theorem makes_ok {ww ww' : WWorld α} {op : WOp α} {log : List (WEvent α)} (hm : makes op)
    (hs : ww.step a0 op = .ok (ww', log)) (ht : thrown log = false) :
    ww'.objs.length = ww.objs.length + 1 ∧ ∃ kd, objectsOf log = [(ww.objs.length, kd)] ∧
      (op = .create kd ∨ ∃ s, (op = .copy s ∨ op = .move s) ∧ fieldAt (·.kind) ww.objs s = some kd) := by
  cases WStep.of_step hs with
  | make hop =>
    refine ⟨by simp, _, by simp [objectsOf]; rfl, ?_⟩
    rcases hop with rfl | ⟨src, x, rfl, hx, hk⟩
    · exact Or.inl rfl
    · exact Or.inr ⟨src, Or.inl rfl, by rw [(obj_fields hx).2.1, hk]⟩
  | refused _ _ _ hop => rcases hop with ⟨_, _, _, _, rfl⟩ | rfl <;> simp [makes] at hm
  | moveL hx hk =>
    exact ⟨by simp, _, by simp [objectsOf]; rfl, Or.inr ⟨_, Or.inr rfl, by rw [(obj_fields hx).2.1, hk]⟩⟩
  | moveR hx hk =>
    exact ⟨by simp, _, by simp [objectsOf]; rfl, Or.inr ⟨_, Or.inr rfl, by rw [(obj_fields hx).2.1, hk]⟩⟩
  | moveRfail => simp [thrown] at ht
  | _ => simp [makes] at hm

theorem makes_fail {ww ww' : WWorld α} {op : WOp α} {log : List (WEvent α)} (hm : makes op)
    (hs : ww.step a0 op = .ok (ww', log)) (ht : thrown log = true) :
    ww'.objs = ww.objs ∧ objectsOf log = [] ∧ ∃ s, op = .move s ∧ fieldAt (·.kind) ww.objs s = some .relocation := by
  cases WStep.of_step hs with
  | make hop => simp [thrown] at ht
  | refused _ _ _ hop => rcases hop with ⟨_, _, _, _, rfl⟩ | rfl <;> simp [makes] at hm
  | moveL => simp [thrown] at ht
  | moveR => simp [thrown] at ht
  | moveRfail hx hk => exact ⟨rfl, by simp [objectsOf], _, rfl, by rw [(obj_fields hx).2.1, hk]⟩
  | _ => simp [makes] at hm

theorem build_runs {nothrow : Bool} {ww ww' : WWorld α} {made : List Nat} {ops : List (WOp α)} {tr : WTrace α}
    {r : Option (List Nat)} (hm : ∀ op ∈ ops, makes op) (h : build a0 nothrow ww made ops = .ok (ww', tr, r)) :
    (∃ m, r = some m ∧ WRuns a0 ww tr ww' ∧ tr.map (·.1) = ops ∧ quiet tr ∧
      m = (List.range' ww.objs.length ops.length).reverse ++ made ∧ ww'.objs.length = ww.objs.length + ops.length) ∨
    (r = none ∧ nothrow = false ∧ ∃ ops1 op ops2 t1 log t2 ww1 ww2, ops = ops1 ++ op :: ops2 ∧ WRuns a0 ww t1 ww1 ∧
      t1.map (·.1) = ops1 ∧ quiet t1 ∧ ww1.objs.length = ww.objs.length + ops1.length ∧
      ww1.step a0 op = .ok (ww2, log) ∧ thrown log = true ∧ WRuns a0 ww2 t2 ww' ∧ quiet t2 ∧
      t2.map (·.1) = ((List.range' ww.objs.length ops1.length).reverse ++ made).map .drop ∧
      tr = t1 ++ (op, log) :: t2) := by
  induction ops generalizing ww made tr with
  | nil =>
    simp only [build, Except.ok.injEq, Prod.mk.injEq] at h
    obtain ⟨rfl, rfl, rfl⟩ := h
    exact Or.inl ⟨made, rfl, .nil _, rfl, by simp [quiet], by simp, by simp⟩
  | cons op ops ih =>
    simp only [build] at h
    split at h
    · simp at h
    · rename_i ww1 log hs
      split at h
      · rename_i ht
        split at h
        · simp at h
        · rename_i hn
          split at h
          · simp at h
          · rename_i ww2 tr' hu
            simp only [Except.ok.injEq, Prod.mk.injEq] at h
            obtain ⟨rfl, rfl, rfl⟩ := h
            obtain ⟨h1, h2, h3⟩ := unwind_runs hu
            exact Or.inr ⟨rfl, by simpa using hn, [], op, ops, [], log, tr', ww, ww1, rfl, .nil _, rfl, by simp [quiet],
              by simp, hs, ht, h1, h3, by simpa using h2, rfl⟩
      · rename_i ht
        have ht' : thrown log = false := by simpa using ht
        obtain ⟨hl, _⟩ := makes_ok (hm op (by simp)) hs ht'
        split at h
        · simp at h
        · rename_i ww2 tr' r' hb
          simp only [Except.ok.injEq, Prod.mk.injEq] at h
          obtain ⟨rfl, rfl, rfl⟩ := h
          rcases ih (fun op' hop' => hm op' (by simp [hop'])) hb with
            ⟨m, rfl, h1, h2, h3, h4, h5⟩ |
            ⟨rfl, hnt, ops1, op', ops2, t1, log', t2, wa, wb, rfl, h1, h2, h3, h4, h5, h6, h7, h8, h9, rfl⟩
          · refine Or.inl ⟨m, rfl, .cons hs h1, by simp [h2], ?_, ?_, ?_⟩
            · intro st hst
              rcases List.mem_cons.mp hst with rfl | hst
              · exact ht'
              · exact h3 st hst
            · rw [h4, hl, List.length_cons, List.range'_succ]
              simp
            · simp only [List.length_cons]; omega
          · refine Or.inr ⟨rfl, hnt, op :: ops1, op', ops2, (op, log) :: t1, log', t2, wa, wb, rfl, .cons hs h1,
              by simp [h2], ?_, ?_, h5, h6, h7, h8, ?_, rfl⟩
            · intro st hst
              rcases List.mem_cons.mp hst with rfl | hst
              · exact ht'
              · exact h3 st hst
            · simp only [List.length_cons]; omega
            · rw [h9, hl, List.length_cons, List.range'_succ]
              simp

theorem assign_runs {nothrow : Bool} {ww ww' : WWorld α} {ops : List (WOp α)} {tr : WTrace α} {r : Bool}
    (h : assign a0 nothrow ww ops = .ok (ww', tr, r)) :
    WRuns a0 ww tr ww' ∧ (r = false → tr.map (·.1) = ops ∧ quiet tr) ∧
    (r = true → nothrow = false ∧ ∃ ops1 op ops2 t1 log, ops = ops1 ++ op :: ops2 ∧ tr = t1 ++ [(op, log)] ∧
      t1.map (·.1) = ops1 ∧ quiet t1 ∧ thrown log = true) := by
  induction ops generalizing ww tr with
  | nil =>
    simp only [assign, Except.ok.injEq, Prod.mk.injEq] at h
    obtain ⟨rfl, rfl, rfl⟩ := h
    exact ⟨.nil _, by simp [quiet], by simp⟩
  | cons op ops ih =>
    simp only [assign] at h
    split at h
    · simp at h
    · rename_i ww1 log hs
      split at h
      · rename_i ht
        split at h
        · simp at h
        · rename_i hn
          simp only [Except.ok.injEq, Prod.mk.injEq] at h
          obtain ⟨rfl, rfl, rfl⟩ := h
          exact ⟨.cons hs (.nil _), by simp, fun _ => ⟨by simpa using hn, [], op, ops, [], log, rfl, rfl, rfl,
            by simp [quiet], ht⟩⟩
      · rename_i ht
        split at h
        · simp at h
        · rename_i ww2 tr' r' hb
          simp only [Except.ok.injEq, Prod.mk.injEq] at h
          obtain ⟨rfl, rfl, rfl⟩ := h
          obtain ⟨h1, h2, h3⟩ := ih hb
          refine ⟨.cons hs h1, fun hr => ?_, fun hr => ?_⟩
          · obtain ⟨g1, g2⟩ := h2 hr
            refine ⟨by simp [g1], ?_⟩
            intro st hst
            rcases List.mem_cons.mp hst with rfl | hst
            · simpa using ht
            · exact g2 st hst
          · obtain ⟨hn, ops1, op', ops2, t1, log', rfl, rfl, rfl, g3, g4⟩ := h3 hr
            refine ⟨hn, op :: t1.map (·.1), op', ops2, (op, log) :: t1, log', rfl, rfl, rfl, ?_, g4⟩
            intro st hst
            rcases List.mem_cons.mp hst with rfl | hst
            · simpa using ht
            · exact g3 st hst

theorem assign_ops {nothrow : Bool} {ww ww' : WWorld α} {ops : List (WOp α)} {tr : WTrace α} {r : Bool}
    (h : assign a0 nothrow ww ops = .ok (ww', tr, r)) : ∀ st ∈ tr, st.1 ∈ ops := by
  obtain ⟨_, h2, h3⟩ := assign_runs h
  intro st hst
  have hm : st.1 ∈ tr.map (·.1) := List.mem_map_of_mem hst
  cases r with
  | false => rw [(h2 rfl).1] at hm; exact hm
  | true =>
    obtain ⟨_, ops1, op, ops2, t1, log, rfl, rfl, rfl, _, _⟩ := h3 rfl
    simp only [List.map_append, List.map_cons, List.map_nil, List.mem_append, List.mem_singleton] at hm
    rcases hm with hm | hm
    · simp only [List.mem_append]; exact Or.inl hm
    · rw [hm]; simp

theorem mem_zipWith {β γ δ : Type} {f : β → γ → δ} {l : List β} {l' : List γ} {x : δ} (h : x ∈ List.zipWith f l l') :
    ∃ a b, x = f a b := by
  induction l generalizing l' with
  | nil => simp at h
  | cons a l ih =>
    cases l' with
    | nil => simp at h
    | cons b l' =>
      simp only [List.zipWith_cons_cons, List.mem_cons] at h
      rcases h with h | h
      · exact ⟨a, b, h⟩
      · exact ih h

theorem dropParts_runs {nothrow : Bool} {ww ww' : WWorld α} {b : Bool} {os : List Nat} {tr : WTrace α} {r : Bool}
    (h : dropParts a0 nothrow ww b os = .ok (ww', tr, r)) :
    WRuns a0 ww tr ww' ∧ tr.map (·.1) = os.map .drop ∧
    (r = true ↔ b = true ∨ ∃ st ∈ tr, thrown st.2 = true) ∧ (nothrow = true → quiet tr) := by
  induction os generalizing ww tr b with
  | nil =>
    simp only [dropParts, Except.ok.injEq, Prod.mk.injEq] at h
    obtain ⟨rfl, rfl, rfl⟩ := h
    exact ⟨.nil _, by simp, by simp, by simp [quiet]⟩
  | cons o os ih =>
    simp only [dropParts] at h
    split at h
    · simp at h
    · rename_i ww1 log hs
      split at h
      · simp at h
      · rename_i ht
        split at h
        · simp at h
        · rename_i ww2 tr' r' hb
          simp only [Except.ok.injEq, Prod.mk.injEq] at h
          obtain ⟨rfl, rfl, rfl⟩ := h
          obtain ⟨h1, h2, h3, h4⟩ := ih hb
          refine ⟨.cons hs h1, by simp [h2], ?_, fun hn => ?_⟩
          · rw [h3]
            simp only [Bool.or_eq_true, List.mem_cons, exists_eq_or_imp]
            grind
          · intro st hst
            rcases List.mem_cons.mp hst with rfl | hst
            · simp only [hn] at ht
              simpa using ht
            · exact h4 hn st hst

/-! ### What runs do to the watches -/

theorem move_mocks {ww ww' : WWorld α} {s : Nat} {log : List (WEvent α)} (hs : ww.step a0 (.move s) = .ok (ww', log))
    (ht : thrown log = false) (o : Nat) :
    mockAt ww'.objs o = if o = ww.objs.length then mockAt ww.objs s else if o = s then none else mockAt ww.objs o := by
  have hlen := mockAt_len ww.objs
  cases WStep.of_step hs with
  | make hop => simp at hop
  | refused _ _ _ hop => simp at hop
  | moveL hx _ =>
    have := obj_some hx
    simp only [mockAt_push, mockAt_set]
    grind
  | moveR hx _ _ _ _ =>
    have := obj_some hx
    simp only [mockAt_push, mockAt_set]
    grind
  | moveRfail => simp [thrown] at ht

theorem drop_mocks {ww ww' : WWorld α} {s : Nat} {log : List (WEvent α)} (hs : ww.step a0 (.drop s) = .ok (ww', log)) :
    (∀ o, mockAt ww'.objs o = if o = s then none else mockAt ww.objs o) ∧ ww'.objs.length = ww.objs.length ∧
    objectsOf log = [] := by
  cases WStep.of_step hs with
  | make hop => simp at hop
  | refused _ _ _ hop => simp at hop
  | dropSilent hx _ =>
    have := obj_some hx
    refine ⟨fun o => ?_, by simp, by simp [objectsOf]⟩
    simp only [mockAt_set]
    grind
  | @dropL _ _ _ _ ev hx _ _ _ =>
    have := obj_some hx
    refine ⟨fun o => ?_, by simp, by cases a0.fails ev <;> simp [objectsOf]⟩
    simp only [mockAt_set]
    grind

theorem runs_moves {ww ww' : WWorld α} {tr : WTrace α} (hr : WRuns a0 ww tr ww') {ps : List Nat}
    (hp : tr.map (·.1) = ps.map .move) (hq : quiet tr) (hn : ps.Nodup) (hlt : ∀ o ∈ ps, o < ww.objs.length) (o : Nat) :
    mockAt ww'.objs o = if o < ww.objs.length then (if o ∈ ps then none else mockAt ww.objs o)
      else (ps[o - ww.objs.length]?).bind (mockAt ww.objs) := by
  induction hr generalizing ps with
  | nil ww =>
    have : ps = [] := by simpa using hp.symm
    subst this
    simp only [List.not_mem_nil, if_false]
    split
    · rfl
    · simp only [List.getElem?_nil, Option.bind_none]
      simp [mockAt, List.getElem?_eq_none (Nat.le_of_not_lt ‹_›)]
  | @cons ww ww1 ww2 op log tr hs hr ih =>
    cases ps with
    | nil => simp at hp
    | cons p ps =>
      simp only [List.map_cons, List.cons.injEq] at hp
      obtain ⟨rfl, hp⟩ := hp
      have ht : thrown log = false := hq (WOp.move p, log) (by simp)
      have hm := move_mocks hs ht
      obtain ⟨hl, _⟩ := makes_ok (by simp [makes]) hs ht
      have hpl : p < ww.objs.length := hlt p (by simp)
      have hn' := List.nodup_cons.mp hn
      rw [ih hp (fun st hst => hq st (by simp [hst])) hn'.2 (fun o ho => by have := hlt o (by simp [ho]); omega)]
      rw [hl]
      by_cases h1 : o < ww.objs.length
      · rw [if_pos (by omega), if_pos h1, hm]
        have h2 : o ≠ ww.objs.length := by omega
        simp only [List.mem_cons]
        grind
      · rw [if_neg h1]
        by_cases h2 : o = ww.objs.length
        · subst h2
          rw [if_pos (by omega)]
          have : ww.objs.length ∉ ps := fun hc => by have := hlt _ (List.mem_cons_of_mem _ hc); omega
          rw [if_neg this, hm, if_pos rfl]
          simp
        · rw [if_neg (by omega)]
          have e1 : o - ww.objs.length = (o - (ww.objs.length + 1)) + 1 := by omega
          rw [e1, List.getElem?_cons_succ]
          cases hg : ps[o - (ww.objs.length + 1)]? with
          | none => rfl
          | some q =>
            have hqm := List.mem_of_getElem? hg
            have := hlt q (by simp [hqm])
            simp only [Option.bind_some]
            rw [hm, if_neg (by omega), if_neg]
            rintro rfl
            exact hn'.1 hqm

theorem runs_drops {ww ww' : WWorld α} {tr : WTrace α} (hr : WRuns a0 ww tr ww') {ps : List Nat}
    (hp : tr.map (·.1) = ps.map .drop) :
    (∀ o, mockAt ww'.objs o = if o ∈ ps then none else mockAt ww.objs o) ∧ ww'.objs.length = ww.objs.length := by
  induction hr generalizing ps with
  | nil ww =>
    have : ps = [] := by simpa using hp.symm
    subst this
    simp
  | @cons ww ww1 ww2 op log tr hs hr ih =>
    cases ps with
    | nil => simp at hp
    | cons p ps =>
      simp only [List.map_cons, List.cons.injEq] at hp
      obtain ⟨rfl, hp⟩ := hp
      obtain ⟨h1, h2, _⟩ := drop_mocks hs
      obtain ⟨g1, g2⟩ := ih hp
      refine ⟨fun o => ?_, by omega⟩
      rw [g1, h1]
      simp only [List.mem_cons]
      grind

theorem isKind_append {tr post : WTrace α} {o : Nat} {kd : Watcher} (h : tr.isKind o kd) :
    (tr ++ post : WTrace α).isKind o kd := by
  obtain ⟨st, hst, ho⟩ := h
  exact ⟨st, by simp [hst], ho⟩

theorem triggers_append (t1 t2 : WTrace α) (k : Nat) :
    WTrace.triggers (t1 ++ t2) k = WTrace.triggers t1 k + WTrace.triggers t2 k := by
  simp [WTrace.triggers]

theorem triggers_cons (st : WOp α × List (WEvent α)) (t2 : WTrace α) (k : Nat) :
    WTrace.triggers (st :: t2) k = triggers st.2 k + WTrace.triggers t2 k := by
  simp [WTrace.triggers]

/-- Destroying objects triggers the lifetime watches that they carry. -/
theorem runs_drops_trigger {tr inner : WTrace α} {ww ww' : WWorld α} (h : WReach a0 tr ww) (hr : WRuns a0 ww inner ww')
    {ps : List Nat} (hp : inner.map (·.1) = ps.map .drop) {o k : Nat} (ho : o ∈ ps) (hc : mockAt ww.objs o = some k)
    (hk : tr.isKind o .lifetime) : 1 ≤ WTrace.triggers inner k := by
  induction hr generalizing ps tr with
  | nil ww =>
    have : ps = [] := by simpa using hp.symm
    subst this
    simp at ho
  | @cons ww ww1 ww2 op log inner hs hr ih =>
    cases ps with
    | nil => simp at hp
    | cons p ps =>
      simp only [List.map_cons, List.cons.injEq] at hp
      obtain ⟨rfl, hp⟩ := hp
      rw [triggers_cons]
      by_cases hop : o = p
      · subst hop
        have hcc := (h.inv.carries o k).mpr hc
        have := C34_trigger h hs (carries_watch hcc)
        rw [if_pos ⟨o, hcc, Or.inl ⟨hk, Or.inl rfl⟩⟩] at this
        simp only
        omega
      · have := ih (.step h hs) hp (by simpa [hop] using ho) (by rw [(drop_mocks hs).1, if_neg hop, hc]) (isKind_append hk)
        omega

/-- What one operation that creates a watcher keeps. -/
theorem makes_keep {ww ww' : WWorld α} {op : WOp α} {log : List (WEvent α)} (hm : makes op)
    (hs : ww.step a0 op = .ok (ww', log)) {o : Nat} (ho : o < ww.objs.length) :
    fieldAt (·.kind) ww'.objs o = fieldAt (·.kind) ww.objs o ∧ fieldAt (·.alive) ww'.objs o = fieldAt (·.alive) ww.objs o := by
  cases WStep.of_step hs with
  | make hop => simp only [fieldAt_push]; grind
  | refused _ _ _ hop => rcases hop with ⟨_, _, _, _, rfl⟩ | rfl <;> simp [makes] at hm
  | moveL hx hk => have := obj_fields hx; simp only [fieldAt_push, fieldAt_set]; grind
  | moveR hx hk => have := obj_fields hx; simp only [fieldAt_push, fieldAt_set]; grind
  | moveRfail hx hk => simp [WWorld.grown]
  | _ => simp [makes] at hm

theorem makes_alive {ww ww' : WWorld α} {op : WOp α} {log : List (WEvent α)} (hm : makes op)
    (hs : ww.step a0 op = .ok (ww', log)) (ht : thrown log = false) :
    fieldAt (·.alive) ww'.objs ww.objs.length = some true := by
  cases WStep.of_step hs with
  | make hop => simp [fieldAt_push]
  | refused _ _ _ hop => rcases hop with ⟨_, _, _, _, rfl⟩ | rfl <;> simp [makes] at hm
  | moveL hx hk => have := obj_fields hx; simp only [fieldAt_push, fieldAt_set]; grind
  | moveR hx hk => have := obj_fields hx; simp only [fieldAt_push, fieldAt_set]; grind
  | moveRfail => simp [thrown] at ht
  | _ => simp [makes] at hm

/-- Where the kind of a new watcher comes from. -/
def kindFrom (objs : List WatchObj) : WOp α → Option Watcher
  | .create kd => some kd
  | .copy s => fieldAt (·.kind) objs s
  | .move s => fieldAt (·.kind) objs s
  | _ => none

theorem runs_makes {ww ww' : WWorld α} {tr : WTrace α} (hr : WRuns a0 ww tr ww') (hm : ∀ st ∈ tr, makes st.1) (hq : quiet tr)
    (hlt : ∀ st ∈ tr, ∀ s, st.1 = .copy s ∨ st.1 = .move s → s < ww.objs.length) :
    ww'.objs.length = ww.objs.length + tr.length ∧
    (∀ o, o < ww.objs.length → fieldAt (·.alive) ww'.objs o = fieldAt (·.alive) ww.objs o) ∧
    (∀ o, ww.objs.length ≤ o → o < ww.objs.length + tr.length → fieldAt (·.alive) ww'.objs o = some true) ∧
    (tr.flatMap (fun st => objectsOf st.2)).map (fun p => (p.1, some p.2)) =
      (List.range' ww.objs.length tr.length).zip (tr.map (fun st => kindFrom ww.objs st.1)) := by
  induction hr with
  | nil ww => simp; intro o h1 h2; omega
  | @cons ww ww1 ww2 op log tr hs hr ih =>
    have hmk := hm (op, log) (by simp)
    have ht : thrown log = false := hq (op, log) (by simp)
    obtain ⟨hl, kd, hk1, hk2⟩ := makes_ok hmk hs ht
    obtain ⟨i1, i2, i3, i4⟩ := ih (fun st hst => hm st (by simp [hst])) (fun st hst => hq st (by simp [hst]))
      (fun st hst s h => by have := hlt st (by simp [hst]) s h; omega)
    have hkeep := fun o (ho : o < ww.objs.length) => makes_keep hmk hs ho
    refine ⟨by simp only [List.length_cons]; omega, fun o ho => ?_, fun o h1 h2 => ?_, ?_⟩
    · rw [i2 o (by omega), (hkeep o ho).2]
    · by_cases ho : o = ww.objs.length
      · subst ho
        rw [i2 _ (by omega)]
        exact makes_alive hmk hs ht
      · exact i3 o (by omega) (by simp only [List.length_cons] at h2; omega)
    · simp only [List.flatMap_cons, List.map_append, hk1, List.map_cons, List.map_nil, List.length_cons, List.range'_succ,
        List.zip_cons_cons, List.cons_append, List.nil_append, i4, hl]
      have e1 : kindFrom ww.objs op = some kd := by
        rcases hk2 with rfl | ⟨s, (rfl | rfl), hk⟩
        · rfl
        · exact hk
        · exact hk
      rw [e1]
      congr 2
      apply List.map_congr_left
      intro st hst
      have h1 := hm st (by simp [hst])
      have h2 := hlt st (by simp [hst])
      generalize st.1 = op' at h1 h2
      cases op' <;> simp only [kindFrom, makes] at h1 ⊢
      · exact (hkeep _ (h2 _ (Or.inl rfl))).1
      · exact (hkeep _ (h2 _ (Or.inr rfl))).1

/-- A step keeps what it does not touch. -/
theorem step_keep {ww ww' : WWorld α} {op : WOp α} {log : List (WEvent α)} (hs : ww.step a0 op = .ok (ww', log)) {o : Nat}
    (ho : o < ww.objs.length) (hd : op ≠ .drop o) :
    fieldAt (·.alive) ww'.objs o = fieldAt (·.alive) ww.objs o ∧ ww.objs.length ≤ ww'.objs.length := by
  cases WStep.of_step hs with
  | make hop => simp only [fieldAt_push]; grind
  | moveL hx hk => have := obj_fields hx; simp only [fieldAt_push, fieldAt_set]; grind
  | moveR hx hk => have := obj_fields hx; simp only [fieldAt_push, fieldAt_set]; grind
  | moveRfail hx hk => simp [WWorld.grown]
  | copyAssign hx => have := obj_fields hx; simp only [fieldAt_set]; grind
  | copyAssignL hx => have := obj_fields hx; simp only [fieldAt_set]; grind
  | copyAssignLfail hx => have := obj_fields hx; simp only [fieldAt_set]; grind
  | moveAssignL hx hy => have := obj_fields hx; have := obj_fields hy; simp only [fieldAt_set]; grind
  | moveAssignR hx hy => have := obj_fields hx; have := obj_fields hy; simp only [fieldAt_set]; grind
  | dropSilent hx _ => have := obj_fields hx; simp only [fieldAt_set]; grind
  | dropL hx _ => have := obj_fields hx; simp only [fieldAt_set]; grind
  | expectL hx => have := obj_fields hx; simp only [fieldAt_set]; grind
  | abandonL hx => have := obj_fields hx; simp only [fieldAt_set]; grind
  | _ => simp

theorem runs_keep {ww ww' : WWorld α} {tr : WTrace α} (hr : WRuns a0 ww tr ww') {o : Nat}
    (ho : o < ww.objs.length) (hd : ∀ st ∈ tr, st.1 ≠ .drop o) :
    fieldAt (·.alive) ww'.objs o = fieldAt (·.alive) ww.objs o := by
  induction hr with
  | nil => rfl
  | @cons ww ww1 ww2 op log tr hs hr ih =>
    obtain ⟨h1, h2⟩ := step_keep hs ho (hd (op, log) (by simp))
    rw [ih (by omega) (fun st hst => hd st (by simp [hst])), h1]

theorem runs_length {ww ww' : WWorld α} {tr : WTrace α} (hr : WRuns a0 ww tr ww') : ww.objs.length ≤ ww'.objs.length := by
  induction hr with
  | nil => omega
  | @cons ww ww1 ww2 op log tr hs hr ih =>
    have : ww.objs.length ≤ ww1.objs.length := by
      cases WStep.of_step hs with
      | make hop => simp
      | moveRfail hx hk => simp [WWorld.grown]
      | _ => simp
    omega

/-! ### Moves and triggers -/

theorem runs_moves_trigger {tr inner : WTrace α} {ww ww' : WWorld α} (h : WReach a0 tr ww) (hr : WRuns a0 ww inner ww')
    {ps : List Nat} (hp : inner.map (·.1) = ps.map .move) (hq : quiet inner) (hn : ps.Nodup)
    (hlt : ∀ o ∈ ps, o < ww.objs.length) {o k : Nat} {kd : Watcher} (hc : mockAt ww.objs o = some k) (hk : tr.isKind o kd) :
    WTrace.triggers inner k = if o ∈ ps ∧ kd = .relocation then 1 else 0 := by
  induction hr generalizing ps tr o with
  | nil ww =>
    have : ps = [] := by simpa using hp.symm
    subst this
    simp [WTrace.triggers]
  | @cons ww ww1 ww2 op log inner hs hr ih =>
    cases ps with
    | nil => simp at hp
    | cons p ps =>
      simp only [List.map_cons, List.cons.injEq] at hp
      obtain ⟨rfl, hp⟩ := hp
      have ht : thrown log = false := hq (WOp.move p, log) (by simp)
      have hm := move_mocks hs ht
      obtain ⟨hl, _⟩ := makes_ok (by simp [makes]) hs ht
      have hn' := List.nodup_cons.mp hn
      have hcc := (h.inv.carries o k).mpr hc
      have h1 := C34_trigger h hs (carries_watch hcc)
      have hlt' : ∀ q ∈ ps, q < ww1.objs.length := fun q hq => by have := hlt q (by simp [hq]); omega
      have hpl : p < ww.objs.length := hlt p (by simp)
      rw [triggers_cons]
      simp only
      by_cases hop : o = p
      · subst hop
        have hkd := ih (.step h hs) hp (fun st hst => hq st (by simp [hst])) hn'.2 hlt' (o := ww.objs.length)
          (by rw [hm, if_pos rfl, hc])
          (carrier_kind h hs hcc hk (o' := ww.objs.length) (by
            rw [(WReach.step h hs).inv.carries, hm, if_pos rfl, hc]))
        rw [if_neg (fun hx => by have := hlt _ (List.mem_cons_of_mem _ hx.1); omega)] at hkd
        rw [hkd, h1]
        by_cases hr : kd = .relocation
        · subst hr
          rw [if_pos ⟨o, hcc, Or.inr ⟨hk, Or.inl rfl⟩⟩, if_pos ⟨by simp, rfl⟩]
        · rw [if_neg, if_neg (fun hx => hr hx.2)]
          rintro ⟨o', ho', (⟨_, hx⟩ | ⟨hx, _⟩)⟩
          · simp [ends] at hx
          · have := (C34_carrier h).1 _ _ _ hcc ho'
            subst this
            have h3 := (h.inv2.kind _ _).mp hx
            rw [(h.inv2.kind _ _).mp hk] at h3
            simp at h3
            exact hr h3
      · have h2 := ih (.step h hs) hp (fun st hst => hq st (by simp [hst])) hn'.2 hlt' (o := o)
          (by rw [hm, if_neg (by have := mockAt_lt hc; omega), if_neg hop, hc]) (isKind_append hk)
        rw [h2, h1, if_neg]
        · simp [hop]
        · rintro ⟨o', ho', hx⟩
          have := (C34_carrier h).1 _ _ _ hcc ho'
          subst this
          simp [WTrace.reportable, ends, movesFrom] at hx
          exact hop hx.2.symm

/-! ### The invariant -/

theorem cflat_snoc {tr : CTrace α} {op : COp α} {log : CLog α} :
    (tr ++ [(op, log)] : CTrace α).flat = tr.flat ++ log.inner := by
  simp [CTrace.flat]

theorem parts_snoc {tr : CTrace α} {op : COp α} {log : CLog α} {c : Nat} :
    (tr ++ [(op, log)] : CTrace α).parts c =
      (tr.parts c).or (if log.made = some c then some log.objects else none) := by
  simp [CTrace.parts, List.findSome?_append]

theorem objects_eq (log : CLog α) : log.objects = log.inner.flatMap (fun st => objectsOf st.2) := rfl

/-- The relation between the history and the state. -/
structure WdInv (a0 : Trigger α) (tr : CTrace α) (cw : CWorld α) : Prop where
  reach : WReach a0 tr.flat cw.ww
  fresh : ∀ c : Nat, cw.objs.length ≤ c → tr.parts c = none
  parts : ∀ (c : Nat) (x : Watched), cw.objs[c]? = some x → ∃ ps, tr.parts c = some ps ∧ ps.map (·.1) = x.parts ∧ ps.map (·.2) = x.kinds
  nodup : ∀ (c : Nat) (x : Watched), cw.objs[c]? = some x → x.parts.Nodup
  lt : ∀ (c : Nat) (x : Watched), cw.objs[c]? = some x → ∀ o ∈ x.parts, o < cw.ww.objs.length
  kind : ∀ c ps, tr.parts c = some ps → ∀ p ∈ ps, tr.flat.isKind p.1 p.2
  disjoint : ∀ (c c' : Nat) (x x' : Watched), cw.objs[c]? = some x → cw.objs[c']? = some x' → c ≠ c' → ∀ o ∈ x.parts, o ∉ x'.parts
  alive : ∀ (c : Nat) (x : Watched), cw.objs[c]? = some x → x.alive = true → ∀ o ∈ x.parts, fieldAt (·.alive) cw.ww.objs o = some true
  dropped : ∀ (c : Nat) (x : Watched), cw.objs[c]? = some x → (x.alive = false ↔ tr.dropped c)
  droppedLt : ∀ c : Nat, tr.dropped c → c < cw.objs.length

theorem WdInv.init : WdInv a0 ([] : CTrace α) CWorld.init := by
  constructor <;> simp [CWorld.init, CTrace.parts, CTrace.flat, CTrace.dropped]
  exact .init

theorem cobj_some {cw : CWorld α} {c : Nat} {x : Watched} (h : cw.obj c = some x) :
    cw.objs[c]? = some x ∧ x.alive = true := by
  unfold CWorld.obj at h
  split at h
  · rename_i y hy
    split at h
    · rename_i ha
      simp only [Option.some.injEq] at h
      subst h
      exact ⟨hy, ha⟩
    · simp at h
  · simp at h

theorem dropped_snoc {tr : CTrace α} {op : COp α} {log : CLog α} {c : Nat} :
    (tr ++ [(op, log)] : CTrace α).dropped c ↔ tr.dropped c ∨ op = .drop c := by
  simp only [CTrace.dropped, List.mem_append, List.mem_singleton, Prod.mk.injEq]
  constructor
  · rintro ⟨l, (h | ⟨h, _⟩)⟩
    · exact Or.inl ⟨l, h⟩
    · exact Or.inr h.symm
  · rintro (⟨l, h⟩ | h)
    · exact ⟨l, Or.inl h⟩
    · exact ⟨log, Or.inr ⟨h.symm, rfl⟩⟩

theorem isKind_objects {tr : WTrace α} {p : Nat × Watcher} (h : p ∈ tr.flatMap (fun st => objectsOf st.2)) :
    tr.isKind p.1 p.2 := by
  simp only [List.mem_flatMap, objectsOf, List.mem_filterMap] at h
  obtain ⟨st, hst, x, hx, hm⟩ := h
  split at hm
  · simp only [Option.some.injEq] at hm
    subst hm
    exact ⟨st, hst, hx⟩
  · simp at hm

/-- Operations that create no watched object and destroy none. -/
theorem WdInv.quiet_step {tr : CTrace α} {cw : CWorld α} (h : WdInv a0 tr cw) {op : COp α} {log : CLog α} {ww' : WWorld α}
    (hr : WRuns a0 cw.ww log.inner ww') (hm : log.made = none) (hop : ∀ c, op ≠ .drop c)
    (hd : ∀ o, o < cw.ww.objs.length → ∀ st ∈ log.inner, st.1 ≠ .drop o) :
    WdInv a0 (tr ++ [(op, log)]) { cw with ww := ww' } := by
  have hpp : ∀ c, (tr ++ [(op, log)] : CTrace α).parts c = tr.parts c := by
    intro c; rw [parts_snoc, hm]; simp
  obtain ⟨h1, h2, h3, h4, h5, h6, h7, h8, h9, h10⟩ := h
  have hlen := runs_length hr
  refine ⟨?_, ?_, ?_, h4, ?_, ?_, h7, ?_, ?_, ?_⟩
  · rw [cflat_snoc]; exact hr.reach h1
  · intro c hc; rw [hpp]; exact h2 c hc
  · intro c x hx; rw [hpp]; exact h3 c x hx
  · intro c x hx o ho; have := h5 c x hx o ho; simp only; omega
  · intro c ps hp p hpm; rw [hpp] at hp; rw [cflat_snoc]; exact isKind_append (h6 c ps hp p hpm)
  · intro c x hx ha o ho
    have hlt := h5 c x hx o ho
    rw [runs_keep hr hlt (hd o hlt)]
    exact h8 c x hx ha o ho
  · intro c x hx; rw [dropped_snoc]; simp [hop, h9 c x hx]
  · intro c hc; rw [dropped_snoc] at hc; simp [hop] at hc; exact h10 c hc

theorem construct_spec {cw cw' : CWorld α} {base : BaseSpec} {kinds : List Watcher} {nothrow fails : Bool}
    {ops : List (WOp α)} {log : CLog α} (hm : ∀ op ∈ ops, makes op)
    (h : cw.construct a0 base kinds nothrow ops fails = .ok (cw', log)) :
    (log.threw = false ∧ fails = false ∧ log.made = some cw.objs.length ∧ WRuns a0 cw.ww log.inner cw'.ww ∧
      log.inner.map (·.1) = ops ∧ quiet log.inner ∧ cw'.ww.objs.length = cw.ww.objs.length + ops.length ∧
      cw'.objs = cw.objs ++ [⟨base, kinds, List.range' cw.ww.objs.length ops.length, true⟩]) ∨
    (log.threw = true ∧ nothrow = false ∧ log.made = none ∧ cw'.objs = cw.objs ∧
      ∃ ops1 ops2 t1 t2 t3 ww1 ww2, ops = ops1 ++ ops2 ∧ log.inner = t1 ++ t2 ++ t3 ∧ WRuns a0 cw.ww t1 ww1 ∧
        t1.map (·.1) = ops1 ∧ quiet t1 ∧ ww1.objs.length = cw.ww.objs.length + ops1.length ∧
        WRuns a0 ww1 t2 ww2 ∧ WRuns a0 ww2 t3 cw'.ww ∧ quiet t3 ∧
        t3.map (·.1) = (List.range' cw.ww.objs.length ops1.length).reverse.map .drop ∧
        ((ops2 = [] ∧ fails = true ∧ t2 = []) ∨
         ∃ op rest l, ops2 = op :: rest ∧ t2 = [(op, l)] ∧ thrown l = true)) := by
  simp only [CWorld.construct] at h
  split at h
  · simp at h
  · rename_i ww' tr hb
    simp only [Except.ok.injEq, Prod.mk.injEq] at h
    obtain ⟨rfl, rfl⟩ := h
    rcases build_runs hm hb with ⟨m, hx, _⟩ |
      ⟨_, hnt, ops1, op', ops2, t1, log', t2, wa, wb, rfl, h1, h2, h3, h4, h5, h6, h7, h8, h9, rfl⟩
    · simp at hx
    · exact Or.inr ⟨rfl, hnt, rfl, rfl, ops1, op' :: ops2, t1, [(op', log')], t2, wa, wb, rfl, by simp, h1, h2, h3, h4,
        .cons h5 (.nil _), h7, h8, by simpa using h9, Or.inr ⟨op', ops2, log', rfl, rfl, h6⟩⟩
  · rename_i ww' tr made hb
    rcases build_runs hm hb with ⟨m, hx, h1, h2, h3, h4, h5⟩ | ⟨hx, _⟩
    · simp only [Option.some.injEq] at hx
      subst hx
      split at h
      · rename_i hf
        split at h
        · simp at h
        · rename_i hnt
          split at h
          · simp at h
          · rename_i ww2 tr' hu
            simp only [Except.ok.injEq, Prod.mk.injEq] at h
            obtain ⟨rfl, rfl⟩ := h
            obtain ⟨g1, g2, g3⟩ := unwind_runs hu
            exact Or.inr ⟨rfl, by simpa using hnt, rfl, rfl, ops, [], tr, [], tr', ww', ww', by simp, by simp, h1, h2, h3, h5,
              .nil _, g1, g3, by rw [g2, h4]; simp, Or.inl ⟨rfl, hf, rfl⟩⟩
      · rename_i hf
        simp only [Except.ok.injEq, Prod.mk.injEq] at h
        obtain ⟨rfl, rfl⟩ := h
        refine Or.inl ⟨rfl, by simpa using hf, rfl, h1, h2, h3, h5, ?_⟩
        simp only [h4]
        simp
    · simp at hx

theorem WdInv.construct {tr : CTrace α} {cw cw' : CWorld α} (hi : WdInv a0 tr cw) {op : COp α} {base : BaseSpec}
    {kinds : List Watcher} {nothrow fails : Bool} {ops : List (WOp α)} {log : CLog α} (hm : ∀ op ∈ ops, makes op)
    (hop : ∀ c, op ≠ .drop c) (hlt : ∀ op ∈ ops, ∀ s, op = .copy s ∨ op = .move s → s < cw.ww.objs.length)
    (hk : ops.map (kindFrom cw.ww.objs) = kinds.map some)
    (h : cw.construct a0 base kinds nothrow ops fails = .ok (cw', log)) : WdInv a0 (tr ++ [(op, log)]) cw' := by
  rcases construct_spec hm h with ⟨_, _, hmade, hr, hops, hq, hlen, hobjs⟩ |
    ⟨_, _, hmade, hobjs, ops1, ops2, t1, t2, t3, ww1, ww2, rfl, hin, r1, m1, q1, l1, r2, r3, q3, m3, hcase⟩
  · have hlen2 : log.inner.length = ops.length := by rw [← hops]; simp
    obtain ⟨k1, k2, k3, k4⟩ := runs_makes hr (fun st hst => hm _ (by rw [← hops]; exact List.mem_map_of_mem hst)) hq
      (fun st hst => hlt _ (by rw [← hops]; exact List.mem_map_of_mem hst))
    have hkk : log.inner.map (fun st => kindFrom cw.ww.objs st.1) = kinds.map some := by
      rw [← hk, ← hops, List.map_map]; rfl
    rw [hkk, hlen2] at k4
    have hkl : kinds.length = ops.length := by simpa using (congrArg List.length hk).symm
    have hf1 : log.objects.map (·.1) = List.range' cw.ww.objs.length ops.length := by
      have := congrArg (List.map (·.1)) k4
      rw [List.map_map, List.map_fst_zip (by simp [hkl])] at this
      exact this
    have hf2 : log.objects.map (·.2) = kinds := by
      have := congrArg (List.map (·.2)) k4
      rw [List.map_map, List.map_snd_zip (by simp [hkl])] at this
      have h2 : (log.objects.map (·.2)).map some = kinds.map some := by
        rw [List.map_map]; exact this
      have h3 := congrArg (List.filterMap id) h2
      simpa [List.filterMap_map] using h3
    obtain ⟨h1, h2, h3, h4, h5, h6, h7, h8, h9, h10⟩ := hi
    have hpp : ∀ c, (tr ++ [(op, log)] : CTrace α).parts c =
        if c = cw.objs.length then some log.objects else tr.parts c := by
      intro c
      rw [parts_snoc, hmade]
      by_cases hc : c = cw.objs.length
      · subst hc
        rw [h2 _ (Nat.le_refl _)]; simp
      · simp [hc, Ne.symm hc]
    have hget : ∀ (c : Nat) (x : Watched), cw'.objs[c]? = some x → (c < cw.objs.length ∧ cw.objs[c]? = some x) ∨
        (c = cw.objs.length ∧ x = ⟨base, kinds, List.range' cw.ww.objs.length ops.length, true⟩) := by
      intro c x hx
      rw [hobjs] at hx
      by_cases hc : c < cw.objs.length
      · rw [List.getElem?_append_left hc] at hx; exact Or.inl ⟨hc, hx⟩
      · rw [List.getElem?_append_right (by omega)] at hx
        have := (List.getElem?_eq_some_iff.mp hx).1
        simp at this
        have hc' : c = cw.objs.length := by omega
        subst hc'
        simp at hx
        exact Or.inr ⟨rfl, hx.symm⟩
    refine ⟨?_, ?_, ?_, ?_, ?_, ?_, ?_, ?_, ?_, ?_⟩
    · rw [cflat_snoc]; exact hr.reach h1
    · intro c hc
      rw [hobjs] at hc
      simp at hc
      rw [hpp, if_neg (by omega)]
      exact h2 c (by omega)
    · intro c x hx
      rw [hpp]
      rcases hget c x hx with ⟨hc, hx'⟩ | ⟨rfl, rfl⟩
      · rw [if_neg (by omega)]; exact h3 c x hx'
      · rw [if_pos rfl]; exact ⟨_, rfl, hf1, hf2⟩
    · intro c x hx
      rcases hget c x hx with ⟨hc, hx'⟩ | ⟨rfl, rfl⟩
      · exact h4 c x hx'
      · exact List.nodup_range'
    · intro c x hx o ho
      rcases hget c x hx with ⟨hc, hx'⟩ | ⟨rfl, rfl⟩
      · have := h5 c x hx' o ho; omega
      · simp [List.mem_range'_1] at ho; omega
    · intro c ps hp p hpm
      rw [cflat_snoc]
      rw [hpp] at hp
      split at hp
      · simp only [Option.some.injEq] at hp
        subst hp
        obtain ⟨st, hst, ho⟩ := isKind_objects hpm
        exact ⟨st, by simp [hst], ho⟩
      · exact isKind_append (h6 c ps hp p hpm)
    · intro c c' x x' hx hx' hne o ho ho'
      rcases hget c x hx with ⟨hc, hy⟩ | ⟨rfl, rfl⟩ <;> rcases hget c' x' hx' with ⟨hc', hy'⟩ | ⟨rfl, rfl⟩
      · exact h7 c c' x x' hy hy' hne o ho ho'
      · have := h5 c x hy o ho
        simp [List.mem_range'_1] at ho'; omega
      · have := h5 c' x' hy' o ho'
        simp [List.mem_range'_1] at ho; omega
      · exact hne rfl
    · intro c x hx ha o ho
      rcases hget c x hx with ⟨hc, hx'⟩ | ⟨rfl, rfl⟩
      · rw [k2 o (h5 c x hx' o ho)]; exact h8 c x hx' ha o ho
      · simp [List.mem_range'_1] at ho
        exact k3 o ho.1 (by omega)
    · intro c x hx
      rw [dropped_snoc]
      rcases hget c x hx with ⟨hc, hx'⟩ | ⟨rfl, rfl⟩
      · simp [hop, h9 c x hx']
      · simp [hop]
        intro hd
        have := h10 _ hd
        omega
    · intro c hc
      rw [dropped_snoc] at hc
      simp [hop] at hc
      have := h10 c hc
      rw [hobjs]
      simp
      omega
  · have hrun : WRuns a0 cw.ww log.inner cw'.ww := by
      rw [hin]; exact (r1.append r2).append r3
    have := hi.quiet_step (op := op) (log := log) hrun hmade hop ?_
    · cases cw'; simp only at hobjs; subst hobjs; exact this
    · intro o ho st hst
      rw [hin] at hst
      simp only [List.mem_append] at hst
      rcases hst with (hst | hst) | hst
      · have := hm st.1 (by rw [← m1]; simp; exact Or.inl ⟨_, hst⟩)
        intro hc; rw [hc] at this; simp [makes] at this
      · rcases hcase with ⟨_, _, rfl⟩ | ⟨op', rest, l, rfl, rfl, _⟩
        · simp at hst
        · have := hm op' (by simp)
          simp at hst
          subst hst
          intro hc; simp only at hc; subst hc; simp [makes] at this
      · have : st.1 ∈ t3.map (·.1) := List.mem_map_of_mem hst
        rw [m3] at this
        simp [List.mem_range'_1] at this
        obtain ⟨o', ho', he⟩ := this
        intro hc; rw [hc] at he; simp at he; omega

theorem WdInv.kinds {tr : CTrace α} {cw : CWorld α} (h : WdInv a0 tr cw) {c : Nat} {x : Watched}
    (hx : cw.objs[c]? = some x) : x.parts.map (fun o => fieldAt (·.kind) cw.ww.objs o) = x.kinds.map some := by
  obtain ⟨ps, h1, h2, h3⟩ := h.parts c x hx
  rw [← h2, ← h3, List.map_map, List.map_map]
  apply List.map_congr_left
  intro p hp
  exact (h.reach.inv2.kind _ _).mp (h.kind c ps h1 p hp)

theorem plain_keeps {ww ww' : WWorld α} {op : Op α} {log : List (WEvent α)}
    (hs : ww.step a0 (.plain op) = .ok (ww', log)) : WRuns a0 ww [(.plain op, log)] ww' := .cons hs (.nil _)

theorem WdInv.step {tr : CTrace α} {cw cw' : CWorld α} (hi : WdInv a0 tr cw) {op : COp α} {log : CLog α}
    (hs : cw.step a0 op = .ok (cw', log)) : WdInv a0 (tr ++ [(op, log)]) cw' := by
  cases op with
  | plain op =>
    simp only [CWorld.step] at hs
    split at hs
    · simp at hs
    · rename_i ww' l hw
      simp only [Except.ok.injEq, Prod.mk.injEq] at hs
      obtain ⟨rfl, rfl⟩ := hs
      exact hi.quiet_step (.cons hw (.nil _)) rfl (by simp) (by simp)
  | create base kinds fails =>
    simp only [CWorld.step] at hs
    refine hi.construct (ops := kinds.map .create) ?_ (by simp) ?_ ?_ hs
    · intro op hop; simp at hop; obtain ⟨k, _, rfl⟩ := hop; trivial
    · intro op hop s hc; simp at hop; obtain ⟨k, _, rfl⟩ := hop; simp at hc
    · simp [List.map_map]; intro a _; rfl
  | copy src fails =>
    simp only [CWorld.step] at hs
    split at hs
    · simp at hs
    · rename_i x hx
      have hx' := (cobj_some hx).1
      refine hi.construct (ops := x.parts.map .copy) ?_ (by simp) ?_ ?_ hs
      · intro op hop; simp at hop; obtain ⟨k, _, rfl⟩ := hop; trivial
      · intro op hop s hc; simp at hop; obtain ⟨k, hk, rfl⟩ := hop; simp at hc; subst hc; exact hi.lt _ _ hx' k hk
      · rw [← hi.kinds hx', List.map_map]; rfl
  | move src fails =>
    simp only [CWorld.step] at hs
    split at hs
    · simp at hs
    · rename_i x hx
      have hx' := (cobj_some hx).1
      refine hi.construct (ops := x.parts.map .move) ?_ (by simp) ?_ ?_ hs
      · intro op hop; simp at hop; obtain ⟨k, _, rfl⟩ := hop; trivial
      · intro op hop s hc; simp at hop; obtain ⟨k, hk, rfl⟩ := hop; simp at hc; subst hc; exact hi.lt _ _ hx' k hk
      · rw [← hi.kinds hx', List.map_map]; rfl
  | copyAssign dst src fails =>
    simp only [CWorld.step] at hs
    split at hs
    · split at hs
      · split at hs
        · simp at hs
        · rename_i ww' t r ha
          simp only [Except.ok.injEq, Prod.mk.injEq] at hs
          obtain ⟨rfl, rfl⟩ := hs
          obtain ⟨h1, h2, h3⟩ := assign_runs ha
          refine hi.quiet_step h1 rfl (by simp) ?_
          intro o _ st hst
          have := assign_ops ha st hst
          obtain ⟨a, b, hab⟩ := mem_zipWith this
          rw [hab]; simp
      · simp at hs
    · simp at hs
  | moveAssign dst src fails =>
    simp only [CWorld.step] at hs
    split at hs
    · split at hs
      · split at hs
        · simp at hs
        · rename_i ww' t r ha
          split at hs
          · simp at hs
          · simp only [Except.ok.injEq, Prod.mk.injEq] at hs
            obtain ⟨rfl, rfl⟩ := hs
            obtain ⟨h1, h2, h3⟩ := assign_runs ha
            refine hi.quiet_step h1 rfl (by simp) ?_
            intro o _ st hst
            have := assign_ops ha st hst
            obtain ⟨a, b, hab⟩ := mem_zipWith this
            rw [hab]; simp
      · simp at hs
    · simp at hs
  | expect c i min max tags ps =>
    simp only [CWorld.step] at hs
    split at hs
    · simp at hs
    · split at hs
      · simp at hs
      · split at hs
        · simp at hs
        · rename_i ww' l hw
          simp only [Except.ok.injEq, Prod.mk.injEq] at hs
          obtain ⟨rfl, rfl⟩ := hs
          exact hi.quiet_step (.cons hw (.nil _)) rfl (by simp) (by simp)
  | drop c =>
    simp only [CWorld.step] at hs
    split at hs
    · simp at hs
    · rename_i x hx
      obtain ⟨hx', hxa⟩ := cobj_some hx
      split at hs
      · simp at hs
      · rename_i ww' t r hd
        simp only [Except.ok.injEq, Prod.mk.injEq] at hs
        obtain ⟨rfl, rfl⟩ := hs
        obtain ⟨g1, g2, g3, g4⟩ := dropParts_runs hd
        have hlen := runs_length g1
        obtain ⟨h1, h2, h3, h4, h5, h6, h7, h8, h9, h10⟩ := hi
        have hcl : c < cw.objs.length := (List.getElem?_eq_some_iff.mp hx').1
        have hget : ∀ (c' : Nat) (y : Watched), (cw.objs.set c { x with alive := false })[c']? = some y →
            ∃ z, cw.objs[c']? = some z ∧ y.parts = z.parts ∧ y.kinds = z.kinds ∧
              ((c' = c ∧ y.alive = false) ∨ (c' ≠ c ∧ y = z)) := by
          intro c' y hy
          rw [List.getElem?_set] at hy
          split at hy
          · rename_i hc
            subst hc
            simp only [hcl, if_true, Option.some.injEq] at hy
            subst hy
            exact ⟨x, hx', rfl, rfl, Or.inl ⟨rfl, rfl⟩⟩
          · rename_i hc
            exact ⟨y, hy, rfl, rfl, Or.inr ⟨Ne.symm hc, rfl⟩⟩
        have hpp : ∀ c', (tr ++ [(.drop c, ⟨t, none, r⟩)] : CTrace α).parts c' = tr.parts c' := by
          intro c'; rw [parts_snoc]; simp
        refine ⟨?_, ?_, ?_, ?_, ?_, ?_, ?_, ?_, ?_, ?_⟩
        · rw [cflat_snoc]; exact g1.reach h1
        · intro c' hc; rw [hpp]; exact h2 c' (by simpa using hc)
        · intro c' y hy
          obtain ⟨z, hz, e1, e2, _⟩ := hget c' y hy
          rw [hpp, e1, e2]; exact h3 c' z hz
        · intro c' y hy
          obtain ⟨z, hz, e1, e2, _⟩ := hget c' y hy
          rw [e1]; exact h4 c' z hz
        · intro c' y hy o ho
          obtain ⟨z, hz, e1, e2, _⟩ := hget c' y hy
          rw [e1] at ho
          have := h5 c' z hz o ho
          simp only; omega
        · intro c' ps hp p hpm; rw [hpp] at hp; rw [cflat_snoc]; exact isKind_append (h6 c' ps hp p hpm)
        · intro c1 c2 y1 y2 hy1 hy2 hne o ho
          obtain ⟨z1, hz1, e1, _⟩ := hget c1 y1 hy1
          obtain ⟨z2, hz2, e2, _⟩ := hget c2 y2 hy2
          rw [e1] at ho; rw [e2]
          exact h7 c1 c2 z1 z2 hz1 hz2 hne o ho
        · intro c' y hy ha o ho
          obtain ⟨z, hz, e1, e2, (⟨_, hf⟩ | ⟨hne, rfl⟩)⟩ := hget c' y hy
          · rw [hf] at ha; simp at ha
          · rw [runs_keep g1 (h5 c' _ hz o ho)]
            · exact h8 c' _ hz ha o ho
            · intro st hst hc
              have : st.1 ∈ t.map (·.1) := List.mem_map_of_mem hst
              rw [g2, hc] at this
              simp at this
              exact h7 c' c _ x hz hx' hne o ho this
        · intro c' y hy
          rw [dropped_snoc]
          obtain ⟨z, hz, e1, e2, (⟨rfl, hf⟩ | ⟨hne, rfl⟩)⟩ := hget c' y hy
          · simp [hf]
          · rw [h9 c' _ hz]
            simp [Ne.symm hne]
        · intro c' hc
          rw [dropped_snoc] at hc
          rcases hc with hc | hc
          · have := h10 c' hc; simpa using this
          · simp at hc; subst hc; simpa using hcl

theorem CReach.inv {tr : CTrace α} {cw : CWorld α} (h : CReach a0 tr cw) : WdInv a0 tr cw := by
  induction h with
  | init => exact .init
  | step _ hs ih => exact ih.step hs

theorem carrier_kind_runs {tr inner : WTrace α} {ww ww' : WWorld α} (h : WReach a0 tr ww) (hr : WRuns a0 ww inner ww')
    {o o' k : Nat} {kd : Watcher} (hc : tr.carries o k) (hl : tr.isKind o kd)
    (hc' : (tr ++ inner : WTrace α).carries o' k) : (tr ++ inner : WTrace α).isKind o' kd := by
  induction hr generalizing tr o with
  | nil =>
    simp only [List.append_nil] at hc' ⊢
    have := (C34_carrier h).1 _ _ _ hc hc'
    subst this
    exact hl
  | @cons ww ww1 ww2 op log inner hs hr ih =>
    have e : (tr ++ (op, log) :: inner : WTrace α) = tr ++ [(op, log)] ++ inner := by simp
    rw [e] at hc' ⊢
    by_cases hn : ∃ o1, (tr ++ [(op, log)] : WTrace α).carries o1 k
    · obtain ⟨o1, ho1⟩ := hn
      exact ih (.step h hs) ho1 (carrier_kind h hs hc hl ho1) hc'
    · exact absurd hc' ((uncarried_forever (hr.reach (.step h hs)) (watch_snoc.mpr (Or.inl (carries_watch hc)))
        (fun o1 ho1 => hn ⟨o1, ho1⟩)).1 o')

/-- Once a lifetime watch is triggered nobody carries it. -/
theorem triggered_not_carried {tr post : WTrace α} {ww : WWorld α} (h : WReach a0 (tr ++ post) ww) {o o' k : Nat}
    (hc : tr.carries o k) (hl : tr.isKind o .lifetime) (ht : 0 < WTrace.triggers post k) :
    ¬ (tr ++ post : WTrace α).carries o' k := by
  induction post generalizing tr o with
  | nil => simp [WTrace.triggers] at ht
  | cons st post ih =>
    have h' : WReach a0 ((tr ++ [st]) ++ post) ww := by simpa using h
    obtain ⟨ww1, h1⟩ := h'.prefix
    obtain ⟨ww0, h0, hs⟩ := h1.snoc_inv
    have hw := carries_watch hc
    have e : (tr ++ st :: post : WTrace α) = tr ++ [st] ++ post := by simp
    rw [e]
    by_cases hn : ∃ o1, (tr ++ [st] : WTrace α).carries o1 k
    · obtain ⟨o1, ho1⟩ := hn
      rw [triggers_cons] at ht
      have h0t : triggers st.2 k = 0 := by
        rw [C34_trigger h0 hs hw, if_neg]
        rintro ⟨o2, hc2, hr⟩
        have := (C34_carrier h0).1 _ _ _ hc hc2
        subst this
        rcases hr with ⟨_, hr⟩ | ⟨hr, _⟩
        · rw [carries_snoc] at ho1
          rcases ho1 with hb | ⟨s, hm, hcs⟩ | ⟨hco, hlv⟩
          · have g1 := born_fresh h0.inv (.of_step hs) hb
            have g2 := h0.inv.owned k (h0.inv.watch k hw)
            omega
          · rcases hr with hr | ⟨_, hr⟩ <;> rw [hr] at hm <;> simp [movesTo] at hm
          · have := (C34_carrier h0).1 _ _ _ hc hco
            subst this
            rcases hr with hr | ⟨_, hr⟩ <;> rw [hr] at hlv <;> simp [leaves] at hlv
        · have := (h0.inv2.kind _ _).mp hr
          rw [(h0.inv2.kind _ _).mp hl] at this
          simp at this
      exact ih h' ho1 (carrier_kind h0 hs hc hl ho1) (by omega)
    · exact (uncarried_forever h' (watch_snoc.mpr (Or.inl hw)) (fun o1 ho1 => hn ⟨o1, ho1⟩)).1 o'

/-- A living watcher whose watch has no expectation. -/
def Unarmed (ww : WWorld α) (o : Nat) (kd : Watcher) : Prop :=
  ∃ c, ww.objs[o]? = some ⟨kd, false, some c, true⟩ ∧ ww.w.colls[c]? = some []

/-- Operations that make a new watcher without touching another one. -/
def makesFresh (ww : WWorld α) (op : WOp α) (kd : Watcher) : Prop :=
  op = .create kd ∨ ∃ s x, op = .copy s ∧ ww.obj s = some x ∧ x.kind = kd

theorem construct_step {ww : WWorld α} {op : WOp α} {kd : Watcher} (h : makesFresh ww op kd) :
    ∃ log, ww.step a0 op = .ok ({ ww.grown with objs := ww.objs ++ [⟨kd, false, some ww.w.colls.length, true⟩] }, log) ∧
      thrown log = false := by
  rcases h with rfl | ⟨s, x, rfl, hx, rfl⟩
  · exact ⟨_, rfl, rfl⟩
  · simp only [WWorld.step, hx]
    exact ⟨_, rfl, rfl⟩

theorem build_fresh {nothrow : Bool} (l : List (WOp α × Watcher)) {ww : WWorld α} {made : List Nat}
    (h : ∀ p ∈ l, makesFresh ww p.1 p.2) :
    ∃ ww' tr made', build a0 nothrow ww made (l.map (·.1)) = .ok (ww', tr, some (made' ++ made)) ∧ made'.Nodup ∧
      (∀ o ∈ made', ww.objs.length ≤ o ∧ ∃ kd, Unarmed ww' o kd) ∧ (∀ p ∈ l, ∃ o ∈ made', Unarmed ww' o p.2) ∧
      ∀ o kd, Unarmed ww o kd → Unarmed ww' o kd := by
  induction l generalizing ww made with
  | nil => exact ⟨ww, [], [], by simp [build], by simp, by simp, by simp, fun _ _ h => h⟩
  | cons p l ih =>
    obtain ⟨log, hs, ht⟩ := construct_step (a0 := a0) (h p (by simp))
    generalize hw : ({ ww.grown with objs := ww.objs ++ [⟨p.2, false, some ww.w.colls.length, true⟩] } : WWorld α) = ww1 at hs
    have ho : ww1.objs = ww.objs ++ [⟨p.2, false, some ww.w.colls.length, true⟩] := by rw [← hw]
    have hc : ww1.w.colls = ww.w.colls ++ [[]] := by rw [← hw]; rfl
    have hk : ∀ o kd, Unarmed ww o kd → Unarmed ww1 o kd := by
      rintro o kd ⟨c, h1, h2⟩
      refine ⟨c, ?_, ?_⟩
      · rw [ho, List.getElem?_append_left (List.getElem?_eq_some_iff.mp h1).1, h1]
      · rw [hc, List.getElem?_append_left (List.getElem?_eq_some_iff.mp h2).1, h2]
    have hu : Unarmed ww1 ww.objs.length p.2 := ⟨ww.w.colls.length, by rw [ho]; simp, by rw [hc]; simp⟩
    obtain ⟨ww', tr, made', h1, h2, h3, h4, h5⟩ := ih (ww := ww1) (made := ww.objs.length :: made) (by
      intro q hq
      rcases h q (by simp [hq]) with hq | ⟨s, x, e, hx, hk⟩
      · exact Or.inl hq
      · refine Or.inr ⟨s, x, e, ?_, hk⟩
        simp only [WWorld.obj] at hx ⊢
        cases hg : ww.objs[s]? with
        | none => rw [hg] at hx; simp at hx
        | some y =>
          rw [hg] at hx
          rw [ho, List.getElem?_append_left (List.getElem?_eq_some_iff.mp hg).1, hg]
          exact hx)
    have hl : ww1.objs.length = ww.objs.length + 1 := by rw [ho]; simp
    refine ⟨ww', (p.1, log) :: tr, made' ++ [ww.objs.length], ?_, ?_, ?_, ?_, fun o kd h => h5 o kd (hk o kd h)⟩
    · simp only [List.map_cons, build, hs, ht, h1]
      simp
    · rw [List.nodup_append]
      refine ⟨h2, by simp, fun a ha b hb => ?_⟩
      have := (h3 a ha).1
      simp at hb
      omega
    · intro o hm
      rw [List.mem_append] at hm
      rcases hm with hm | hm
      · exact ⟨by have := (h3 o hm).1; omega, (h3 o hm).2⟩
      · simp at hm
        subst hm
        exact ⟨by omega, p.2, h5 _ _ hu⟩
    · intro q hq
      simp only [List.mem_cons] at hq
      rcases hq with rfl | hq
      · exact ⟨_, by simp, h5 _ _ hu⟩
      · obtain ⟨o, h6, h7⟩ := h4 q hq
        exact ⟨o, by simp [h6], h7⟩

theorem call_unarmed {w : World α} {c : Nat} {a : α} (h : w.colls[c]? = some []) :
    w.step (.call c a) = .ok (w, [.noMatch []]) := by
  simp [World.step, World.handleCall, h, scan, bind, Except.bind, pure, Except.pure]

theorem unwind_unarmed (os : List Nat) {ww : WWorld α} (hn : os.Nodup) (h : ∀ o ∈ os, ∃ kd, Unarmed ww o kd)
    (hl : ∃ o ∈ os, Unarmed ww o .lifetime) : ∃ why, unwind a0 ww os = .error (.terminate why) := by
  induction os generalizing ww with
  | nil => simp at hl
  | cons o os ih =>
    obtain ⟨kd, c, h1, h2⟩ := h o (by simp)
    cases kd with
    | lifetime =>
      refine ⟨"exception during stack unwinding", ?_⟩
      simp [unwind, WWorld.step, WWorld.obj, h1, WWorld.lib, call_unarmed h2, unresolved, Trigger.fails, thrown]
    | relocation =>
      have hs : ww.step a0 (.drop o) = .ok ({ ww with objs := ww.objs.set o ⟨.relocation, false, none, false⟩ }, []) := by
        simp [WWorld.step, WWorld.obj, h1]
      simp only [List.nodup_cons] at hn
      have hk : ∀ o' ∈ os, ∀ kd, Unarmed ww o' kd →
          Unarmed ({ ww with objs := ww.objs.set o ⟨.relocation, false, none, false⟩ } : WWorld α) o' kd := by
        rintro o' ho' kd ⟨c', h3, h4⟩
        refine ⟨c', ?_, h4⟩
        simp only
        rw [List.getElem?_set_ne (by rintro rfl; exact hn.1 ho'), h3]
      obtain ⟨why, hw⟩ := ih (ww := { ww with objs := ww.objs.set o ⟨.relocation, false, none, false⟩ }) hn.2
        (fun o' ho' => by obtain ⟨kd, hk'⟩ := h o' (by simp [ho']); exact ⟨kd, hk o' ho' kd hk'⟩) (by
          obtain ⟨o', ho', hl'⟩ := hl
          simp only [List.mem_cons] at ho'
          rcases ho' with rfl | ho'
          · obtain ⟨c', h3, _⟩ := hl'
            rw [h1] at h3
            simp at h3
          · exact ⟨o', ho', hk o' ho' _ hl'⟩)
      refine ⟨why, ?_⟩
      simp [unwind, hs, thrown, hw]

theorem construct_fails {cw : CWorld α} {base : BaseSpec} {kinds : List Watcher} (l : List (WOp α × Watcher))
    (h : ∀ p ∈ l, makesFresh cw.ww p.1 p.2) (hl : ∃ p ∈ l, p.2 = .lifetime) :
    ∃ why, cw.construct a0 base kinds false (l.map (·.1)) true = .error (.terminate why) := by
  obtain ⟨ww', tr, made', h1, h2, h3, h4, _⟩ := build_fresh (a0 := a0) (nothrow := false) l (made := []) h
  obtain ⟨p, hp, hk⟩ := hl
  obtain ⟨o, ho, hu⟩ := h4 p hp
  rw [hk] at hu
  rw [List.append_nil] at h1
  obtain ⟨why, hw⟩ := unwind_unarmed (a0 := a0) made' h2 (fun o ho => (h3 o ho).2) ⟨o, ho, hu⟩
  exact ⟨why, by simp [CWorld.construct, h1, hw]⟩

theorem WdInv.object {tr : CTrace α} {cw : CWorld α} (h : WdInv a0 tr cw) {c : Nat} {ps : List (Nat × Watcher)}
    (hp : tr.parts c = some ps) (hd : ¬ tr.dropped c) : ∃ x, cw.obj c = some x ∧ ps.map (·.1) = x.parts := by
  cases hx : cw.objs[c]? with
  | none =>
    rw [List.getElem?_eq_none_iff] at hx
    rw [h.fresh c hx] at hp
    simp at hp
  | some x =>
    obtain ⟨ps', h1, h2, _⟩ := h.parts c x hx
    rw [hp] at h1
    simp only [Option.some.injEq] at h1
    subst h1
    refine ⟨x, ?_, h2⟩
    have ha : x.alive = true := by
      cases ha : x.alive with
      | true => rfl
      | false => exact absurd ((h.dropped c x hx).mp ha) hd
    simp [CWorld.obj, hx, ha]

theorem WdInv.part_obj {tr : CTrace α} {cw : CWorld α} (h : WdInv a0 tr cw) {c : Nat} {ps : List (Nat × Watcher)}
    {x : Watched} (hx : cw.obj c = some x) (hp : tr.parts c = some ps) {p : Nat × Watcher} (hm : p ∈ ps) :
    ∃ y, cw.ww.obj p.1 = some y ∧ y.kind = p.2 := by
  obtain ⟨h1, h2⟩ := cobj_some hx
  obtain ⟨ps', h3, h4, _⟩ := h.parts c x h1
  rw [hp] at h3
  simp only [Option.some.injEq] at h3
  subst h3
  have ha := h.alive c x h1 h2 p.1 (by rw [← h4]; exact List.mem_map_of_mem hm)
  have hk := (h.reach.inv2.kind _ _).mp (h.kind c ps hp p hm)
  simp only [fieldAt, Option.map_eq_some_iff] at ha hk
  obtain ⟨y, hy, ha⟩ := ha
  obtain ⟨y', hy', hk⟩ := hk
  rw [hy] at hy'
  simp only [Option.some.injEq] at hy'
  subst hy'
  exact ⟨y, by simp [WWorld.obj, hy, ha], hk⟩

/-- The operations among `tr` that ended with an exception. -/
def failures (tr : WTrace α) : Nat := tr.countP (fun st => thrown st.2)

theorem unwind_failures {ww ww' : WWorld α} {os : List Nat} {tr : WTrace α} (h : unwind a0 ww os = .ok (ww', tr)) :
    failures tr = 0 := by
  induction os generalizing ww ww' tr with
  | nil => cases h; rfl
  | cons o os ih =>
    simp only [unwind] at h
    split at h
    · cases h
    · split at h
      · cases h
      · split at h
        · cases h
        · rename_i hr
          cases h
          have := ih hr
          grind [failures]

theorem build_failures {nothrow : Bool} {ww ww' : WWorld α} {made : List Nat} {ops : List (WOp α)} {tr : WTrace α}
    {r : Option (List Nat)} (h : build a0 nothrow ww made ops = .ok (ww', tr, r)) :
    failures tr ≤ 1 ∧ (r.isSome → failures tr = 0) := by
  induction ops generalizing ww ww' made tr r with
  | nil => cases h; simp [failures]
  | cons op ops ih =>
    simp only [build] at h
    split at h
    · cases h
    · split at h
      · split at h
        · cases h
        · split at h
          · cases h
          · rename_i hr
            cases h
            have := unwind_failures hr
            grind [failures]
      · split at h
        · cases h
        · rename_i hr
          cases h
          have := ih hr
          grind [failures]

theorem assign_failures {nothrow : Bool} {ww ww' : WWorld α} {ops : List (WOp α)} {tr : WTrace α} {r : Bool}
    (h : assign a0 nothrow ww ops = .ok (ww', tr, r)) : failures tr ≤ 1 := by
  induction ops generalizing ww ww' tr r with
  | nil => cases h; simp [failures]
  | cons op ops ih =>
    simp only [assign] at h
    split at h
    · cases h
    · split at h
      · split at h
        · cases h
        · cases h
          grind [failures]
      · split at h
        · cases h
        · rename_i hr
          cases h
          have := ih hr
          grind [failures]

theorem dropParts_failures {nothrow : Bool} {ww ww' : WWorld α} {threw : Bool} {os : List Nat} {tr : WTrace α} {r : Bool}
    (h : dropParts a0 nothrow ww threw os = .ok (ww', tr, r)) : failures tr ≤ if threw then 0 else 1 := by
  induction os generalizing ww ww' tr r threw with
  | nil => cases h; simp [failures]
  | cons o os ih =>
    simp only [dropParts] at h
    split at h
    · cases h
    · split at h
      · cases h
      · split at h
        · cases h
        · rename_i log _ _ _ _ _ hr
          cases h
          have := ih hr
          grind [failures]

theorem construct_failures {cw cw' : CWorld α} {base : BaseSpec} {kinds : List Watcher} {nothrow fails : Bool}
    {ops : List (WOp α)} {log : CLog α} (h : cw.construct a0 base kinds nothrow ops fails = .ok (cw', log)) :
    failures log.inner ≤ 1 := by
  simp only [CWorld.construct] at h
  split at h
  · cases h
  · rename_i hb
    cases h
    exact (build_failures hb).1
  · rename_i hb
    have hb := build_failures hb
    split at h
    · split at h
      · cases h
      · split at h
        · cases h
        · rename_i hr
          cases h
          have := unwind_failures hr
          grind [failures]
    · cases h
      exact hb.1

end Mimic
