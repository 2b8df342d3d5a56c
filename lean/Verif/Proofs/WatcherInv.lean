import Verif.Proofs.Watcher

/-!
# The state of the watchers and the history
-/

set_option autoImplicit false
set_option linter.unusedSimpArgs false

namespace Mimic

variable {α : Type} {a0 : Trigger α}

theorem carries_snoc {tr : WTrace α} {op : WOp α} {log : List (WEvent α)} {o k : Nat} :
    (tr ++ [(op, log)] : WTrace α).carries o k ↔ WEvent.born o k ∈ log ∨ (∃ s, movesTo op log s o ∧ tr.carries s k) ∨
      (tr.carries o k ∧ ¬ leaves op log o) := by
  simp [WTrace.carries, CarriesRev]

theorem armed_snoc {tr : WTrace α} {op : WOp α} {log : List (WEvent α)} {o : Nat} :
    (tr ++ [(op, log)] : WTrace α).armed o ↔ (∃ min max tags ps, op = .expect o min max tags ps) ∨ op = .abandon o ∨
      (∃ s, movesTo op log s o ∧ tr.armed s) ∨
      (tr.armed o ∧ ¬ (∃ s, s ≠ o ∧ op = .moveAssign o s) ∧ ¬ (completed log ∧ ∃ s, op = .copyAssign o s)) := by
  simp [WTrace.armed, ArmedRev]

theorem isKind_snoc {tr : WTrace α} {op : WOp α} {log : List (WEvent α)} {o : Nat} {kd : Watcher} :
    (tr ++ [(op, log)] : WTrace α).isKind o kd ↔ tr.isKind o kd ∨ WEvent.object o kd ∈ log := by
  simp [WTrace.isKind, or_and_right, exists_or]

theorem watch_snoc {tr : WTrace α} {op : WOp α} {log : List (WEvent α)} {k : Nat} :
    (tr ++ [(op, log)] : WTrace α).watch k ↔ tr.watch k ∨ ∃ o, WEvent.born o k ∈ log := by
  simp [WTrace.watch, or_and_right, exists_or]

theorem flat_snoc {tr : WTrace α} {op : WOp α} {log : List (WEvent α)} :
    (tr ++ [(op, log)] : WTrace α).flat = tr.flat ++ libOps log := by
  simp [WTrace.flat]

/-- The watch of object `o`. -/
def mockAt (objs : List WatchObj) (o : Nat) : Option Nat := (objs[o]?).bind (·.mock)

theorem mockAt_set (objs : List WatchObj) (i o : Nat) (x : WatchObj) :
    mockAt (objs.set i x) o = if i = o then (if i < objs.length then x.mock else none) else mockAt objs o := by
  unfold mockAt
  rw [List.getElem?_set]
  split
  · split <;> rfl
  · rfl

theorem mockAt_push (objs : List WatchObj) (o : Nat) (x : WatchObj) :
    mockAt (objs ++ [x]) o = if o = objs.length then x.mock else mockAt objs o := by
  unfold mockAt
  by_cases h : o < objs.length
  · rw [List.getElem?_append_left h, if_neg (by omega)]
  · rw [List.getElem?_append_right (by omega)]
    by_cases h' : o = objs.length
    · simp [h']
    · rw [if_neg h']
      have h1 : objs[o]? = none := List.getElem?_eq_none (by omega)
      have h2 : ([x] : List WatchObj)[o - objs.length]? = none := List.getElem?_eq_none (by simp; omega)
      rw [h1, h2]

theorem mockAt_lt {objs : List WatchObj} {o k : Nat} (h : mockAt objs o = some k) : o < objs.length := by
  unfold mockAt at h
  cases hx : objs[o]? with
  | none => rw [hx] at h; simp at h
  | some x => exact (List.getElem?_eq_some_iff.mp hx).1

theorem obj_some {ww : WWorld α} {o : Nat} {x : WatchObj} (h : ww.obj o = some x) :
    ww.objs[o]? = some x ∧ x.alive = true ∧ o < ww.objs.length ∧ mockAt ww.objs o = x.mock := by
  unfold WWorld.obj at h
  split at h
  · rename_i y hy
    split at h
    · rename_i ha
      simp only [Option.some.injEq] at h
      subst h
      exact ⟨hy, ha, (List.getElem?_eq_some_iff.mp hy).1, by simp [mockAt, hy]⟩
    · simp at h
  · simp at h

/-- The relation between the history and the state. -/
structure WInv (tr : WTrace α) (ww : WWorld α) : Prop where
  reach : Reach tr.flat ww.w
  owned : ∀ k ∈ ww.owned, k < ww.w.colls.length
  mock : ∀ o k, mockAt ww.objs o = some k → k ∈ ww.owned
  inj : ∀ o o' k, mockAt ww.objs o = some k → mockAt ww.objs o' = some k → o = o'
  carries : ∀ o k, tr.carries o k ↔ mockAt ww.objs o = some k
  watch : ∀ k, tr.watch k → k ∈ ww.owned

theorem newMock_ok (w : World α) :
    w.step .newMock = .ok ({ w with colls := w.colls ++ [[]] }, [.mockCreated w.colls.length]) := rfl

theorem colls_call {tr : Trace α} {w w' : World α} (h : Reach tr w) {c : Nat} {a : α} {ev : List Event}
    (hs : w.step (.call c a) = .ok (w', ev)) : w'.colls.length = w.colls.length :=
  (step_lengths h hs).2

theorem colls_expect {tr : Trace α} {w w' : World α} (h : Reach tr w) {c : Nat} {min max : Int} {tags : List Nat}
    {ps : List (Policy α)} {ev : List Event}
    (hs : w.step (.expect c min max tags ps) = .ok (w', ev)) : w'.colls.length = w.colls.length :=
  (step_lengths h hs).2

theorem grown_reach {tr : Trace α} {ww : WWorld α} (h : Reach tr ww.w) :
    Reach (tr ++ [(.newMock, [.mockCreated ww.w.colls.length])]) ww.grown.w := .step h (newMock_ok ww.w)

theorem WStep.reach {tr : WTrace α} {ww ww' : WWorld α} {op : WOp α} {log : List (WEvent α)} (h : Reach tr.flat ww.w)
    (hs : WStep a0 ww op ww' log) : Reach (tr ++ [(op, log)] : WTrace α).flat ww'.w := by
  rw [flat_snoc]
  cases hs with
  | plain _ hs => exact .step h hs
  | make _ => exact grown_reach h
  | moveL _ _ => simpa [libOps] using h
  | moveR _ _ _ hs _ =>
    have := Reach.step (grown_reach h) hs
    simpa [libOps, List.append_assoc] using this
  | moveRfail _ _ _ hs _ =>
    have := Reach.step (grown_reach h) hs
    simpa [libOps, List.append_assoc] using this
  | copyAssign _ _ _ _ => exact grown_reach h
  | copyAssignL _ _ _ _ _ hs _ =>
    have := Reach.step (Reach.step h hs) (newMock_ok _)
    simpa [libOps, List.append_assoc] using this
  | copyAssignLfail _ _ _ _ _ hs _ => exact .step h hs
  | moveAssignSelfL _ _ => simpa [libOps] using h
  | moveAssignL _ _ _ _ _ => simpa [libOps] using h
  | moveAssignSelfR _ _ _ hs _ => exact .step h hs
  | moveAssignR _ _ _ _ _ _ hs _ => exact .step h hs
  | moveAssignRfail _ _ _ _ _ hs _ => exact .step h hs
  | dropSilent _ _ => simpa [libOps] using h
  | @dropL _ _ _ _ ev _ _ _ hs =>
    have := Reach.step h hs
    cases a0.fails ev <;> simpa [libOps] using this
  | refused _ _ _ _ => simpa [libOps] using h
  | expectL _ _ _ _ hs => exact .step h hs
  | expectR _ _ _ hs => exact .step h hs
  | abandonL _ _ _ _ => simpa [libOps] using h
  | abandonR _ _ _ => simpa [libOps] using h

theorem WInv.init : WInv ([] : WTrace α) WWorld.init := by
  constructor
  · exact .init
  · simp [WWorld.init]
  · simp [WWorld.init, mockAt]
  · simp [WWorld.init, mockAt]
  · simp [WWorld.init, mockAt, WTrace.carries, CarriesRev]
  · simp [WTrace.watch]

theorem mockAt_len (objs : List WatchObj) : mockAt objs objs.length = none := by simp [mockAt]

theorem WInv.step {tr : WTrace α} {ww ww' : WWorld α} {op : WOp α} {log : List (WEvent α)} (h : WInv tr ww)
    (hs : WStep a0 ww op ww' log) : WInv (tr ++ [(op, log)]) ww' := by
  have hr := hs.reach h.reach
  have hlt : ∀ o k, mockAt ww.objs o = some k → o < ww.objs.length := fun o k => mockAt_lt
  have hfr : ∀ o, mockAt ww.objs o ≠ some ww.w.colls.length := by
    intro o ho
    have := h.owned _ (h.mock o _ ho)
    omega
  have hlen := mockAt_len ww.objs
  obtain ⟨h1, h2, h3, h4, h5, h6⟩ := h
  cases hs with
  | plain _ hs =>
    have hc := (step_lengths h1 hs).2
    refine ⟨hr, fun k hk => by have := h2 k hk; simp only; omega, h3, h4, fun o k => ?_, fun k hk => ?_⟩
    · rw [carries_snoc]; simp [movesTo, leaves, h5]
    · rw [watch_snoc] at hk; exact h6 k (by simpa using hk)
  | make hop =>
    refine ⟨hr, ?_, ?_, ?_, fun o k => ?_, fun k hk => ?_⟩
    · grind [WWorld.grown]
    · grind [WWorld.grown, mockAt_push]
    · grind [WWorld.grown, mockAt_push]
    · rw [carries_snoc]
      rcases hop with rfl | ⟨src, x, rfl, _, _⟩ <;> simp [movesTo, leaves, h5, mockAt_push] <;> grind
    · rw [watch_snoc] at hk
      simp at hk
      grind [WWorld.grown]
  | moveL hx hk =>
    obtain ⟨g1, g2, g3, g4⟩ := obj_some hx
    refine ⟨hr, h2, ?_, ?_, fun o k => ?_, fun k hk => ?_⟩
    · grind [mockAt_push, mockAt_set]
    · grind [mockAt_push, mockAt_set]
    · rw [carries_snoc]
      simp [movesTo, leaves, completed, h5, mockAt_push, mockAt_set]
      grind
    · rw [watch_snoc] at hk
      simp at hk
      exact h6 k hk
  | @moveR src c x w' ev hx hk hc hs hu =>
    obtain ⟨g1, g2, g3, g4⟩ := obj_some hx
    have hl := colls_call (grown_reach h1) hs
    have hl2 : ww.grown.w.colls.length = ww.w.colls.length + 1 := by simp [WWorld.grown]
    refine ⟨hr, ?_, ?_, ?_, fun o k => ?_, fun k hk => ?_⟩
    · grind [WWorld.grown]
    · grind [mockAt_push, mockAt_set, WWorld.grown]
    · grind [mockAt_push, mockAt_set, WWorld.grown]
    · rw [carries_snoc]
      simp [movesTo, leaves, completed, h5, mockAt_push, mockAt_set]
      grind
    · rw [watch_snoc] at hk
      simp at hk
      have := h6 k hk
      simp [WWorld.grown, this]
  | @moveRfail src c x w' ev hx hk hc hs hu =>
    obtain ⟨g1, g2, g3, g4⟩ := obj_some hx
    have hl := colls_call (grown_reach h1) hs
    have hl2 : ww.grown.w.colls.length = ww.w.colls.length + 1 := by simp [WWorld.grown]
    refine ⟨hr, ?_, ?_, ?_, fun o k => ?_, fun k hk => ?_⟩
    · grind [WWorld.grown]
    · grind [WWorld.grown]
    · grind [WWorld.grown]
    · rw [carries_snoc]
      simp [movesTo, leaves, completed, h5, WWorld.grown]
    · rw [watch_snoc] at hk
      simp at hk
      have := h6 k hk
      simp [WWorld.grown, this]
  | @copyAssign dst src x y hx hy hxy hm =>
    obtain ⟨g1, g2, g3, g4⟩ := obj_some hx
    refine ⟨hr, ?_, ?_, ?_, fun o k => ?_, fun k hk => ?_⟩
    · grind [WWorld.grown]
    · grind [mockAt_set, WWorld.grown]
    · grind [mockAt_set, WWorld.grown]
    · rw [carries_snoc]
      simp [movesTo, leaves, completed, h5, mockAt_set]
      grind
    · rw [watch_snoc] at hk
      simp at hk
      grind [WWorld.grown]
  | @copyAssignL dst src c x y w' ev hx hy hxy hk hc hs hu =>
    obtain ⟨g1, g2, g3, g4⟩ := obj_some hx
    have hl := colls_call h1 hs
    refine ⟨hr, ?_, ?_, ?_, fun o k => ?_, fun k hk => ?_⟩
    · grind
    · grind [mockAt_set]
    · grind [mockAt_set]
    · rw [carries_snoc]
      simp [movesTo, leaves, completed, h5, mockAt_set]
      grind
    · rw [watch_snoc] at hk
      simp at hk
      grind
  | @copyAssignLfail dst src c x y w' ev hx hy hxy hk hc hs hu =>
    obtain ⟨g1, g2, g3, g4⟩ := obj_some hx
    have hl := colls_call h1 hs
    refine ⟨hr, ?_, ?_, ?_, fun o k => ?_, fun k hk => ?_⟩
    · grind
    · grind [mockAt_set]
    · grind [mockAt_set]
    · rw [carries_snoc]
      simp [movesTo, leaves, completed, h5, mockAt_set]
      grind
    · rw [watch_snoc] at hk
      simp at hk
      grind
  | moveAssignSelfL hx hk =>
    refine ⟨hr, h2, h3, h4, fun o k => ?_, fun k hk => ?_⟩
    · rw [carries_snoc]
      simp [movesTo, leaves, completed, h5]
      grind
    · rw [watch_snoc] at hk
      exact h6 k (by simpa using hk)
  | @moveAssignL dst src x y hx hy hxk hyk hne =>
    obtain ⟨g1, g2, g3, g4⟩ := obj_some hx
    obtain ⟨f1, f2, f3, f4⟩ := obj_some hy
    refine ⟨hr, h2, ?_, ?_, fun o k => ?_, fun k hk => ?_⟩
    · grind [mockAt_set]
    · grind [mockAt_set]
    · rw [carries_snoc]
      simp [movesTo, leaves, completed, h5, mockAt_set]
      grind
    · rw [watch_snoc] at hk
      exact h6 k (by simpa using hk)
  | moveAssignSelfR hx hk hc hs hu =>
    have hl := colls_call h1 hs
    refine ⟨hr, fun k hk => by have := h2 k hk; simp only; omega, h3, h4, fun o k => ?_, fun k hk => ?_⟩
    · rw [carries_snoc]
      simp [movesTo, leaves, completed, h5]
      grind
    · rw [watch_snoc] at hk
      exact h6 k (by simpa using hk)
  | @moveAssignR dst src c x y w' ev hx hy hxk hyk hc hne hs hu =>
    obtain ⟨g1, g2, g3, g4⟩ := obj_some hx
    obtain ⟨f1, f2, f3, f4⟩ := obj_some hy
    have hl := colls_call h1 hs
    refine ⟨hr, fun k hk => by have := h2 k hk; simp only; omega, ?_, ?_, fun o k => ?_, fun k hk => ?_⟩
    · grind [mockAt_set]
    · grind [mockAt_set]
    · rw [carries_snoc]
      simp [movesTo, leaves, completed, h5, mockAt_set]
      grind
    · rw [watch_snoc] at hk
      exact h6 k (by simpa using hk)
  | moveAssignRfail hx hy hxk hyk hc hs hu =>
    have hl := colls_call h1 hs
    refine ⟨hr, fun k hk => by have := h2 k hk; simp only; omega, h3, h4, fun o k => ?_, fun k hk => ?_⟩
    · rw [carries_snoc]
      simp [movesTo, leaves, completed, h5]
    · rw [watch_snoc] at hk
      exact h6 k (by simpa using hk)
  | @dropSilent o x hx hm =>
    obtain ⟨g1, g2, g3, g4⟩ := obj_some hx
    refine ⟨hr, h2, ?_, ?_, fun o k => ?_, fun k hk => ?_⟩
    · grind [mockAt_set]
    · grind [mockAt_set]
    · rw [carries_snoc]
      simp [movesTo, leaves, completed, h5, mockAt_set]
      grind
    · rw [watch_snoc] at hk
      exact h6 k (by simpa using hk)
  | @dropL o c x w' ev hx hk hc hs =>
    obtain ⟨g1, g2, g3, g4⟩ := obj_some hx
    have hl := colls_call h1 hs
    refine ⟨hr, fun k hk => by have := h2 k hk; simp only; omega, ?_, ?_, fun o k => ?_, fun k hk => ?_⟩
    · grind [mockAt_set]
    · grind [mockAt_set]
    · rw [carries_snoc]
      cases a0.fails ev <;> simp [movesTo, leaves, completed, h5, mockAt_set] <;> grind
    · rw [watch_snoc] at hk
      exact h6 k (by cases hu : a0.fails ev <;> simpa [hu] using hk)
  | refused hx hk hh hop =>
    refine ⟨hr, h2, h3, h4, fun o k => ?_, fun k hk => ?_⟩
    · rw [carries_snoc]
      rcases hop with ⟨_, _, _, _, rfl⟩ | rfl <;> simp [movesTo, leaves, completed, h5]
    · rw [watch_snoc] at hk
      exact h6 k (by simpa using hk)
  | @expectL o c x min max tags ps w' ev hx hk hh hc hs =>
    obtain ⟨g1, g2, g3, g4⟩ := obj_some hx
    have hl := colls_expect h1 hs
    refine ⟨hr, fun k hk => by have := h2 k hk; simp only; omega, ?_, ?_, fun o k => ?_, fun k hk => ?_⟩
    · grind [mockAt_set]
    · grind [mockAt_set]
    · rw [carries_snoc]
      simp [movesTo, leaves, completed, h5, mockAt_set]
      grind
    · rw [watch_snoc] at hk
      exact h6 k (by simpa using hk)
  | expectR hx hk hc hs =>
    have hl := colls_expect h1 hs
    refine ⟨hr, fun k hk => by have := h2 k hk; simp only; omega, h3, h4, fun o k => ?_, fun k hk => ?_⟩
    · rw [carries_snoc]
      simp [movesTo, leaves, completed, h5]
    · rw [watch_snoc] at hk
      exact h6 k (by simpa using hk)
  | @abandonL o c x hx hk hh hc =>
    obtain ⟨g1, g2, g3, g4⟩ := obj_some hx
    refine ⟨hr, h2, ?_, ?_, fun o k => ?_, fun k hk => ?_⟩
    · grind [mockAt_set]
    · grind [mockAt_set]
    · rw [carries_snoc]
      simp [movesTo, leaves, completed, h5, mockAt_set]
      grind
    · rw [watch_snoc] at hk
      exact h6 k (by simpa using hk)
  | abandonR hx hk hc =>
    refine ⟨hr, h2, h3, h4, fun o k => ?_, fun k hk => ?_⟩
    · rw [carries_snoc]
      simp [movesTo, leaves, completed, h5]
    · rw [watch_snoc] at hk
      exact h6 k (by simpa using hk)

theorem WReach.inv {tr : WTrace α} {ww : WWorld α} (h : WReach a0 tr ww) : WInv tr ww := by
  induction h with
  | init => exact .init
  | step _ hs ih => exact ih.step (.of_step hs)

/-- One member of object `o`. -/
def fieldAt {β : Type} (f : WatchObj → β) (objs : List WatchObj) (o : Nat) : Option β := (objs[o]?).map f

theorem fieldAt_set {β : Type} (f : WatchObj → β) (objs : List WatchObj) (i o : Nat) (x : WatchObj) :
    fieldAt f (objs.set i x) o = if i = o then (if i < objs.length then some (f x) else none) else fieldAt f objs o := by
  unfold fieldAt
  rw [List.getElem?_set]
  split
  · split <;> rfl
  · rfl

theorem fieldAt_push {β : Type} (f : WatchObj → β) (objs : List WatchObj) (o : Nat) (x : WatchObj) :
    fieldAt f (objs ++ [x]) o = if o = objs.length then some (f x) else fieldAt f objs o := by
  unfold fieldAt
  by_cases h : o < objs.length
  · rw [List.getElem?_append_left h, if_neg (by omega)]
  · rw [List.getElem?_append_right (by omega)]
    by_cases h' : o = objs.length
    · simp [h']
    · rw [if_neg h']
      have h1 : objs[o]? = none := List.getElem?_eq_none (by omega)
      have h2 : ([x] : List WatchObj)[o - objs.length]? = none := List.getElem?_eq_none (by simp; omega)
      rw [h1, h2]

theorem fieldAt_lt {β : Type} {f : WatchObj → β} {objs : List WatchObj} {o : Nat} {b : β}
    (h : fieldAt f objs o = some b) : o < objs.length := by
  unfold fieldAt at h
  cases hx : objs[o]? with
  | none => rw [hx] at h; simp at h
  | some x => exact (List.getElem?_eq_some_iff.mp hx).1

theorem fieldAt_len {β : Type} (f : WatchObj → β) (objs : List WatchObj) : fieldAt f objs objs.length = none := by
  simp [fieldAt]

/-- Flags, kinds and existence of objects. -/
structure WInv2 (tr : WTrace α) (ww : WWorld α) : Prop where
  armedLt : ∀ o, tr.armed o → o < ww.objs.length
  armed : ∀ o, fieldAt (·.kind) ww.objs o = some .lifetime → (tr.armed o ↔ fieldAt (·.has) ww.objs o = some true)
  kind : ∀ o kd, tr.isKind o kd ↔ fieldAt (·.kind) ww.objs o = some kd
  dropped : ∀ o log, (WOp.drop o, log) ∈ tr → o < ww.objs.length
  alive : ∀ o, o < ww.objs.length → (fieldAt (·.alive) ww.objs o = some true ↔ ∀ log, (WOp.drop o, log) ∉ tr)

theorem WInv2.init : WInv2 ([] : WTrace α) WWorld.init := by
  constructor <;> simp [WWorld.init, WTrace.armed, ArmedRev, WTrace.isKind, fieldAt]

theorem obj_fields {ww : WWorld α} {o : Nat} {x : WatchObj} (h : ww.obj o = some x) :
    o < ww.objs.length ∧ fieldAt (·.kind) ww.objs o = some x.kind ∧ fieldAt (·.has) ww.objs o = some x.has ∧
    fieldAt (·.alive) ww.objs o = some true ∧ x.alive = true := by
  obtain ⟨h1, h2, h3, _⟩ := obj_some h
  refine ⟨h3, ?_, ?_, ?_, h2⟩ <;> simp only [fieldAt, h1, Option.map_some, h2]

theorem WInv2.step {tr : WTrace α} {ww ww' : WWorld α} {op : WOp α} {log : List (WEvent α)} (h : WInv2 tr ww)
    (hs : WStep a0 ww op ww' log) : WInv2 (tr ++ [(op, log)]) ww' := by
  obtain ⟨h1, h2, h3, h4, h5⟩ := h
  have hlenk := fieldAt_len (·.kind) ww.objs
  have hlenh := fieldAt_len (·.has) ww.objs
  have hlena := fieldAt_len (·.alive) ww.objs
  have hk : ∀ o b, fieldAt (·.kind) ww.objs o = some b → o < ww.objs.length := fun o b => fieldAt_lt
  have hh : ∀ o b, fieldAt (·.has) ww.objs o = some b → o < ww.objs.length := fun o b => fieldAt_lt
  have ha : ∀ o b, fieldAt (·.alive) ww.objs o = some b → o < ww.objs.length := fun o b => fieldAt_lt
  refine ⟨fun o ho => ?_, fun o hx => ?_, fun o kd => ?_, fun o log hl => ?_, fun o hx => ?_⟩
  · rw [armed_snoc] at ho
    cases hs with
    | plain _ _ => simp [movesTo] at ho; exact h1 o ho
    | make hop => rcases hop with rfl | ⟨src, x, rfl, _, _⟩ <;> simp [movesTo] at ho ⊢ <;> grind
    | moveL hx _ => have := obj_fields hx; simp [movesTo, completed] at ho ⊢; grind
    | moveR hx _ _ _ _ => have := obj_fields hx; simp [movesTo, completed] at ho ⊢; grind
    | moveRfail hx _ _ _ _ => have := obj_fields hx; simp [movesTo, completed] at ho ⊢; grind [WWorld.grown]
    | copyAssign hx hy _ _ => have := obj_fields hx; simp [movesTo, completed] at ho ⊢; grind
    | copyAssignL hx hy _ _ _ _ _ => have := obj_fields hx; simp [movesTo, completed] at ho ⊢; grind
    | copyAssignLfail hx hy _ _ _ _ _ => have := obj_fields hx; simp [movesTo, completed] at ho ⊢; grind
    | moveAssignSelfL hx _ => have := obj_fields hx; simp [movesTo, completed] at ho ⊢; grind
    | moveAssignL hx hy _ _ _ =>
      have := obj_fields hx; have := obj_fields hy; simp [movesTo, completed] at ho ⊢; grind
    | moveAssignSelfR hx _ _ _ _ => have := obj_fields hx; simp [movesTo, completed] at ho ⊢; grind
    | moveAssignR hx hy _ _ _ _ _ _ =>
      have := obj_fields hx; have := obj_fields hy; simp [movesTo, completed] at ho ⊢; grind
    | moveAssignRfail hx hy _ _ _ _ _ =>
      have := obj_fields hx; have := obj_fields hy; simp [movesTo, completed] at ho ⊢; grind
    | dropSilent hx _ => simp [movesTo, completed] at ho ⊢; grind
    | dropL hx _ _ _ => simp [movesTo, completed] at ho ⊢; grind
    | refused hx _ _ hop =>
      have := obj_fields hx
      rcases hop with ⟨_, _, _, _, rfl⟩ | rfl <;> simp [movesTo, completed] at ho ⊢ <;> grind
    | expectL hx _ _ _ _ => have := obj_fields hx; simp [movesTo, completed] at ho ⊢; grind
    | expectR hx _ _ _ => have := obj_fields hx; simp [movesTo, completed] at ho ⊢; grind
    | abandonL hx _ _ _ => have := obj_fields hx; simp [movesTo, completed] at ho ⊢; grind
    | abandonR hx _ _ => have := obj_fields hx; simp [movesTo, completed] at ho ⊢; grind
  · rw [armed_snoc]
    cases hs with
    | plain _ _ => simp [movesTo] at hx ⊢; exact h2 o hx
    | make hop =>
      rcases hop with rfl | ⟨src, x, rfl, _, _⟩ <;> simp [movesTo, fieldAt_push] at hx ⊢ <;> grind
    | moveL hy _ => have := obj_fields hy; simp [movesTo, completed, fieldAt_push, fieldAt_set] at hx ⊢; grind
    | moveR hy _ _ _ _ => have := obj_fields hy; simp [movesTo, completed, fieldAt_push, fieldAt_set] at hx ⊢; grind
    | moveRfail hy _ _ _ _ => simp [movesTo, completed, WWorld.grown] at hx ⊢; grind
    | copyAssign hy hz _ _ =>
      have := obj_fields hy; simp [movesTo, completed, fieldAt_push, fieldAt_set] at hx ⊢; grind
    | copyAssignL hy hz _ _ _ _ _ =>
      have := obj_fields hy; simp [movesTo, completed, fieldAt_push, fieldAt_set] at hx ⊢; grind
    | copyAssignLfail hy hz _ _ _ _ _ =>
      have := obj_fields hy; simp [movesTo, completed, fieldAt_push, fieldAt_set] at hx ⊢; grind
    | moveAssignSelfL hy _ => have := obj_fields hy; simp [movesTo, completed] at hx ⊢; grind
    | moveAssignL hy hz _ _ _ =>
      have := obj_fields hy; have := obj_fields hz
      simp [movesTo, completed, fieldAt_push, fieldAt_set] at hx ⊢; grind
    | moveAssignSelfR hy _ _ _ _ => have := obj_fields hy; simp [movesTo, completed] at hx ⊢; grind
    | moveAssignR hy hz _ _ _ _ _ _ =>
      have := obj_fields hy; have := obj_fields hz
      simp [movesTo, completed, fieldAt_push, fieldAt_set] at hx ⊢; grind
    | moveAssignRfail hy hz _ _ _ _ _ =>
      have := obj_fields hy; have := obj_fields hz; simp [movesTo, completed] at hx ⊢; grind
    | dropSilent hy _ => have := obj_fields hy; simp [movesTo, completed, fieldAt_set] at hx ⊢; grind
    | dropL hy _ _ _ => have := obj_fields hy; simp [movesTo, completed, fieldAt_set] at hx ⊢; grind
    | refused hy _ _ hop =>
      have := obj_fields hy
      rcases hop with ⟨_, _, _, _, rfl⟩ | rfl <;> simp [movesTo, completed] at hx ⊢ <;> grind
    | expectL hy _ _ _ _ => have := obj_fields hy; simp [movesTo, completed, fieldAt_set] at hx ⊢; grind
    | expectR hy _ _ _ => have := obj_fields hy; simp [movesTo, completed] at hx ⊢; grind
    | abandonL hy _ _ _ => have := obj_fields hy; simp [movesTo, completed, fieldAt_set] at hx ⊢; grind
    | abandonR hy _ _ => have := obj_fields hy; simp [movesTo, completed] at hx ⊢; grind
  · rw [isKind_snoc, h3]
    cases hs with
    | plain _ _ => simp
    | make hop => simp [fieldAt_push]; grind
    | moveL hy _ => have := obj_fields hy; simp [fieldAt_push, fieldAt_set]; grind
    | moveR hy _ _ _ _ => have := obj_fields hy; simp [fieldAt_push, fieldAt_set]; grind
    | moveRfail hy _ _ _ _ => simp [WWorld.grown]
    | copyAssign hy hz _ _ => have := obj_fields hy; simp [fieldAt_set]; grind
    | copyAssignL hy hz _ _ _ _ _ => have := obj_fields hy; simp [fieldAt_set]; grind
    | copyAssignLfail hy hz _ _ _ _ _ => have := obj_fields hy; simp [fieldAt_set]; grind
    | moveAssignSelfL hy _ => simp
    | moveAssignL hy hz _ _ _ => have := obj_fields hy; have := obj_fields hz; simp [fieldAt_set]; grind
    | moveAssignSelfR hy _ _ _ _ => simp
    | moveAssignR hy hz _ _ _ _ _ _ => have := obj_fields hy; have := obj_fields hz; simp [fieldAt_set]; grind
    | moveAssignRfail hy hz _ _ _ _ _ => simp
    | dropSilent hy _ => have := obj_fields hy; simp [fieldAt_set]; grind
    | dropL hy _ _ _ => have := obj_fields hy; simp [fieldAt_set]; grind
    | refused hy _ _ hop => simp
    | expectL hy _ _ _ _ => have := obj_fields hy; simp [fieldAt_set]; grind
    | expectR hy _ _ _ => simp
    | abandonL hy _ _ _ => have := obj_fields hy; simp [fieldAt_set]; grind
    | abandonR hy _ _ => simp
  · cases hs with
    | make hop => rcases hop with rfl | ⟨src, x, rfl, _, _⟩ <;> simp at hl ⊢ <;> grind
    | dropSilent hy _ => have := obj_fields hy; simp at hl ⊢; grind
    | dropL hy _ _ _ => have := obj_fields hy; simp at hl ⊢; grind
    | refused hy _ _ hop => rcases hop with ⟨_, _, _, _, rfl⟩ | rfl <;> simp at hl ⊢ <;> grind
    | _ => simp [WWorld.grown] at hl ⊢; grind
  · cases hs with
    | make hop => rcases hop with rfl | ⟨src, x, rfl, _, _⟩ <;> simp [fieldAt_push] at hx ⊢ <;> grind
    | moveL hy _ => have := obj_fields hy; simp [fieldAt_push, fieldAt_set] at hx ⊢; grind
    | moveR hy _ _ _ _ => have := obj_fields hy; simp [fieldAt_push, fieldAt_set] at hx ⊢; grind
    | copyAssign hy hz _ _ => have := obj_fields hy; simp [fieldAt_set] at hx ⊢; grind
    | copyAssignL hy hz _ _ _ _ _ => have := obj_fields hy; simp [fieldAt_set] at hx ⊢; grind
    | copyAssignLfail hy hz _ _ _ _ _ => have := obj_fields hy; simp [fieldAt_set] at hx ⊢; grind
    | moveAssignL hy hz _ _ _ => have := obj_fields hy; have := obj_fields hz; simp [fieldAt_set] at hx ⊢; grind
    | moveAssignR hy hz _ _ _ _ _ _ => have := obj_fields hy; have := obj_fields hz; simp [fieldAt_set] at hx ⊢; grind
    | dropSilent hy _ => have := obj_fields hy; simp [fieldAt_set] at hx ⊢; grind
    | dropL hy _ _ _ => have := obj_fields hy; simp [fieldAt_set] at hx ⊢; grind
    | refused hy _ _ hop => rcases hop with ⟨_, _, _, _, rfl⟩ | rfl <;> simp at hx ⊢ <;> grind
    | expectL hy _ _ _ _ => have := obj_fields hy; simp [fieldAt_set] at hx ⊢; grind
    | abandonL hy _ _ _ => have := obj_fields hy; simp [fieldAt_set] at hx ⊢; grind
    | _ => simp [WWorld.grown] at hx ⊢; grind

theorem WReach.inv2 {tr : WTrace α} {ww : WWorld α} (h : WReach a0 tr ww) : WInv2 tr ww := by
  induction h with
  | init => exact .init
  | step _ hs ih => exact ih.step (.of_step hs)

end Mimic
