import Verif.Proofs.Bridge

/-!
# Programs, histories and concrete histories for non-vacuity examples
-/

set_option autoImplicit false

namespace Mimic

variable {α : Type}

/-- Runs a program and records the history. -/
def World.record (w : World α) : List (Op α) → M (World α × Trace α)
  | [] => .ok (w, [])
  | op :: ops => do
    let (w', ev) ← w.step op
    let (w'', tr) ← w'.record ops
    return (w'', (op, ev) :: tr)

theorem record_reach (ops : List (Op α)) : ∀ {tr tr' : Trace α} {w w' : World α}, Reach tr w →
    w.record ops = .ok (w', tr') → Reach (tr ++ tr') w' := by
  induction ops with
  | nil =>
    intro tr tr' w w' h hr
    simp [World.record] at hr
    obtain ⟨rfl, rfl⟩ := hr
    simpa using h
  | cons op ops ih =>
    intro tr tr' w w' h hr
    simp only [World.record, bind, Except.bind] at hr
    cases hs : w.step op with
    | error x => rw [hs] at hr; simp at hr
    | ok r =>
      rw [hs] at hr
      simp only at hr
      cases hs' : r.1.record ops with
      | error x => rw [hs'] at hr; simp at hr
      | ok r' =>
        rw [hs'] at hr
        simp only [pure, Except.pure, Except.ok.injEq, Prod.mk.injEq] at hr
        obtain ⟨rfl, rfl⟩ := hr
        have := ih (h.step hs) hs'
        simpa using this

/-- The state and the history a program ends with (the fresh state if it does not survive). -/
def World.final (ops : List (Op α)) : World α × Trace α :=
  match World.init.record ops with
  | .ok r => r
  | .error _ => (World.init, [])

theorem reach_final (ops : List (Op α)) : Reach (World.final ops).2 (World.final ops).1 := by
  unfold World.final
  cases h : (World.init : World α).record ops with
  | error x => exact Reach.init
  | ok r =>
    have := record_reach ops Reach.init h
    simpa using this

theorem run_record (ops : List (Op α)) : ∀ (w : World α),
    w.run ops = (w.record ops).map (fun r => (r.1, r.2.flatMap (·.2))) := by
  induction ops with
  | nil => intro w; rfl
  | cons op ops ih =>
    intro w
    simp only [World.run, World.record, bind, Except.bind]
    cases w.step op with
    | error x => rfl
    | ok r =>
      simp only [ih r.1]
      cases r.1.record ops with
      | error x => rfl
      | ok r' => simp [Except.map, pure, Except.pure]

theorem record_ops (ops : List (Op α)) : ∀ {w w' : World α} {tr : Trace α},
    w.record ops = .ok (w', tr) → tr.map (·.1) = ops := by
  induction ops with
  | nil => intro w w' tr h; simp [World.record] at h; rw [h.2]; rfl
  | cons op ops ih =>
    intro w w' tr hr
    simp only [World.record, bind, Except.bind] at hr
    cases hs : w.step op with
    | error x => rw [hs] at hr; simp at hr
    | ok r =>
      rw [hs] at hr
      simp only at hr
      cases hs' : r.1.record ops with
      | error x => rw [hs'] at hr; simp at hr
      | ok r' =>
        rw [hs'] at hr
        simp only [pure, Except.pure, Except.ok.injEq, Prod.mk.injEq] at hr
        obtain ⟨rfl, rfl⟩ := hr
        simp [ih hs']

theorem record_append (ops : List (Op α)) (op : Op α) {w' w'' : World α} {tr : Trace α}
    {ev : List Event} (hs : w'.step op = .ok (w'', ev)) : ∀ {w : World α},
    w.record ops = .ok (w', tr) → w.record (ops ++ [op]) = .ok (w'', tr ++ [(op, ev)]) := by
  induction ops generalizing tr with
  | nil =>
    intro w h
    simp [World.record] at h
    obtain ⟨rfl, rfl⟩ := h
    simp [World.record, hs, bind, Except.bind, pure, Except.pure]
  | cons op' ops ih =>
    intro w hr
    simp only [World.record, bind, Except.bind] at hr
    simp only [List.cons_append, World.record, bind, Except.bind]
    cases hs' : w.step op' with
    | error x => rw [hs'] at hr; simp at hr
    | ok r =>
      rw [hs'] at hr
      simp only at hr
      cases hs'' : r.1.record ops with
      | error x => rw [hs''] at hr; simp at hr
      | ok r' =>
        rw [hs''] at hr
        simp only [pure, Except.pure, Except.ok.injEq, Prod.mk.injEq] at hr
        obtain ⟨h1, h2⟩ := hr
        simp only
        have h3 : r.1.record ops = .ok (w', r'.2) := by rw [hs'', ← h1]
        rw [ih h3]
        simp [pure, Except.pure, ← h2]

theorem reach_record {tr : Trace α} {w : World α} (h : Reach tr w) :
    World.init.record (tr.map (·.1)) = .ok (w, tr) := by
  induction h with
  | init => rfl
  | step hr hs ih =>
    rw [List.map_append]
    exact record_append _ _ hs ih

/-- Histories are exactly what running client programs produces. -/
theorem runProgram_iff (ops : List (Op α)) (w : World α) (evs : List Event) :
    runProgram ops = .ok (w, evs) ↔ ∃ tr, Reach tr w ∧ tr.map (·.1) = ops ∧ tr.events = evs := by
  unfold runProgram
  rw [run_record]
  constructor
  · intro h
    cases hr : (World.init : World α).record ops with
    | error x => rw [hr] at h; simp [Except.map] at h
    | ok r =>
      rw [hr] at h
      simp [Except.map] at h
      refine ⟨r.2, ?_, record_ops ops hr, h.2⟩
      have := record_reach ops Reach.init hr
      rw [← h.1]
      simpa using this
  · rintro ⟨tr, h1, h2, h3⟩
    have := reach_record h1
    rw [h2] at this
    rw [this]
    simp only [Except.map, ← h3]
    rfl

/-! ### Concrete ingredients for examples -/

/-- A policy that accepts exactly the given value. -/
def onlyArg (n : Nat) : Policy Nat :=
  { accepts := fun a => some (a == n), isSatisfied := true, description := none }

/-- A policy whose matcher throws. -/
def throwing : Policy Nat :=
  { accepts := fun _ => none, isSatisfied := true, description := none }

end Mimic
