import Verif.Proofs.Watchful

/-!
# C110: the rules for watched objects are complete
-/

set_option autoImplicit false

namespace Mimic.Watchful

variable {α : Type} {a0 : Trigger α}

/-- C110: the histories of clients that use watched objects are exactly those that keep the rules. -/
theorem C110_histories (tr : WTrace α) : (∃ ww, WReach a0 tr ww) ↔ Lawful a0 tr :=
  ⟨fun ⟨_, h⟩ => reach_lawful h, fun h => by simpa using lawful_reach_aux tr (pre := []) .init h⟩

/-- C110: one step: the library carries out an operation exactly if there is a rule for it, and then what the rule says happens. -/
theorem C110_step {tr : WTrace α} {ww : WWorld α} (h : WReach a0 tr ww) (op : WOp α) (log : List (WEvent α)) :
    (∃ ww', ww.step a0 op = .ok (ww', log)) ↔ Rule a0 tr op log :=
  ⟨fun ⟨_, hs⟩ => rule_of_step h hs, step_of_rule h⟩

/-- C110: the rules leave no choice. -/
theorem C110_determined {tr : WTrace α} (h : Lawful a0 tr) {op : WOp α} {log log' : List (WEvent α)} (h1 : Rule a0 tr op log)
    (h2 : Rule a0 tr op log') : log = log' := by
  obtain ⟨ww, hr⟩ := (C110_histories tr).mpr h
  obtain ⟨_, e1⟩ := step_of_rule hr h1
  obtain ⟨_, e2⟩ := step_of_rule hr h2
  rw [e1] at e2
  simp only [Except.ok.injEq, Prod.mk.injEq] at e2
  exact e2.2

/-- C110: the rules say something about everything the client may do: an operation on what exists, which does not use an object that
carries nothing (C35) and does not attach anything to a sequence that is full (C17). -/
theorem C110_complete {tr : WTrace α} (h : Lawful a0 tr) {op : WOp α} (hv : tr.valid op) (hu : ¬ tr.undefined op)
    (hf : ¬ tr.overfull op) : ∃ log, Rule a0 tr op log := by
  obtain ⟨ww, hr⟩ := (C110_histories tr).mpr h
  obtain ⟨_, log, hs⟩ := C34_progress hr hv hu hf
  exact ⟨log, rule_of_step hr hs⟩

/-- C110: there is no rule for using an object that carries nothing. -/
theorem C110_undefined {tr : WTrace α} (h : Lawful a0 tr) {op : WOp α} (hu : tr.undefined op) (log : List (WEvent α)) :
    ¬ Rule a0 tr op log := by
  obtain ⟨ww, hr⟩ := (C110_histories tr).mpr h
  intro hl
  obtain ⟨_, e1⟩ := step_of_rule hr hl
  obtain ⟨_, e2⟩ := (C35_undefined hr op).mpr hu
  rw [e1] at e2
  cases e2

/-- C110: a client that does the same sees the same. -/
theorem C110_unique {tr tr' : WTrace α} (h : Lawful a0 tr) (h' : Lawful a0 tr') (he : tr.map (·.1) = tr'.map (·.1)) : tr = tr' := by
  have aux : ∀ (l pre l' : WTrace α), Lawful a0 (pre ++ l) → Lawful a0 (pre ++ l') → l.map (·.1) = l'.map (·.1) → l = l' := by
    intro l
    induction l with
    | nil => intro pre l' _ _ he; cases l' with | nil => rfl | cons _ _ => simp at he
    | cons st l ih =>
      intro pre l' h h' he
      cases l' with
      | nil => simp at he
      | cons st' l' =>
        obtain ⟨op, log⟩ := st
        obtain ⟨op', log'⟩ := st'
        simp only [List.map_cons, List.cons.injEq] at he
        obtain ⟨rfl, he⟩ := he
        have hp : Lawful a0 pre := by
          intro pre' op' log'' post e
          exact h pre' op' log'' (post ++ (op, log) :: l) (by rw [e]; simp)
        have := C110_determined hp (h pre op log l rfl) (h' pre op log' l' rfl)
        subst this
        have := ih (pre ++ [(op, log)]) l' (by simpa using h) (by simpa using h') he
        rw [this]
  exact aux tr [] tr' h h' he

/-- C110: any other library with watched objects, whatever its states are and however it works, that does what the rules say whenever
they say something, and does nothing else, cannot be told from this one. -/
theorem C110_interchangeable {σ : Type} (start : σ) (step : σ → WOp α → Option (σ × List (WEvent α)))
    (hdoes : ∀ tr q op, Runs step start tr q → Lawful a0 tr → (∃ log, Rule a0 tr op log) →
      ∃ q' log, step q op = some (q', log) ∧ Rule a0 tr op log)
    (hnot : ∀ tr q op, Runs step start tr q → Lawful a0 tr → (¬ ∃ log, Rule a0 tr op log) → step q op = none) (tr : WTrace α) :
    (∃ q, Runs step start tr q) ↔ ∃ ww, WReach a0 tr ww := by
  constructor
  · rintro ⟨q, hq⟩
    induction hq with
    | init => exact ⟨_, .init⟩
    | @step tr q q' op log hq hs ih =>
      obtain ⟨ww, hr⟩ := ih
      have hl := reach_lawful hr
      by_cases hx : ∃ log, Rule a0 tr op log
      · obtain ⟨q2, log2, e, h2⟩ := hdoes tr q op hq hl hx
        rw [hs] at e
        simp only [Option.some.injEq, Prod.mk.injEq] at e
        obtain ⟨-, rfl⟩ := e
        obtain ⟨ww', hw⟩ := step_of_rule hr h2
        exact ⟨ww', .step hr hw⟩
      · rw [hnot tr q op hq hl hx] at hs
        cases hs
  · rintro ⟨ww, hr⟩
    induction hr with
    | init => exact ⟨_, .init⟩
    | @step tr ww ww' op log hr hs ih =>
      obtain ⟨q, hq⟩ := ih
      have hl := reach_lawful hr
      have h1 := rule_of_step hr hs
      obtain ⟨q', log2, e, h2⟩ := hdoes tr q op hq hl ⟨_, h1⟩
      have := C110_determined hl h1 h2
      subst this
      exact ⟨q', .step hq e⟩

/-! ### The rules at work -/

open WatcherExamples

/-- An object whose end is expected is moved, and the new one ends: the history keeps the rules. -/
example : Lawful calm ([(.create .lifetime, [.lib .newMock [.mockCreated 0], .object 0 .lifetime, .born 0 0]),
    (.expect 0 7 8 [] [], [.lib (.expect 0 1 1 [] []) [.created 0]]),
    (.move 0, [.object 1 .lifetime]),
    (.drop 0, []),
    (.drop 1, [.lib (.call 0 ()) [.fullMatch 0]]),
    (.plain (.destroy 0), [.lib (.destroy 0) [.destroyed 0]])] : WTrace Unit) :=
  reach_lawful (run_reach (ops := [.create .lifetime, .expect 0 7 8 [] [], .move 0, .drop 0, .drop 1, .plain (.destroy 0)]) .init rfl)

/-- The same without the report of the end does not keep the rules: no such thing can be observed. -/
example (ww : WWorld Unit) : ¬ WReach calm ([(.create .lifetime, [.lib .newMock [.mockCreated 0], .object 0 .lifetime, .born 0 0]),
    (.expect 0 7 8 [] [], [.lib (.expect 0 1 1 [] []) [.created 0]]),
    (.move 0, [.object 1 .lifetime]),
    (.drop 1, [])] : WTrace Unit) ww := by
  intro h
  have h1 := reach_lawful (run_reach (ops := [.create .lifetime, .expect 0 7 8 [] [], .move 0, .drop 1]) (a0 := calm) .init rfl)
  have := C110_unique (reach_lawful h) h1 rfl
  simp at this

/-- Moves that nobody expects: the report ends with an exception, and there is no new object. -/
example : Lawful calm ([(.create .relocation, [.lib .newMock [.mockCreated 0], .object 0 .relocation, .born 0 0]),
    (.move 0, [.lib .newMock [.mockCreated 1], .lib (.call 0 ()) [.noMatch []], .exception]),
    (.expect 0 0 1 [] [], [.lib (.expect 0 0 1 [] []) [.created 0]]),
    (.move 0, [.lib .newMock [.mockCreated 2], .lib (.call 0 ()) [.fullMatch 0], .object 1 .relocation]),
    (.copyAssign 0 1, [.lib .newMock [.mockCreated 3], .born 0 3]),
    (.moveAssign 0 1, [.lib (.call 0 ()) [.inapplicable [0]], .exception])] : WTrace Unit) :=
  reach_lawful (run_reach (ops := [.create .relocation, .move 0, .expect 0 0 1 [] [], .move 0, .copyAssign 0 1, .moveAssign 0 1]) .init rfl)

/-- There is a rule for what the client may do next, and none for using what carries nothing. -/
example : ∃ tr : WTrace Unit, Lawful calm tr ∧ (∃ log, Rule calm tr (.drop 0) log) ∧ ∀ log, ¬ Rule calm tr (.abandon 0) log := by
  let tr : WTrace Unit := [(.create .lifetime, [.lib .newMock [.mockCreated 0], .object 0 .lifetime, .born 0 0]), (.move 0, [.object 1 .lifetime])]
  have h2 : WReach calm tr _ := run_reach (ops := [.create .lifetime, .move 0]) .init rfl
  refine ⟨tr, reach_lawful h2, ⟨[], (C110_step h2 _ _).mp ⟨_, rfl⟩⟩, fun log hl => ?_⟩
  · obtain ⟨_, e⟩ := (C110_step h2 _ _).mpr hl
    cases e

end Mimic.Watchful
