import Verif.Proofs.Combined
import Verif.Props.WatchedObjects
import Verif.Props.WatchedProgress

/-!
# C111: the rules for watched objects of the client's own types are complete
-/

set_option autoImplicit false

namespace Mimic.Combined

variable {α : Type} {a0 : Trigger α}

/-- C111: one step: the library carries out an operation exactly if there is a rule for it, and then what the rule says happens. -/
theorem C111_step {tr : CTrace α} {cw : CWorld α} (h : CReach a0 tr cw) (op : COp α) (log : CLog α) :
    (∃ cw', cw.step a0 op = .ok (cw', log)) ↔ Rule a0 tr op log :=
  step_iff h op log

/-- C111: the histories of clients with watched objects of their own types are exactly those that keep the rules. -/
theorem C111_histories (tr : CTrace α) : (∃ cw, CReach a0 tr cw) ↔ Lawful a0 tr := by
  constructor
  · rintro ⟨cw, h⟩
    induction h with
    | init => intro pre op log post he; simp at he
    | @step tr cw cw' op log h hs ih =>
      intro pre op' log' post he
      rcases List.eq_nil_or_concat post with rfl | ⟨l', st, rfl⟩
      · obtain ⟨rfl, h3⟩ := List.append_inj' he rfl
        simp only [List.cons.injEq, Prod.mk.injEq, and_true] at h3
        obtain ⟨rfl, rfl⟩ := h3
        exact (C111_step h _ _).mp ⟨_, hs⟩
      · have h2 : tr ++ [(op, log)] = (pre ++ (op', log') :: l') ++ [st] := by rw [he]; simp
        exact ih pre op' log' l' (List.append_inj' h2 rfl).1
  · have aux : ∀ (l pre : CTrace α) (cw : CWorld α), CReach a0 pre cw → Lawful a0 (pre ++ l) → ∃ cw', CReach a0 (pre ++ l) cw' := by
      intro l
      induction l with
      | nil => intro pre cw h _; rw [List.append_nil]; exact ⟨cw, h⟩
      | cons st l ih =>
        intro pre cw h hl
        obtain ⟨cw', hs⟩ := (C111_step h _ _).mpr (hl pre st.1 st.2 l rfl)
        have he : pre ++ st :: l = (pre ++ [st]) ++ l := by simp
        rw [he] at hl ⊢
        exact ih _ _ (.step h hs) hl
    intro h
    exact aux tr [] _ .init h

/-- C111: the rules leave no choice. -/
theorem C111_determined {tr : CTrace α} (h : Lawful a0 tr) {op : COp α} {log log' : CLog α} (h1 : Rule a0 tr op log)
    (h2 : Rule a0 tr op log') : log = log' := by
  obtain ⟨cw, hr⟩ := (C111_histories tr).mpr h
  obtain ⟨_, e1⟩ := (C111_step hr _ _).mpr h1
  obtain ⟨_, e2⟩ := (C111_step hr _ _).mpr h2
  rw [e1] at e2
  simp only [Except.ok.injEq, Prod.mk.injEq] at e2
  exact e2.2

/-- C111: a client that does the same sees the same. -/
theorem C111_unique {tr tr' : CTrace α} (h : Lawful a0 tr) (h' : Lawful a0 tr') (he : tr.map (·.1) = tr'.map (·.1)) : tr = tr' := by
  have aux : ∀ (l pre l' : CTrace α), Lawful a0 (pre ++ l) → Lawful a0 (pre ++ l') → l.map (·.1) = l'.map (·.1) → l = l' := by
    intro l
    induction l with
    | nil => intro pre l' _ _ he; cases l' with | nil => rfl | cons _ _ => simp at he
    | cons st l ih =>
      intro pre l' h h' he
      cases l' with
      | nil => simp at he
      | cons st' l' =>
        obtain ⟨op, log⟩ := st
        obtain ⟨op', log'⟩ := st'
        simp only [List.map_cons, List.cons.injEq] at he
        obtain ⟨rfl, he⟩ := he
        have hp : Lawful a0 pre := by
          intro pre' op' log'' post e
          exact h pre' op' log'' (post ++ (op, log) :: l) (by rw [e]; simp)
        have := C111_determined hp (h pre op log l rfl) (h' pre op log' l' rfl)
        subst this
        have := ih (pre ++ [(op, log)]) l' (by simpa using h) (by simpa using h') he
        rw [this]
  exact aux tr [] tr' h h' he

/-- C111: when the program is terminated. For an operation on what exists, which does not get to an object that carries nothing (C35) and
does not attach anything to a sequence that is full (C17), that is so exactly if there is no rule for it. -/
theorem C111_terminates {tr : CTrace α} {cw : CWorld α} (h : CReach a0 tr cw) {op : COp α} (hv : tr.valid op)
    (hf : ∀ o ∈ tr.work op, ¬ tr.flat.overfull o) (hs : ¬ StuckIn a0 tr.flat (tr.work op)) :
    (∃ why, cw.step a0 op = .error (.terminate why)) ↔ ∀ log, ¬ Rule a0 tr op log := by
  constructor
  · rintro ⟨why, he⟩ log hl
    obtain ⟨_, e⟩ := (C111_step h _ _).mpr hl
    rw [he] at e
    cases e
  · intro hn
    rcases C49_progress h hv hf with ⟨cw', log, e⟩ | e | e
    · exact absurd ((C111_step h _ _).mp ⟨_, e⟩) (hn log)
    · exact e
    · exact absurd e hs

/-- C111: any other library with watched objects, whatever its states are and however it works, that does what the rules say whenever
they say something, and does nothing else, cannot be told from this one. -/
theorem C111_interchangeable {σ : Type} (start : σ) (step : σ → COp α → Option (σ × CLog α))
    (hdoes : ∀ tr q op, Runs step start tr q → Lawful a0 tr → (∃ log, Rule a0 tr op log) →
      ∃ q' log, step q op = some (q', log) ∧ Rule a0 tr op log)
    (hnot : ∀ tr q op, Runs step start tr q → Lawful a0 tr → (¬ ∃ log, Rule a0 tr op log) → step q op = none) (tr : CTrace α) :
    (∃ q, Runs step start tr q) ↔ ∃ cw, CReach a0 tr cw := by
  constructor
  · rintro ⟨q, hq⟩
    induction hq with
    | init => exact ⟨_, .init⟩
    | @step tr q q' op log hq hs ih =>
      obtain ⟨cw, hr⟩ := ih
      have hl := (C111_histories tr).mp ⟨_, hr⟩
      by_cases hx : ∃ log, Rule a0 tr op log
      · obtain ⟨q2, log2, e, h2⟩ := hdoes tr q op hq hl hx
        rw [hs] at e
        simp only [Option.some.injEq, Prod.mk.injEq] at e
        obtain ⟨-, rfl⟩ := e
        obtain ⟨cw', hw⟩ := (C111_step hr _ _).mpr h2
        exact ⟨cw', .step hr hw⟩
      · rw [hnot tr q op hq hl hx] at hs
        cases hs
  · rintro ⟨cw, hr⟩
    induction hr with
    | init => exact ⟨_, .init⟩
    | @step tr cw cw' op log hr hs ih =>
      obtain ⟨q, hq⟩ := ih
      have hl := (C111_histories tr).mp ⟨_, hr⟩
      have h1 := (C111_step hr _ _).mp ⟨_, hs⟩
      obtain ⟨q', log2, e, h2⟩ := hdoes tr q op hq hl ⟨_, h1⟩
      have := C111_determined hl h1 h2
      subst this
      exact ⟨q', .step hq e⟩

/-! ### The rules at work -/

open WatcherExamples (calm)
open WatchedExamples

/-- Lifetime watcher first, an unexpected move: the new lifetime watcher has taken the watch already and is destroyed, which is reported.
This history keeps the rules. -/
example : Lawful calm ([(.create loose [.lifetime, .relocation] false,
      ⟨[(.create .lifetime, [.lib .newMock [.mockCreated 0], .object 0 .lifetime, .born 0 0]),
        (.create .relocation, [.lib .newMock [.mockCreated 1], .object 1 .relocation, .born 1 1])], some 0, false⟩),
    (.expect 0 0 0 0 [] [], ⟨[(.expect 0 0 0 [] [], [.lib (.expect 0 1 1 [] []) [.created 0]])], none, false⟩),
    (.move 0 false,
      ⟨[(.move 0, [.object 2 .lifetime]),
        (.move 1, [.lib .newMock [.mockCreated 2], .lib (.call 1 ()) [.noMatch []], .exception]),
        (.drop 2, [.lib (.call 0 ()) [.fullMatch 0]])], none, true⟩),
    (.drop 0, ⟨[(.drop 1, []), (.drop 0, [])], none, false⟩)] : CTrace Unit) :=
  (C111_histories _).mp ⟨_, run_reach (ops := [.create loose [.lifetime, .relocation] false, .expect 0 0 0 0 [] [], .move 0 false,
    .drop 0]) .init rfl⟩

/-- There is no rule for an unexpected move if the client's class promises not to throw: the program is terminated. The hypotheses of
`C111_terminates` can be met. -/
example : ∃ (tr : CTrace Unit) (cw : CWorld Unit), CReach calm tr cw ∧ tr.valid (.move 0 false) ∧
    (∀ o ∈ tr.work (.move 0 false), ¬ tr.flat.overfull o) ∧ ¬ StuckIn calm tr.flat (tr.work (.move 0 false)) ∧
    ∀ log, ¬ Rule calm tr (.move 0 false) log := by
  have h : CReach calm _ _ := run_reach (ops := [.create strict [.relocation] false]) .init rfl
  refine ⟨_, _, h, (exists_obj h 0).mpr ⟨_, rfl⟩, ?_, ?_, fun log hl => ?_⟩
  · intro o ho
    obtain rfl : o = .move 0 := List.mem_singleton.mp ho
    rintro ⟨m, min, max, seqs, ps, -, h | ⟨o, h, -⟩ | ⟨o, _, _, -, -, h, -⟩⟩ <;> cases h
  · rintro ⟨b, ww, op, -, h1, -, o, -, h2, h3⟩
    obtain ⟨rest, he⟩ := h1
    replace he : b.map (·.1) ++ [op] ++ rest = [WOp.move 0] := he
    cases b with
    | cons st b => simp at he
    | nil =>
      simp only [List.map_nil, List.nil_append, List.cons_append, List.cons.injEq] at he
      obtain ⟨rfl, -⟩ := he
      have ho : o = 0 := by
        rcases h3 with ⟨⟨_, _, _, _, h3⟩ | h3, -⟩ | ⟨-, h3 | ⟨_, h3, -⟩⟩ <;> cases h3
        rfl
      subst ho
      exact h2 0 (by rw [List.append_nil, h.inv.reach.inv.carries]; rfl)
  · obtain ⟨_, e⟩ := (C111_step h _ _).mpr hl
    cases e

/-- An assignment whose second watcher throws leaves the rest as it was; and a destructor that throws destroys the rest. -/
example : ∃ tr : CTrace Unit, Lawful calm tr ∧
    Rule calm tr (.copyAssign 0 1 false) ⟨[(.copyAssign 0 2, [.lib .newMock [.mockCreated 4], .born 0 4]),
      (.copyAssign 1 3, [.lib (.call 1 ()) [.noMatch []], .exception])], none, true⟩ ∧
    Rule calm tr (.drop 0) ⟨[(.drop 1, [.lib (.call 1 ()) [.noMatch []], .exception]), (.drop 0, [])], none, true⟩ := by
  have h : CReach calm _ _ := run_reach (ops := [.create loose [.relocation, .lifetime] false, .copy 0 false]) .init rfl
  exact ⟨_, (C111_histories _).mp ⟨_, h⟩, (C111_step h _ _).mp ⟨_, rfl⟩, (C111_step h _ _).mp ⟨_, rfl⟩⟩

end Mimic.Combined
