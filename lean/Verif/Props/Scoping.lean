import Verif.Proofs.Scoping

/-!
# C112: the rules for scoped expectations and reporters are complete
-/

set_option autoImplicit false

namespace Mimic.Scoping

variable {α : Type}

/-- C112: the histories of clients that hold their expectations by `ScopedExpectation`s, with whatever reporters, are exactly those that
keep the rules. -/
theorem C112_histories (tr : STrace α) : (∃ sw, SReach tr sw) ↔ Lawful tr :=
  ⟨fun ⟨_, h⟩ => reach_lawful h, fun h => by simpa using lawful_reach_aux tr (pre := []) .init h⟩

/-- C112: one step: an operation comes to its end exactly if there is a rule for it, and then what the rule says happens. -/
theorem C112_step {tr : STrace α} {sw : SWorld α} (h : SReach tr sw) (c : Ctx) (op : SOp α) (log : SLog α) :
    (∃ sw', sw.step c op = .ok (sw', log)) ↔ Rule tr c op log :=
  ⟨fun ⟨_, hs⟩ => rule_of_step h hs, step_of_rule h⟩

/-- C112: the program is terminated exactly if the rules say so. -/
theorem C112_terminates {tr : STrace α} {sw : SWorld α} (h : SReach tr sw) (c : Ctx) (op : SOp α) :
    (∃ why, sw.step c op = .error (.terminate why)) ↔ Terminates tr c op := by
  have hf := fate h c op
  constructor
  · rintro ⟨why, hs⟩
    rw [hs] at hf
    cases hf with | terminates ht => exact ht
  · intro ht
    generalize sw.step c op = r at hf
    cases hf with
    | rule hr => exact absurd ht (rule_not_terminates h hr)
    | terminates _ => exact ⟨_, rfl⟩
    | undefined hu => exact absurd hu (terminates_not_undefined ht)
    | client hc => exact absurd (terminates_allowed h ht) hc

/-- C112: there is undefined behaviour exactly if the rules say so. -/
theorem C112_undefined {tr : STrace α} {sw : SWorld α} (h : SReach tr sw) (c : Ctx) (op : SOp α) :
    (∃ why, sw.step c op = .error (.ub why)) ↔ Undefined tr c op := by
  have hf := fate h c op
  constructor
  · rintro ⟨why, hs⟩
    rw [hs] at hf
    cases hf with | undefined ht => exact ht
  · intro ht
    generalize sw.step c op = r at hf
    cases hf with
    | rule hr => exact absurd ht (rule_not_undefined hr)
    | terminates hu => exact absurd ht (terminates_not_undefined hu)
    | undefined _ => exact ⟨_, rfl⟩
    | client hc => exact absurd (undefined_allowed ht) hc

/-- C112: the rules leave no choice, and an operation that they let come to its end neither terminates the program nor is undefined. -/
theorem C112_determined {tr : STrace α} (h : Lawful tr) {c : Ctx} {op : SOp α} {log : SLog α} (h1 : Rule tr c op log) :
    (∀ log', Rule tr c op log' → log' = log) ∧ ¬ Terminates tr c op ∧ ¬ Undefined tr c op := by
  obtain ⟨sw, hr⟩ := (C112_histories tr).mpr h
  exact ⟨fun _ h2 => rule_unique hr h2 h1, rule_not_terminates hr h1, rule_not_undefined h1⟩

/-- C112: the rules say something about everything that a client may do, and about nothing else. -/
theorem C112_complete {tr : STrace α} (h : Lawful tr) (c : Ctx) (op : SOp α) :
    Allowed tr op ↔ (∃ log, Rule tr c op log) ∨ Terminates tr c op ∨ Undefined tr c op := by
  obtain ⟨sw, hr⟩ := (C112_histories tr).mpr h
  constructor
  · intro ha
    have hf := fate hr c op
    generalize sw.step c op = r at hf
    cases hf with
    | rule h1 => exact .inl ⟨_, h1⟩
    | terminates h1 => exact .inr (.inl h1)
    | undefined h1 => exact .inr (.inr h1)
    | client hc => exact absurd ha hc
  · rintro (⟨_, h1⟩ | h1 | h1)
    · exact rule_allowed hr h1
    · exact terminates_allowed hr h1
    · exact undefined_allowed h1

/-- C112: with a reporter that keeps the rules of the interface, nothing is undefined but asking an object that was moved from; and the
program is terminated exactly where a sequence is full, where a sequence ends too early while no exception is on its way, and where an
assignment ends an expectation that has to be reported then. -/
theorem C112_lawful_reporter {tr : STrace α} (h : Lawful tr) {c : Ctx} (hR : c.reporter.Lawful) (op : SOp α) :
    (Undefined tr c op ↔ ∃ o, op = .isSatisfied o ∧ tr.exists o ∧ ∀ e, ¬ tr.owns o e) ∧
    (Terminates tr c op ↔
      (∃ m min max ss ps, op = .expect m min max ss ps ∧ tr.flat.valid (.expect m min max ss ps) ∧ tr.flat.overflows (.expect m min max ss ps)) ∨
      (c.uncaught = 0 ∧
        ((∃ s ev, op = .plain (.dropSequence s) ∧ Watchful.Next tr.flat (.dropSequence s) ev ∧ sequenceErrorIn ev) ∨
         (∃ o e ev, op = .drop o ∧ tr.owns o e ∧ Watchful.Next tr.flat (.destroy e) ev ∧ ¬ tr.flat.unmet e ∧ sequenceErrorIn ev) ∨
         ∃ d s e ev, op = .moveAssign d s ∧ d ≠ s ∧ tr.exists s ∧ tr.owns d e ∧ Watchful.Next tr.flat (.destroy e) ev ∧
           (tr.flat.unmet e ∨ sequenceErrorIn ev)))) := by
  obtain ⟨sw, hr⟩ := (C112_histories tr).mpr h
  have hb : ∀ ev, ¬ Breaks c ev := by
    rintro ev ⟨_, (⟨_, h1⟩ | ⟨_, h1⟩)⟩
    · exact h1 (hR.noMatches _)
    · exact h1 (hR.inapplicableMatches _)
  have hU : Throws c .unfulfilledExpectation ↔ c.uncaught = 0 := hR.unfulfilledExpectation _
  have hE : Throws c .error ↔ c.uncaught = 0 := hR.error _
  have hM : ¬ ThrowsMeanwhile c .error := fun ht => by have := (hR.error _).mp ht; omega
  have hk : ∀ ev, Kills c ev ↔ sequenceErrorIn ev ∧ c.uncaught = 0 ∧ ∀ x, ¬ Leaves c ev x := by
    intro ev
    constructor
    · intro hk
      cases hk with
      | fullMatch _ ht => unfold Throws at ht; rw [hR.fullMatch] at ht; cases ht
      | unhandled _ ht => unfold Throws at ht; rw [hR.unhandledException] at ht; cases ht
      | sequence h1 h2 h3 => exact ⟨⟨_, _, _, h1⟩, hE.mp h3, h2⟩
      | second _ _ h3 => exact absurd h3 hM
    · rintro ⟨⟨s, k, n, h1⟩, h2, h3⟩
      exact .sequence h1 h3 (hE.mpr h2)
  have hd : ∀ {e ev}, Watchful.Next tr.flat (.destroy e) ev → ((∃ x, Leaves c ev x) ↔ tr.flat.unmet e ∧ c.uncaught = 0) := by
    intro e ev hn
    obtain ⟨w', hs⟩ := (Watchful.next_iff hr.inv.reach _ _).mp hn
    obtain ⟨rest, hrest, hcase⟩ := destroy_report hr.inv.reach hs
    rw [← hU]
    rcases hcase with ⟨hu, rfl⟩ | ⟨hu, rfl⟩
    · constructor
      · rintro ⟨x, hx⟩
        refine ⟨hu, ?_⟩
        cases hx with
        | unfulfilled _ ht => exact ht
        | noMatch h1 => simp at h1; exact absurd (hrest _ h1) (by simp [seqEvent])
        | inapplicable h1 => simp at h1; exact absurd (hrest _ h1) (by simp [seqEvent])
        | rejected h1 => simp at h1; exact absurd (hrest _ h1) (by simp [seqEvent])
      · rintro ⟨_, ht⟩; exact ⟨_, .unfulfilled (e := e) (by simp) ht⟩
    · constructor
      · rintro ⟨x, hx⟩
        exact absurd hx (seqEvent_leaves (by simpa using fun x hx => .inl (hrest x hx)) x)
      · rintro ⟨h1, _⟩; exact absurd h1 hu
  constructor
  · constructor
    · intro hu
      cases hu with
      | plain _ _ h1 => exact absurd h1 (hb _)
      | isSatisfied hx h1 => exact ⟨_, rfl, hx, h1⟩
    · rintro ⟨o, rfl, hx, h1⟩; exact .isSatisfied hx h1
  · constructor
    · intro ht
      cases ht with
      | @plain op ev ho hn h1 =>
        right
        obtain ⟨h2, h3, h4⟩ := (hk _).mp h1
        refine ⟨h3, .inl ?_⟩
        obtain ⟨s, k, n, h2'⟩ := h2
        have hp := hn.2.2
        cases hp with
        | newSequence _ => simp at h2'
        | newMock _ => simp at h2'
        | created _ _ _ _ => exact ho.elim
        | rejected _ => exact ho.elim
        | call _ hl =>
          simp at h2'
          subst h2'
          cases hl
        | drop hh => exact ⟨_, _, rfl, hn, ⟨_, _, _, h2'⟩⟩
        | fulfilled _ _ _ => exact ho.elim
        | unfulfilled _ _ _ => exact ho.elim
      | full hv hf => exact .inl ⟨_, _, _, _, _, rfl, hv, hf⟩
      | drop ho hn h1 =>
        obtain ⟨h2, h3, h4⟩ := (hk _).mp h1
        refine .inr ⟨h3, .inr (.inl ⟨_, _, _, rfl, ho, hn, fun hu => ?_, h2⟩)⟩
        obtain ⟨x, hx⟩ := (hd hn).mpr ⟨hu, h3⟩
        exact h4 x hx
      | moveAssign ho hx hne hn h1 =>
        right
        rcases h1 with h1 | h1
        · obtain ⟨h2, h3, h4⟩ := (hk _).mp h1
          exact ⟨h3, .inr (.inr ⟨_, _, _, _, rfl, hne, hx, ho, hn, .inr h2⟩)⟩
        · obtain ⟨h2, h3⟩ := (hd hn).mp h1
          exact ⟨h3, .inr (.inr ⟨_, _, _, _, rfl, hne, hx, ho, hn, .inl h2⟩)⟩
    · rintro (⟨m, min, max, ss, ps, rfl, hv, hf⟩ | ⟨h0, (⟨s, ev, rfl, hn, h2⟩ | ⟨o, e, ev, rfl, ho, hn, hu, h2⟩ |
        ⟨d, s, e, ev, rfl, hne, hx, ho, hn, h2⟩)⟩)
      · exact .full hv hf
      · obtain ⟨w', hs⟩ := (Watchful.next_iff hr.inv.reach _ _).mp hn
        have hq := dropSequence_events hs
        exact .plain trivial hn ((hk _).mpr ⟨h2, h0, seqEvent_leaves (fun x hx => .inl (hq x hx))⟩)
      · refine .drop ho hn ((hk _).mpr ⟨h2, h0, fun x hx => ?_⟩)
        exact hu ((hd hn).mp ⟨x, hx⟩).1
      · refine .moveAssign ho hx hne hn ?_
        by_cases hl : ∃ x, Leaves c ev x
        · exact .inr hl
        · rcases h2 with h2 | h2
          · exact absurd ((hd hn).mpr ⟨h2, h0⟩) hl
          · exact .inl ((hk _).mpr ⟨h2, h0, fun x hx => hl ⟨x, hx⟩⟩)

/-- C112: a client that does the same under the same circumstances sees the same. -/
theorem C112_unique {tr tr' : STrace α} (h : Lawful tr) (h' : Lawful tr')
    (he : tr.map (fun st => (st.ctx, st.op)) = tr'.map (fun st => (st.ctx, st.op))) : tr = tr' := by
  have aux : ∀ (l pre l' : STrace α), Lawful (pre ++ l) → Lawful (pre ++ l') →
      l.map (fun st => (st.ctx, st.op)) = l'.map (fun st => (st.ctx, st.op)) → l = l' := by
    intro l
    induction l with
    | nil => intro pre l' _ _ he; cases l' with | nil => rfl | cons _ _ => simp at he
    | cons st l ih =>
      intro pre l' h h' he
      cases l' with
      | nil => simp at he
      | cons st' l' =>
        obtain ⟨c, op, log⟩ := st
        obtain ⟨c', op', log'⟩ := st'
        simp only [List.map_cons, List.cons.injEq, Prod.mk.injEq] at he
        obtain ⟨⟨rfl, rfl⟩, he⟩ := he
        have := (C112_determined (lawful_prefix h) (h pre _ l rfl)).1 _ (h' pre ⟨c, op, log'⟩ l' rfl)
        simp only at this
        subst this
        have := ih (pre ++ [⟨c, op, log'⟩]) l' (by simpa using h) (by simpa using h') he
        rw [this]
  exact aux tr [] tr' h h' he

/-- C112: any other library with scoped expectations, whatever its states are and however it works, that does what the rules say whenever
they let an operation come to its end, and lets no other operation come to its end, cannot be told from this one. -/
theorem C112_interchangeable {σ : Type} (start : σ) (step : σ → Ctx → SOp α → Option (σ × SLog α))
    (hdoes : ∀ tr q c op, Runs step start tr q → Lawful tr → (∃ log, Rule tr c op log) →
      ∃ q' log, step q c op = some (q', log) ∧ Rule tr c op log)
    (hnot : ∀ tr q c op, Runs step start tr q → Lawful tr → (¬ ∃ log, Rule tr c op log) → step q c op = none) (tr : STrace α) :
    (∃ q, Runs step start tr q) ↔ ∃ sw, SReach tr sw := by
  constructor
  · rintro ⟨q, hq⟩
    induction hq with
    | init => exact ⟨_, .init⟩
    | @step tr q q' c op log hq hs ih =>
      obtain ⟨sw, hr⟩ := ih
      have hl := reach_lawful hr
      by_cases hx : ∃ log, Rule tr c op log
      · obtain ⟨q2, log2, e, h2⟩ := hdoes tr q c op hq hl hx
        rw [hs] at e
        simp only [Option.some.injEq, Prod.mk.injEq] at e
        obtain ⟨-, rfl⟩ := e
        obtain ⟨sw', hw⟩ := step_of_rule hr h2
        exact ⟨sw', .step hr hw⟩
      · rw [hnot tr q c op hq hl hx] at hs
        cases hs
  · rintro ⟨sw, hr⟩
    induction hr with
    | init => exact ⟨_, .init⟩
    | @step tr sw sw' c op log hr hs ih =>
      obtain ⟨q, hq⟩ := ih
      have hl := reach_lawful hr
      have h1 := rule_of_step hr hs
      obtain ⟨q', log2, e, h2⟩ := hdoes tr q c op hq hl ⟨_, h1⟩
      have := (C112_determined hl h1).1 _ h2
      subst this
      exact ⟨q', .step hq e⟩

/-! ### The rules at work -/

open ScopedExamples

/-- The default reporter, with no exception on its way. -/
def quiet : Ctx := ⟨defaultReporter true, 0⟩

/-- A reporter that never throws. -/
def mute : Ctx := ⟨fun _ _ => ⟨false, false⟩, 0⟩

/-- An expectation is moved and ends unfulfilled with its new holder: the exception reaches the client. -/
example : Lawful ([⟨quiet, .plain .newMock, ⟨[(.newMock, [.mockCreated 0])], none, none, none⟩⟩,
    ⟨quiet, .expect 0 1 1 [] [anything], ⟨[(.expect 0 1 1 [] [anything], [.created 0])], some 0, none, none⟩⟩,
    ⟨quiet, .moveConstruct 0, ⟨[], some 1, none, none⟩⟩,
    ⟨quiet, .drop 0, ⟨[], none, none, none⟩⟩,
    ⟨quiet, .isSatisfied 1, ⟨[], none, none, some false⟩⟩,
    ⟨quiet, .drop 1, ⟨[(.destroy 0, [.destroyed 0, .unfulfilled 0])], none, some (.unfulfilled 0), none⟩⟩] : STrace Nat) :=
  reach_lawful (run_reach (ops := [.plain .newMock, .expect 0 1 1 [] [anything], .moveConstruct 0, .drop 0, .isSatisfied 1, .drop 1]) (u := 0) .init rfl)

/-- After a new mock: a call is not resolved, which the default reporter answers with an exception; a reporter that returns makes the
behaviour undefined. -/
example : ∃ tr : STrace Nat, Lawful tr ∧ Rule tr quiet (.plain (.call 0 7)) ⟨[(.call 0 7, [.noMatch []])], none, some .unmatched, none⟩ ∧
    Undefined tr mute (.plain (.call 0 7)) := by
  have h : SReach ([] ++ [⟨quiet, .plain .newMock, _⟩] : STrace Nat) _ := .step .init rfl
  exact ⟨_, reach_lawful h, (C112_step h _ _ _).mp ⟨_, rfl⟩, (C112_undefined h _ _).mp ⟨_, rfl⟩⟩

/-- Assigning over an unfulfilled expectation terminates the program with the default reporter, not with one that is mute. -/
example : ∃ tr : STrace Nat, Lawful tr ∧ Terminates tr quiet (.moveAssign 0 1) ∧
    Rule tr mute (.moveAssign 0 1) ⟨[(.destroy 0, [.destroyed 0, .unfulfilled 0])], none, none, none⟩ := by
  have h1 : run 0 SWorld.init two = .ok (_, _) := rfl
  have h := run_reach .init h1
  exact ⟨_, reach_lawful h, (C112_terminates h _ _).mp ⟨_, rfl⟩, (C112_step h _ _ _).mp ⟨_, rfl⟩⟩

/-- A history that does not keep the rules: the missing call is not reported. -/
example (sw : SWorld Nat) : ¬ SReach ([⟨quiet, .plain .newMock, ⟨[(.newMock, [.mockCreated 0])], none, none, none⟩⟩,
    ⟨quiet, .expect 0 1 1 [] [anything], ⟨[(.expect 0 1 1 [] [anything], [.created 0])], some 0, none, none⟩⟩,
    ⟨quiet, .drop 0, ⟨[(.destroy 0, [.destroyed 0])], none, none, none⟩⟩] : STrace Nat) sw := by
  intro h
  have h1 := reach_lawful (run_reach (ops := [.plain .newMock, .expect 0 1 1 [] [anything], .drop 0]) (u := 0) .init rfl)
  have := C112_unique (reach_lawful h) h1 rfl
  simp at this

end Mimic.Scoping
