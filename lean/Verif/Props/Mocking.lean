import Verif.Proofs.Mocking

/-!
# C113: the rules for mocks with overloads are complete
-/

set_option autoImplicit false

namespace Mimic.Mocking

variable {τ β : Type} [DecidableEq τ]

/-- C113: the histories of clients that use mocks with overloads, and move them, are exactly those that keep the rules. -/
theorem C113_histories (tr : MTrace τ β) : (∃ mw, MReach tr mw) ↔ Lawful tr :=
  ⟨fun ⟨_, h⟩ => reach_lawful h, fun h => by simpa using lawful_reach_aux tr (pre := []) .init h⟩

/-- C113: one step: an operation comes to its end exactly if it is allowed and attaches nothing to a sequence that is full; it makes exactly
the prescribed observations. -/
theorem C113_step {tr : MTrace τ β} {mw : MWorld τ β} (h : MReach tr mw) (op : MOp τ β) (ev : List Event) :
    (∃ mw', mw.step op = .ok (mw', ev)) ↔ Allowed tr op ∧ ¬ Terminates tr op ∧ Prescribed tr op ev :=
  step_iff h op ev

/-- C113: the program is terminated exactly if the rules say so. -/
theorem C113_terminates {tr : MTrace τ β} {mw : MWorld τ β} (h : MReach tr mw) (op : MOp τ β) :
    (∃ why, mw.step op = .error (.terminate why)) ↔ Terminates tr op := by
  have hf := fate h op
  constructor
  · rintro ⟨why, hs⟩
    rw [hs] at hf
    cases hf with | terminates ht => exact ht
  · intro ht
    generalize mw.step op = r at hf
    cases hf with
    | ok _ h1 _ => exact absurd ht h1
    | terminates _ => exact ⟨_, rfl⟩
    | undefined hu => exact absurd ht.1 (undefined_not_allowed hu)
    | client hc _ => exact absurd ht.1 hc

/-- C113: there is undefined behaviour exactly if the rules say so, and then the client does something that is not allowed. -/
theorem C113_undefined {tr : MTrace τ β} {mw : MWorld τ β} (h : MReach tr mw) (op : MOp τ β) :
    ((∃ why, mw.step op = .error (.ub why)) ↔ Undefined tr op) ∧ (Undefined tr op → ¬ Allowed tr op) := by
  have hf := fate h op
  refine ⟨⟨?_, ?_⟩, undefined_not_allowed⟩
  · rintro ⟨why, hs⟩
    rw [hs] at hf
    cases hf with | undefined ht => exact ht
  · intro ht
    generalize mw.step op = r at hf
    cases hf with
    | ok h1 _ _ => exact absurd h1 (undefined_not_allowed ht)
    | terminates hu => exact absurd hu.1 (undefined_not_allowed ht)
    | undefined _ => exact ⟨_, rfl⟩
    | client _ hc => exact absurd ht hc

/-- C113: the rules leave no choice, and whenever a client does something that it may do, they say what it observes. -/
theorem C113_determined {tr : MTrace τ β} (h : Lawful tr) {op : MOp τ β} (ha : Allowed tr op) (ht : ¬ Terminates tr op) :
    ∃ ev, Prescribed tr op ev ∧ ∀ ev', Prescribed tr op ev' → ev' = ev := by
  obtain ⟨mw, hr⟩ := (C113_histories tr).mpr h
  have hf := fate hr op
  generalize mw.step op = r at hf
  cases hf with
  | ok _ _ h1 => exact ⟨_, h1, fun _ h2 => prescribed_unique h2 h1⟩
  | terminates h1 => exact absurd h1 ht
  | undefined hu => exact absurd ha (undefined_not_allowed hu)
  | client hc _ => exact absurd ha hc

/-- C113: what was done determines what was observed. -/
theorem C113_unique {tr tr' : MTrace τ β} (h : Lawful tr) (h' : Lawful tr') (he : tr.map (·.1) = tr'.map (·.1)) : tr = tr' :=
  lawful_unique_aux tr (pre := []) h h' he

/-- C113: any library that does what the rules say, and nothing that they do not allow, has the same histories as this one. -/
theorem C113_interchangeable {σ : Type} (start : σ) (step : σ → MOp τ β → Option (σ × List Event))
    (hdoes : ∀ tr q op, Runs step start tr q → Lawful tr → Allowed tr op → ¬ Terminates tr op →
      ∃ q' ev, step q op = some (q', ev) ∧ Prescribed tr op ev)
    (hnot : ∀ tr q op, Runs step start tr q → Lawful tr → ¬ (Allowed tr op ∧ ¬ Terminates tr op) → step q op = none) (tr : MTrace τ β) :
    (∃ q, Runs step start tr q) ↔ ∃ mw, MReach tr mw := by
  rw [runs_lawful hdoes hnot, C113_histories]

/-- Three overloads with one parameter list, which share a storage, and one with another. -/
def fourSigs : List (Sig Nat) := threeSigs ++ [⟨0, [1, 1], false, false, .none, false⟩]

/-- A history that keeps the rules: an expectation of the second overload, which is moved along with the mock, resolves a call of this
overload and is told about when a call of the first one is not resolved. -/
example : Lawful ([(.newMock fourSigs, [.mockCreated 0, .mockCreated 1]), (.expect 0 1 1 1 [] [] [], [.created 0]),
    (.expect 0 3 0 1 [] [] [], [.created 1]), (.moveMock 0, []), (.call 1 0 5, [.noMatch [0]]), (.call 1 1 5, [.fullMatch 0]),
    (.call 1 1 5, [.inapplicable [0]]), (.dropMock 1, []), (.dropMock 0, []), (.destroy 0, [.destroyed 0])] : MTrace Nat Nat) :=
  reach_lawful (mrecord_reach (tr := []) (mw := .init) (r := (_, _)) [.newMock fourSigs, .expect 0 1 1 1 [] [] [], .expect 0 3 0 1 [] [] [], .moveMock 0, .call 1 0 5, .call 1 1 5,
    .call 1 1 5, .dropMock 1, .dropMock 0, .destroy 0] .init rfl)

/-- After a move, the old variable must not be used, the new one can be. -/
example : ∃ tr : MTrace Nat Nat, Lawful tr ∧ Undefined tr (.call 0 0 5) ∧ Prescribed tr (.call 1 0 5) [.noMatch []] ∧
    ¬ Allowed tr (.call 1 3 5) := by
  have h : MReach ([] ++ [(.newMock threeSigs, _)] ++ [(.moveMock 0, _)] : MTrace Nat Nat) _ := .step (.step .init rfl) rfl
  refine ⟨_, reach_lawful h, (C113_undefined h _).1.mp ⟨_, rfl⟩, ((C113_step h _ _).mp ⟨_, rfl⟩).2.2, fun ha => ?_⟩
  obtain ⟨ev, hp, -⟩ := C113_determined (reach_lawful h) ha (fun ht => ht.2)
  obtain ⟨mw', hs⟩ := (C113_step h _ _).mpr ⟨ha, fun ht => ht.2, hp⟩
  cases hs

/-- A history that does not keep the rules: the other overloads are not told apart. -/
example (mw : MWorld Nat Nat) : ¬ MReach ([(.newMock threeSigs, [.mockCreated 0]), (.expect 0 1 1 1 [] [] [], [.created 0]),
    (.call 0 0 5, [.fullMatch 0])] : MTrace Nat Nat) mw := by
  intro h
  have h1 := reach_lawful (mreach_final (β := Nat) [.newMock threeSigs, .expect 0 1 1 1 [] [] [], .call 0 0 5])
  have := C113_unique (reach_lawful h) h1 rfl
  have h2 := congrArg (·.map (·.2)) this
  exact absurd h2 (by decide)

end Mimic.Mocking
