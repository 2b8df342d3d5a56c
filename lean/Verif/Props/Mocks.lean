import Verif.Proofs.MockLife
import Verif.Props.Safety
import Verif.Props.Limits
import Verif.Props.Outcome
import Verif.Props.Selection

/-!
# C22, C42: overloads are isolated; mocks may be moved and may die early
-/

set_option autoImplicit false

namespace Mimic

variable {τ β : Type} [DecidableEq τ]

/-! ### C22 -/

/-- C22: a call through overload `j` of a variable resolves to the candidates of exactly this overload of the mock the
variable holds; without candidates the accepting expectations of this overload, if there are any, decide about the kind
of report. -/
theorem C22_outcome {tr : MTrace τ β} {mw mw' : MWorld τ β} (h : MReach tr mw) {m j : Nat} {a : β} {ev : List Event}
    (hs : mw.step (.call m j a) = .ok (mw', ev)) :
    ∃ k sigs f, tr.holds m k ∧ tr.sigs k = some sigs ∧ sigs[j]? = some f ∧
      ∃ (us : List Nat) (last : Event), ev = us.map Event.unhandled ++ [last] ∧
        ((∃ e, tr.candidate k j (f.info a) e ∧ last = .fullMatch e) ∨
         ((∀ e, ¬ tr.candidate k j (f.info a) e) ∧ (∃ e, tr.accepts k j (f.info a) e) ∧
            ∃ es, last = .inapplicable es ∧ YoungestFirst (tr.accepts k j (f.info a)) es) ∨
         ((∀ e, ¬ tr.accepts k j (f.info a) e) ∧ ∃ es, last = .noMatch es)) := by
  obtain ⟨f, ft, hi⟩ := h.inv
  obtain ⟨k, g, idx, w', h1, h2, h3, h4, h5, h6, h7⟩ := hi.call hs
  refine ⟨k, _, g, h1, h3, h4, ?_⟩
  obtain ⟨us, last, e1, _, e3⟩ := C10_outcome hi.reach h7
  have hc : ∀ e, ft.candidate ((f k).1 + idx) (g.info a) e ↔ tr.candidate k j (g.info a) e :=
    hi.candidate_iff h2 h4 h5 h6 a
  have ha : ∀ e, ft.accepts ((f k).1 + idx) (g.info a) e ↔ tr.accepts k j (g.info a) e :=
    hi.accepts_iff h2 h4 h5 h6 a
  refine ⟨us, last, e1, ?_⟩
  rcases e3 with ⟨e, he, hl⟩ | ⟨hn, ⟨e, he⟩, es, hl, hy⟩ | ⟨hn, es, hl, _⟩
  · exact Or.inl ⟨e, (hc e).mp he, hl⟩
  · refine Or.inr (Or.inl ⟨fun e he' => hn e ((hc e).mpr he'), ⟨e, (ha e).mp he⟩, es, hl, hy.1, fun x => ?_⟩)
    rw [hy.2 x, ha x]
  · exact Or.inr (Or.inr ⟨fun e he' => hn e ((ha e).mpr he'), es, hl⟩)

/-- C22: the choice among the candidates of the overload follows the general rule. -/
theorem C22_selection {tr : MTrace τ β} {mw mw' : MWorld τ β} (h : MReach tr mw) {m j : Nat} {a : β} {ev : List Event}
    (hs : mw.step (.call m j a) = .ok (mw', ev)) :
    ∃ k sigs f, tr.holds m k ∧ tr.sigs k = some sigs ∧ sigs[j]? = some f ∧
      ((∀ e, ¬ tr.candidate k j (f.info a) e) ∧ (∀ e, Event.fullMatch e ∉ ev) ∨
       ∃ x older e, YoungestFirst (tr.candidate k j (f.info a)) (x :: older) ∧ tr.plain.Chosen x older e ∧
         ∀ e', Event.fullMatch e' ∈ ev ↔ e' = e) := by
  obtain ⟨f, ft, hi⟩ := h.inv
  obtain ⟨k, g, idx, w', h1, h2, h3, h4, h5, h6, h7⟩ := hi.call hs
  refine ⟨k, _, g, h1, h3, h4, ?_⟩
  have hc : ∀ e, ft.candidate ((f k).1 + idx) (g.info a) e ↔ tr.candidate k j (g.info a) e :=
    hi.candidate_iff h2 h4 h5 h6 a
  rcases C08_selection hi.reach h7 with ⟨hn, he⟩ | ⟨x, older, e, hy, hch, he⟩
  · exact Or.inl ⟨fun e he' => hn e ((hc e).mpr he'), he⟩
  · refine Or.inr ⟨x, older, e, ⟨hy.1, fun z => ?_⟩, hi.core.chosen hch, he⟩
    rw [hy.2 z, hc z]

/-- C22: whatever a call is resolved to was created through the very same overload of the very same mock. -/
theorem C22_isolated {tr : MTrace τ β} {mw mw' : MWorld τ β} (h : MReach tr mw) {m j : Nat} {a : β} {ev : List Event}
    (hs : mw.step (.call m j a) = .ok (mw', ev)) {e : Nat} (he : Event.fullMatch e ∈ ev) :
    ∃ k, tr.holds m k ∧ tr.origin e = some (k, j) := by
  obtain ⟨k, sigs, f, h1, _, _, us, last, rfl, h2⟩ := C22_outcome h hs
  have hl : last = .fullMatch e := by
    simp only [List.mem_append, List.mem_map, List.mem_singleton] at he
    rcases he with ⟨_, _, hh⟩ | hh
    · simp at hh
    · exact hh.symm
  refine ⟨k, h1, ?_⟩
  rcases h2 with ⟨e', hc, h3⟩ | ⟨_, _, es, h3, _⟩ | ⟨_, es, h3⟩
  · rw [hl] at h3
    simp only [Event.fullMatch.injEq] at h3
    subst h3
    exact hc.1.2.1
  · rw [hl] at h3; simp at h3
  · rw [hl] at h3; simp at h3

/-- C22: the policies by which overloads are told apart: a call through an overload that can be used on lvalues, on
rvalues, or on both, is accepted by `Category` of another such overload iff some kind of object can use both of them, and
likewise for `Constness`. -/
theorem C22_policies (info : CallInfo β) (cat : ValueCategory) (con : Constness) :
    ((categoryPolicy cat).accepts info = some true ↔ ∃ r, info.category.admits r ∧ cat.admits r) ∧
    ((constnessPolicy con).accepts info = some true ↔ ∃ c, info.constness.admits c ∧ con.admits c) ∧
    (categoryPolicy cat).accepts info ≠ none ∧ (constnessPolicy con).accepts info ≠ none := by
  obtain ⟨args, cat', con'⟩ := info
  refine ⟨?_, ?_, ?_, ?_⟩
  · cases cat <;> cases cat' <;>
      simp [categoryPolicy, ValueCategory.isMatching, ValueCategory.toUnderlying, ValueCategory.admits]
  · cases con <;> cases con' <;>
      simp [constnessPolicy, Constness.isMatching, Constness.toUnderlying, Constness.admits]
  · simp [categoryPolicy]
  · simp [constnessPolicy]

/-- `void(int) &`, `void(int) const &`, `void(int) &&`: all three share one storage. -/
def threeSigs : List (Sig Nat) :=
  [⟨0, [1], false, false, .lvalue, false⟩, ⟨0, [1], false, true, .lvalue, false⟩, ⟨0, [1], false, false, .rvalue, true⟩]

example : (storagesOf threeSigs).length = 1 := by decide

/-- The three overloads are told apart, although expectation 2 is the youngest and accepts any argument. -/
example : (MWorld.final (β := Nat) [.newMock threeSigs, .expect 0 0 1 1 [] [] [], .expect 0 1 1 1 [] [] [],
    .expect 0 2 1 1 [] [] [], .call 0 0 5, .call 0 1 5, .call 0 2 5, .call 0 0 5]).2.map (·.2) =
    [[.mockCreated 0], [.created 0], [.created 1], [.created 2], [.fullMatch 0], [.fullMatch 1], [.fullMatch 2],
     [.inapplicable [0]]] := by decide

/-- What is *not* isolated, for overloads sharing a storage: the expectations of the other overloads are listed in the
report of an unmatched call, and their matchers are run, so that an exception one of them throws is reported for a call
it has nothing to do with. -/
example : (MWorld.final (β := Nat) [.newMock threeSigs,
    .expect 0 1 1 1 [] [{ accepts := fun _ => none }] [], .expect 0 2 1 1 [] [] [], .call 0 0 5]).2.map (·.2) =
    [[.mockCreated 0], [.created 0], [.created 1], [.unhandled 0, .noMatch [1]]] := by decide

/-! ### C42 -/

/-- C42: a mock can be created exactly for a non-empty list of signatures without `...`, any two of which may be overloads of each other. A new
variable holds it; no variable changes. -/
theorem C42_create_iff {tr : MTrace τ β} {mw : MWorld τ β} (h : MReach tr mw) (sigs : List (Sig τ)) :
    ((∃ mw' ev, mw.step (.newMock sigs) = .ok (mw', ev)) ↔
      sigs ≠ [] ∧ (∀ f ∈ sigs, f.variadic = false) ∧ sigs.Pairwise Overloadable) ∧
    ∀ mw' ev, mw.step (.newMock sigs) = .ok (mw', ev) →
      MTrace.holds (tr ++ [(.newMock sigs, ev)]) tr.vars.length tr.vars.length ∧
      MTrace.sigs (tr ++ [(.newMock sigs, ev)]) tr.vars.length = some sigs ∧
      ∀ m k, m < tr.vars.length → (MTrace.holds (tr ++ [(.newMock sigs, ev)]) m k ↔ tr.holds m k) := by
  obtain ⟨f, ft, hi⟩ := h.inv
  have hiff : (∃ mw' ev, mw.step (.newMock sigs) = .ok (mw', ev)) ↔
      sigs ≠ [] ∧ (∀ f ∈ sigs, f.variadic = false) ∧ sigs.Pairwise Overloadable := by
    simp only [MWorld.step]
    constructor
    · rintro ⟨mw', ev, hs⟩
      split at hs
      · rename_i hok
        obtain ⟨ho, hfr, -⟩ := hok
        have hvar : ∀ g ∈ sigs, g.variadic = false := by
          intro g hg
          have := List.all_eq_true.mp hfr g hg
          rw [frontend_eq] at this
          cases hv : g.variadic with
          | false => rfl
          | true => rw [hv] at this; simp at this
        have hne : sigs ≠ [] := by rintro rfl; simp [isOverloadSet] at ho
        exact ⟨hne, hvar, (C21_set sigs hne hvar).1.mp ho⟩
      · cases hs
    · rintro ⟨hne, hvar, hpw⟩
      obtain ⟨w', ev', tr', h1, -⟩ := addStorages_ok (storagesOf sigs).length hi.reach
      rw [if_pos]
      · simp only [h1, bind, Except.bind, Pure.pure, Except.pure]
        exact ⟨_, _, rfl⟩
      · refine ⟨(C21_set sigs hne hvar).1.mpr hpw, ?_, ?_⟩
        · rw [List.all_eq_true]
          intro g hg
          rw [frontend_eq, hvar g hg]
          simp
        · rw [List.all_eq_true]
          intro g hg
          obtain ⟨⟨i, hi, -⟩, -⟩ := C23_binding sigs g hg
          rw [hi]
          rfl
  refine ⟨hiff, fun mw' ev hs => ?_⟩
  have hv : MTrace.vars (tr ++ [(.newMock sigs, ev)]) = tr.vars ++ [some tr.vars.length] := by rw [vars_snoc]; rfl
  unfold MTrace.holds
  rw [hv]
  refine ⟨by simp, ?_, fun m k hm => by rw [List.getElem?_append_left hm]⟩
  have hn : tr.sigs tr.vars.length = none := searchFrom_sigs_none tr.vars.length tr [] (Nat.le_refl _)
  have hs' : MTrace.sigs (tr ++ [(.newMock sigs, ev)]) tr.vars.length = (tr.sigs tr.vars.length).or (if tr.vars.length = tr.vars.length then some sigs else none) :=
    searchFrom_snoc _ _ _ _ _
  rw [hs', hn, if_pos rfl, Option.none_or]

/-- C42: a call through overload `j` of a variable goes through iff the variable holds a mock that has an overload `j`. -/
theorem C42_call_iff {tr : MTrace τ β} {mw : MWorld τ β} (h : MReach tr mw) (m j : Nat) (a : β) :
    (∃ mw' ev, mw.step (.call m j a) = .ok (mw', ev)) ↔
      ∃ k sigs, tr.holds m k ∧ tr.sigs k = some sigs ∧ j < sigs.length := by
  constructor
  · rintro ⟨mw', ev, hs⟩
    obtain ⟨k, sigs, f, h1, h2, h3, _⟩ := C22_outcome h hs
    exact ⟨k, sigs, h1, h2, (List.getElem?_eq_some_iff.mp h3).1⟩
  · rintro ⟨k, sigs, h1, h2, h3⟩
    obtain ⟨f, ft, hi⟩ := h.inv
    obtain ⟨sigs', hs', hlt, _⟩ := (h.frontend m j).1 k h1
    rw [h2] at hs'
    simp only [Option.some.injEq] at hs'
    subst hs'
    obtain ⟨c, cat, con, hf, hc⟩ := hlt h3
    obtain ⟨w', ev, hw⟩ := C10_total hi.reach (m := c) (⟨a, cat, con⟩ : CallInfo β) ((hi.reach.view.2.mocks c).mpr hc)
    refine ⟨{ mw with w := w' }, ev, ?_⟩
    simp [MWorld.step, hf, MWorld.plain, hw, bind, Except.bind, pure, Except.pure]

/-- C42: an expectation without sequences can be created through overload `j` of a variable iff the variable holds a mock that
has an overload `j` (and the limits are `int`s). -/
theorem C42_expect_iff {tr : MTrace τ β} {mw : MWorld τ β} (h : MReach tr mw) (m j : Nat) (min max : Int)
    (args extra : List (Policy (CallInfo β))) :
    (∃ mw' ev, mw.step (.expect m j min max [] args extra) = .ok (mw', ev)) ↔
      (∃ k sigs, tr.holds m k ∧ tr.sigs k = some sigs ∧ j < sigs.length) ∧
      (-2147483648 ≤ min ∧ min ≤ 2147483647) ∧ (-2147483648 ≤ max ∧ max ≤ 2147483647) := by
  obtain ⟨f, ft, hi⟩ := h.inv
  have hplain : ∀ (c : Nat) (ps : List (Policy (CallInfo β))), c < mw.w.colls.length →
      ((∃ mw' ev, mw.plain (.expect c min max [] ps) = .ok (mw', ev)) ↔
        (-2147483648 ≤ min ∧ min ≤ 2147483647) ∧ (-2147483648 ≤ max ∧ max ≤ 2147483647)) := by
    intro c ps hc
    have hm := (hi.reach.view.2.mocks c).mpr hc
    obtain ⟨p1, -, p3⟩ := C17_progress hi.reach (.expect c min max [] ps)
    have hv : ft.valid (.expect c min max [] ps) ↔
        (-2147483648 ≤ min ∧ min ≤ 2147483647) ∧ (-2147483648 ≤ max ∧ max ≤ 2147483647) := by
      simp [Trace.valid, hm]
    rw [← hv]
    constructor
    · rintro ⟨mw', ev, hs⟩
      apply Classical.byContradiction
      intro hn
      obtain ⟨why, hw⟩ := p3 hn
      simp [MWorld.plain, hw, bind, Except.bind] at hs
    · intro hv
      obtain ⟨w', ev, hw⟩ := p1 hv (by simp [Trace.overflows])
      exact ⟨{ mw with w := w' }, ev, by simp [MWorld.plain, hw, bind, Except.bind, pure, Except.pure]⟩
  constructor
  · rintro ⟨mw', ev, hs⟩
    simp only [MWorld.step] at hs
    cases hf : mw.frontend m j with
    | none => rw [hf] at hs; cases hs
    | some q =>
      obtain ⟨c, cat, con⟩ := q
      cases c with
      | none => rw [hf] at hs; cases hs
      | some c =>
        rw [hf] at hs
        obtain ⟨f1, f2, -, -⟩ := h.frontend m j
        by_cases hk : ∃ k, tr.holds m k
        · obtain ⟨k, hk⟩ := hk
          obtain ⟨sigs, hs', g1, g2⟩ := f1 k hk
          by_cases hj : j < sigs.length
          · obtain ⟨c', cat', con', g3, g4⟩ := g1 hj
            rw [hf] at g3
            simp only [Option.some.injEq, Prod.mk.injEq] at g3
            obtain ⟨rfl, rfl, rfl⟩ := g3
            exact ⟨⟨k, sigs, hk, hs', hj⟩, (hplain c _ g4).mp ⟨mw', ev, hs⟩⟩
          · rw [g2 (Nat.le_of_not_lt hj)] at hf; cases hf
        · exact absurd hf (f2 (fun k hk' => hk ⟨k, hk'⟩) c cat con)
  · rintro ⟨⟨k, sigs, h1, h2, h3⟩, hb⟩
    obtain ⟨sigs', hs', hlt, _⟩ := (h.frontend m j).1 k h1
    rw [h2] at hs'
    simp only [Option.some.injEq] at hs'
    subst hs'
    obtain ⟨c, cat, con, hf, hc⟩ := hlt h3
    obtain ⟨mw', ev, hs⟩ := (hplain c (args ++ [categoryPolicy cat, constnessPolicy con] ++ extra) hc).mpr hb
    exact ⟨mw', ev, by simp only [MWorld.step, hf]; exact hs⟩

/-- C42: whatever happened to the mock, an expectation can be ended exactly as long as it is in force. -/
theorem C42_destroy_iff {tr : MTrace τ β} {mw : MWorld τ β} (h : MReach tr mw) (e : Nat) :
    (∃ mw' ev, mw.step (.destroy e) = .ok (mw', ev)) ↔ tr.plain.live e := by
  obtain ⟨f, ft, hi⟩ := h.inv
  have hl : ft.live e ↔ tr.plain.live e := by
    unfold Trace.live
    rw [hi.events]
    have := hi.decl e
    unfold MatchDecl at this
    grind
  rw [← hl]
  obtain ⟨p1, -, p3⟩ := C17_progress hi.reach (.destroy e)
  constructor
  · rintro ⟨mw', ev, hs⟩
    apply Classical.byContradiction
    intro hn
    obtain ⟨why, hw⟩ := p3 hn
    simp [MWorld.step, MWorld.plain, hw, bind, Except.bind] at hs
  · intro hv
    obtain ⟨w', ev, hw⟩ := p1 hv (by simp [Trace.overflows])
    exact ⟨{ mw with w := w' }, ev, by simp [MWorld.step, MWorld.plain, hw, bind, Except.bind, pure, Except.pure]⟩

/-- C42: a living variable, whether it holds a mock or was moved from, can be moved from, can be assigned to itself and can
end its life; a variable whose life is over can do none of these. -/
theorem C42_life {tr : MTrace τ β} {mw : MWorld τ β} (h : MReach tr mw) (m : Nat) :
    ((∃ mw' ev, mw.step (.moveMock m) = .ok (mw', ev)) ↔ tr.living m) ∧
    ((∃ mw' ev, mw.step (.dropMock m) = .ok (mw', ev)) ↔ tr.living m) ∧
    ((∃ mw' ev, mw.step (.assignMock m m) = .ok (mw', ev)) ↔ tr.living m) := by
  obtain ⟨hlen, hdrop, hal⟩ := h.alive
  by_cases hlt : m < mw.mocks.length
  · have hm := List.getElem?_eq_getElem hlt
    have ha := hal m _ hm
    have hl : tr.living m ↔ mw.mocks[m].alive = true := by
      rw [ha]; exact ⟨fun x => x.2, fun x => ⟨hlen ▸ hlt, x⟩⟩
    rw [hl]
    generalize mw.mocks[m] = c at hm
    obtain ⟨sigs, ptrs, alive⟩ := c
    cases alive <;> simp [MWorld.step, hm]
  · have hm : mw.mocks[m]? = none := List.getElem?_eq_none (Nat.le_of_not_lt hlt)
    have hl : ¬ tr.living m := fun x => hlt (hlen ▸ x.1)
    simp [MWorld.step, hm, hl]

/-- C42: a variable can be moved onto another one of the same type, and after a move the mock can be moved back. -/
theorem C42_assign {tr : MTrace τ β} {mw : MWorld τ β} (h : MReach tr mw) (m : Nat) :
    (∀ n k k', tr.holds m k → tr.holds n k' → tr.sigs k = tr.sigs k' →
      ∃ mw', mw.step (.assignMock m n) = .ok (mw', [])) ∧
    (∀ mw' ev, mw.step (.moveMock m) = .ok (mw', ev) →
      ∃ mw'', mw'.step (.assignMock m tr.vars.length) = .ok (mw'', [])) := by
  obtain ⟨f, ft, hi⟩ := h.inv
  constructor
  · intro n k k' hk hk' hs
    obtain ⟨_, h1, h2⟩ := hi.held m k hk
    obtain ⟨_, h3, h4⟩ := hi.held n k' hk'
    rw [h1, h3] at hs
    simp only [Option.some.injEq] at hs
    by_cases hmn : m = n
    · subst hmn; exact ⟨mw, by simp [MWorld.step, h2]⟩
    · exact ⟨_, by simp only [MWorld.step, h2, h4, hs, if_true, if_neg hmn]; rfl⟩
  · intro mw' ev hs
    have hm : m < mw.mocks.length := by
      apply Nat.lt_of_not_le
      intro hle
      simp [MWorld.step, List.getElem?_eq_none hle] at hs
    have hg := List.getElem?_eq_getElem hm
    generalize mw.mocks[m] = c at hg
    obtain ⟨sigs, ptrs, alive⟩ := c
    cases alive
    · simp [MWorld.step, hg] at hs
    · simp only [MWorld.step, hg, Except.ok.injEq, Prod.mk.injEq] at hs
      obtain ⟨rfl, _⟩ := hs
      have hne : m ≠ mw.mocks.length := Nat.ne_of_lt hm
      rw [← hi.len]
      have e1 : (mw.mocks.set m ⟨sigs, ptrs.map (fun _ => none), true⟩ ++ [(⟨sigs, ptrs, true⟩ : MockCell τ)])[m]? =
          some ⟨sigs, ptrs.map (fun _ => none), true⟩ := by
        rw [List.getElem?_append_left (by simpa using hm)]; simp [hm]
      have e2 : (mw.mocks.set m ⟨sigs, ptrs.map (fun _ => none), true⟩ ++ [(⟨sigs, ptrs, true⟩ : MockCell τ)])[mw.mocks.length]? =
          some ⟨sigs, ptrs, true⟩ := by
        rw [List.getElem?_append_right (by simp)]; simp
      exact ⟨_, by simp only [MWorld.step, e1, e2, if_true, if_neg hne]; rfl⟩

/-- C42: undefined behaviour arises exactly when a living variable that holds no mock, because it was moved from, is
called or asked for an expectation. -/
theorem C42_ub_iff {tr : MTrace τ β} {mw : MWorld τ β} (h : MReach tr mw) (op : MOp τ β) :
    ((∃ why, mw.step op = .error (.ub why)) → ∃ m, tr.living m ∧ (∀ k, ¬ tr.holds m k) ∧
      ((∃ j a, op = .call m j a) ∨ ∃ j min max tags args extra, op = .expect m j min max tags args extra)) ∧
    (∀ m, tr.living m → (∀ k, ¬ tr.holds m k) → ∃ n, 0 < n ∧ ∀ j, j < n →
      ((∃ a, op = .call m j a) ∨ ∃ min max tags args extra, op = .expect m j min max tags args extra) →
      ∃ why, mw.step op = .error (.ub why)) := by
  obtain ⟨f, ft, hi⟩ := h.inv
  have hplain : ∀ o why, mw.plain o ≠ .error (.ub why) := by
    intro o why hc
    simp only [MWorld.plain, bind, Except.bind] at hc
    cases hw : mw.w.step o with
    | error x =>
      rw [hw] at hc
      simp only [Except.error.injEq] at hc
      rw [hc] at hw
      exact C17_no_ub hi.reach o why hw
    | ok r => rw [hw] at hc; simp [pure, Except.pure] at hc
  have hfr : ∀ m j cat con, mw.frontend m j = some (none, cat, con) → tr.living m ∧ ∀ k, ¬ tr.holds m k := by
    intro m j cat con hf
    obtain ⟨h1, h2, h3, h4⟩ := h.frontend m j
    constructor
    · apply Classical.byContradiction
      intro hl
      rw [h3 hl] at hf; simp at hf
    · intro k hk
      obtain ⟨sigs, _, h5, h6⟩ := h1 k hk
      by_cases hj : j < sigs.length
      · obtain ⟨c, cat', con', h7, _⟩ := h5 hj
        rw [h7] at hf; simp at hf
      · rw [h6 (by omega)] at hf; simp at hf
  constructor
  · rintro ⟨why, hs⟩
    cases op with
    | newSequence st => exact absurd hs (hplain _ _)
    | dropSequence s => exact absurd hs (hplain _ _)
    | destroy e => exact absurd hs (hplain _ _)
    | newMock sigs =>
      obtain ⟨w', ev', tr', h1, _⟩ := addStorages_ok (storagesOf sigs).length hi.reach
      simp only [MWorld.step] at hs
      split at hs
      · simp [h1, bind, Except.bind, pure, Except.pure] at hs
      · simp at hs
    | moveMock m => simp only [MWorld.step] at hs; split at hs <;> simp at hs
    | assignMock dst src =>
      simp only [MWorld.step] at hs
      split at hs
      · split at hs
        · split at hs <;> simp at hs
        · simp at hs
      · simp at hs
    | dropMock m => simp only [MWorld.step] at hs; split at hs <;> simp at hs
    | expect m i min max tags args extra =>
      simp only [MWorld.step] at hs
      split at hs
      · simp at hs
      · rename_i cat con hf
        obtain ⟨h1, h2⟩ := hfr _ _ _ _ hf
        exact ⟨m, h1, h2, Or.inr ⟨_, _, _, _, _, _, rfl⟩⟩
      · exact absurd hs (hplain _ _)
    | call m i a =>
      simp only [MWorld.step] at hs
      split at hs
      · simp at hs
      · rename_i cat con hf
        obtain ⟨h1, h2⟩ := hfr _ _ _ _ hf
        exact ⟨m, h1, h2, Or.inl ⟨_, _, rfl⟩⟩
      · exact absurd hs (hplain _ _)
  · intro m hl hn
    obtain ⟨n, hpos, hn'⟩ := h.movedFrom hl hn
    refine ⟨n, hpos, fun j hj hop => ?_⟩
    obtain ⟨cat, con, hf⟩ := (hn' j).1 hj
    rcases hop with ⟨a, rfl⟩ | ⟨min, max, tags, args, extra, rfl⟩
    · exact ⟨"call of a moved-from mock", by simp [MWorld.step, hf]⟩
    · exact ⟨"expect_call on a moved-from mock", by simp [MWorld.step, hf]⟩

/-- C42: moving a mock into a new variable, or onto another variable, hands the mock over, reports nothing, and touches
no expectation; the source holds nothing afterwards. -/
theorem C42_move {tr : MTrace τ β} {mw mw' : MWorld τ β} (h : MReach tr mw) {op : MOp τ β} {m n : Nat}
    (hop : (op = .moveMock m ∧ n = tr.vars.length) ∨ (op = .assignMock n m ∧ n ≠ m)) {ev : List Event}
    (hs : mw.step op = .ok (mw', ev)) :
    ev = [] ∧ mw'.w = mw.w ∧ (∀ k, MTrace.holds (tr ++ [(op, ev)]) n k ↔ tr.holds m k) ∧
    (∀ k, ¬ MTrace.holds (tr ++ [(op, ev)]) m k) ∧
    (∀ m' k, m' ≠ m → m' ≠ n → (MTrace.holds (tr ++ [(op, ev)]) m' k ↔ tr.holds m' k)) ∧
    ∀ k i a e, MTrace.candidate (tr ++ [(op, ev)]) k i a e ↔ tr.candidate k i a e := by
  obtain ⟨hlen, _, _⟩ := h.alive
  have hcand : ev = [] → ∀ k i a e, MTrace.candidate (tr ++ [(op, ev)]) k i a e ↔ tr.candidate k i a e := by
    rintro rfl k i a e
    have hpl : op.plain = .newMock := by rcases hop with ⟨rfl, _⟩ | ⟨rfl, _⟩ <;> rfl
    have hd : ∀ e, Trace.decl (MTrace.plain (tr ++ [(op, [])])) e = tr.plain.decl e := by
      intro e
      rw [plain_snoc, hpl, decl_snoc_none rfl]
    have hev : (MTrace.plain (tr ++ [(op, [])])).events = tr.plain.events := by
      rw [plain_snoc, events_snoc]; simp
    have ho : MTrace.origin (tr ++ [(op, [])]) e = tr.origin e := by
      unfold MTrace.origin
      rw [searchFrom_snoc]
      rcases hop with ⟨rfl, _⟩ | ⟨rfl, _⟩ <;> simp
    have hc : SameCore (MTrace.plain (tr ++ [(op, [])])) tr.plain := ⟨hev, fun e => by rw [hd]⟩
    unfold MTrace.candidate MTrace.accepts
    rw [hc.live, hc.applicable, ho, hd]
  have hjoin : ∀ k, tr.vars[m]?.join = some k ↔ tr.vars[m]? = some (some k) := by
    intro k
    cases tr.vars[m]? <;> simp
  rcases hop with ⟨rfl, rfl⟩ | ⟨rfl, hne⟩
  · simp only [MWorld.step] at hs
    split at hs
    · rename_i sigs ptrs hm
      simp only [Except.ok.injEq, Prod.mk.injEq] at hs
      obtain ⟨rfl, rfl⟩ := hs
      have hlt : m < tr.vars.length := by rw [← hlen]; exact (List.getElem?_eq_some_iff.mp hm).1
      refine ⟨rfl, rfl, fun k => ?_, fun k => ?_, fun m' k h1 h2 => ?_, hcand rfl⟩
      · unfold MTrace.holds
        rw [vars_snoc, varsStep, List.getElem?_append_right (by simp)]
        simp [hjoin]
      · unfold MTrace.holds
        rw [vars_snoc, varsStep, List.getElem?_append_left (by simpa using hlt), List.getElem?_set_self hlt]
        simp
      · unfold MTrace.holds
        rw [vars_snoc, varsStep]
        by_cases hlt' : m' < tr.vars.length
        · rw [List.getElem?_append_left (by simpa using hlt'), List.getElem?_set_ne (Ne.symm h1)]
        · rw [List.getElem?_eq_none (by simp; omega), List.getElem?_eq_none (by omega)]
    · simp at hs
  · simp only [MWorld.step] at hs
    split at hs
    · rename_i sigs ptrs sigs' ptrs' hd hsrc
      have hlt : m < tr.vars.length := by rw [← hlen]; exact (List.getElem?_eq_some_iff.mp hsrc).1
      have hlt' : n < tr.vars.length := by rw [← hlen]; exact (List.getElem?_eq_some_iff.mp hd).1
      split at hs
      · simp only [Except.ok.injEq, Prod.mk.injEq] at hs
        obtain ⟨rfl, rfl⟩ := hs
        refine ⟨rfl, rfl, fun k => ?_, fun k => ?_, fun m' k h1 h2 => ?_, hcand rfl⟩
        · unfold MTrace.holds
          rw [vars_snoc, varsStep, if_neg hne, List.getElem?_set_ne (Ne.symm hne), List.getElem?_set_self hlt']
          simp [hjoin]
        · unfold MTrace.holds
          rw [vars_snoc, varsStep, if_neg hne, List.getElem?_set_self (by simpa using hlt)]
          simp
        · unfold MTrace.holds
          rw [vars_snoc, varsStep, if_neg hne, List.getElem?_set_ne (Ne.symm h1), List.getElem?_set_ne (Ne.symm h2)]
      · simp at hs
    · simp at hs

/-- C42: at the end of its scope an expectation is reported as unfulfilled iff it was matched too rarely (or one of its
policies is not satisfied), whatever happened to the mock it was created from. -/
theorem C42_still_checked {tr : MTrace τ β} {mw mw' : MWorld τ β} (h : MReach tr mw) {e : Nat} {ev : List Event}
    (hs : mw.step (.destroy e) = .ok (mw', ev)) :
    ∃ d, tr.plain.decl e = some d ∧
      (Event.unfulfilled e ∈ ev ↔ (tr.plain.matched e : Int) < d.min ∨ ∃ p ∈ d.policies, p.isSatisfied = false) := by
  obtain ⟨f, ft, hi⟩ := h.inv
  obtain ⟨w', hw, rfl⟩ := MWorld.plain_ok hs
  obtain ⟨d, hd, hiff⟩ := C03_unfulfilled_iff hi.reach hw
  have := hi.decl e
  rw [hd] at this
  obtain ⟨k, i, g, cat, con, idx, args, extra, a1, a2, a3, a4, a5, a6, a7, a8, _, _⟩ := this
  refine ⟨_, a6, ?_⟩
  rw [hiff, hi.core.matched, a8]
  apply or_congr Iff.rfl
  constructor
  · rintro ⟨p, hp, hps⟩
    simp only [List.mem_append, List.mem_cons, List.not_mem_nil, or_false] at hp
    rcases hp with (hp | rfl | rfl) | hp
    · exact ⟨p, List.mem_append_left _ hp, hps⟩
    · simp [categoryPolicy] at hps
    · simp [constnessPolicy] at hps
    · exact ⟨p, List.mem_append_right _ hp, hps⟩
  · rintro ⟨p, hp, hps⟩
    refine ⟨p, ?_, hps⟩
    simp only [List.mem_append] at hp ⊢
    rcases hp with hp | hp
    · exact Or.inl (Or.inl hp)
    · exact Or.inr hp

/-- Whether the operation names variable `m`. -/
def MOp.mentions (m : Nat) : MOp τ β → Prop
  | .moveMock n | .dropMock n | .expect n _ _ _ _ _ _ | .call n _ _ => n = m
  | .assignMock a b => a = m ∨ b = m
  | _ => False

/-- The reports of a program. -/
def MWorld.reports (mw : MWorld τ β) (ops : List (MOp τ β)) : M (List (List Event)) :=
  (mw.record ops).map (fun r => r.2.map (·.2))

theorem step_except {mw mw' : MWorld τ β} {m : Nat} (hw : mw.w = mw'.w) (hl : mw.mocks.length = mw'.mocks.length)
    (hm : ∀ n, n ≠ m → mw.mocks[n]? = mw'.mocks[n]?) {op : MOp τ β} (hop : ¬ op.mentions m) (hlt : m < mw.mocks.length) :
    (∃ x, mw.step op = .error x ∧ mw'.step op = .error x) ∨
    ∃ r r' ev, mw.step op = .ok (r, ev) ∧ mw'.step op = .ok (r', ev) ∧ r.w = r'.w ∧
      r.mocks.length = r'.mocks.length ∧ m < r.mocks.length ∧ ∀ n, n ≠ m → r.mocks[n]? = r'.mocks[n]? := by
  have hplain : ∀ o, (∃ x, mw.plain o = .error x ∧ mw'.plain o = .error x) ∨
      ∃ r r' ev, mw.plain o = .ok (r, ev) ∧ mw'.plain o = .ok (r', ev) ∧ r.w = r'.w ∧
        r.mocks.length = r'.mocks.length ∧ m < r.mocks.length ∧ ∀ n, n ≠ m → r.mocks[n]? = r'.mocks[n]? := by
    intro o
    simp only [MWorld.plain, ← hw]
    cases mw.w.step o with
    | error x => exact Or.inl ⟨x, rfl, rfl⟩
    | ok r => exact Or.inr ⟨_, _, _, rfl, rfl, rfl, hl, hlt, hm⟩
  have hfront : ∀ n i, n ≠ m → mw.frontend n i = mw'.frontend n i := by
    intro n i hn
    unfold MWorld.frontend
    rw [hm n hn]
  cases op with
  | newSequence st => exact hplain _
  | dropSequence s => exact hplain _
  | destroy e => exact hplain _
  | newMock sigs =>
    simp only [MWorld.step, ← hw]
    split
    · simp only [bind, Except.bind]
      cases MWorld.addStorages mw.w (storagesOf sigs).length with
      | error x => exact Or.inl ⟨x, rfl, rfl⟩
      | ok r =>
        refine Or.inr ⟨_, _, _, rfl, rfl, rfl, by simp [hl], by simp; omega, fun n hn => ?_⟩
        simp only
        by_cases h : n < mw.mocks.length
        · rw [List.getElem?_append_left h, List.getElem?_append_left (by omega)]; exact hm n hn
        · rw [List.getElem?_append_right (by omega), List.getElem?_append_right (by omega), hl]
    · exact Or.inl ⟨_, rfl, rfl⟩
  | moveMock n =>
    simp only [MOp.mentions] at hop
    simp only [MWorld.step, ← hm n hop]
    split
    · refine Or.inr ⟨_, _, _, rfl, rfl, hw, by simp [hl], by simp; omega, fun n' hn => ?_⟩
      simp only
      by_cases h : n' < mw.mocks.length
      · rw [List.getElem?_append_left (by simpa using h), List.getElem?_append_left (by simp; omega),
          List.getElem?_set, List.getElem?_set, hm n' hn, hl]
      · rw [List.getElem?_append_right (by simp; omega), List.getElem?_append_right (by simp; omega)]
        simp [hl]
    · exact Or.inl ⟨_, rfl, rfl⟩
  | assignMock a b =>
    simp only [MOp.mentions, not_or] at hop
    simp only [MWorld.step, ← hm a hop.1, ← hm b hop.2]
    split
    · split
      · split
        · exact Or.inr ⟨_, _, _, rfl, rfl, hw, hl, hlt, hm⟩
        · refine Or.inr ⟨_, _, _, rfl, rfl, hw, by simp [hl], by simpa using hlt, fun n' hn => ?_⟩
          simp only [List.getElem?_set, List.length_set, hm n' hn, hl]
      · exact Or.inl ⟨_, rfl, rfl⟩
    · exact Or.inl ⟨_, rfl, rfl⟩
  | dropMock n =>
    simp only [MOp.mentions] at hop
    simp only [MWorld.step, ← hm n hop]
    split
    · refine Or.inr ⟨_, _, _, rfl, rfl, hw, by simp [hl], by simpa using hlt, fun n' hn => ?_⟩
      simp only [List.getElem?_set, hm n' hn, hl]
    · exact Or.inl ⟨_, rfl, rfl⟩
  | expect n i min max tags args extra =>
    simp only [MOp.mentions] at hop
    simp only [MWorld.step, ← hfront n i hop]
    split
    · exact Or.inl ⟨_, rfl, rfl⟩
    · exact Or.inl ⟨_, rfl, rfl⟩
    · exact hplain _
  | call n i a =>
    simp only [MOp.mentions] at hop
    simp only [MWorld.step, ← hfront n i hop]
    split
    · exact Or.inl ⟨_, rfl, rfl⟩
    · exact Or.inl ⟨_, rfl, rfl⟩
    · exact hplain _

/-- C42: the end of a mock's life goes unnoticed: whatever the client does afterwards (without naming the dead variable,
which is no longer in scope), the reports are those of the same program with the mock still alive. -/
theorem C42_drop {mw mw' : MWorld τ β} {m : Nat} {ev : List Event} (hs : mw.step (.dropMock m) = .ok (mw', ev))
    (ops : List (MOp τ β)) (hops : ∀ op ∈ ops, ¬ op.mentions m) :
    ev = [] ∧ mw'.reports ops = mw.reports ops := by
  have key : ∀ (ops : List (MOp τ β)) (mw mw' : MWorld τ β), (∀ op ∈ ops, ¬ op.mentions m) → mw.w = mw'.w →
      mw.mocks.length = mw'.mocks.length → m < mw.mocks.length → (∀ n, n ≠ m → mw.mocks[n]? = mw'.mocks[n]?) →
      mw'.reports ops = mw.reports ops := by
    intro ops
    induction ops with
    | nil => intro mw mw' _ _ _ _ _; rfl
    | cons op ops ih =>
      intro mw mw' hops hw hl hlt hm
      rcases step_except hw hl hm (hops op (by simp)) hlt with ⟨x, h1, h2⟩ | ⟨r, r', ev, h1, h2, h3, h4, h5, h6⟩
      · simp [MWorld.reports, MWorld.record, h1, h2, bind, Except.bind]
      · have := ih r r' (fun o ho => hops o (by simp [ho])) h3 h4 h5 h6
        unfold MWorld.reports at this
        simp only [MWorld.reports, MWorld.record, h1, h2, bind, Except.bind]
        cases hr : r.record ops <;> cases hr' : r'.record ops <;> rw [hr, hr'] at this <;>
          simp_all [Except.map, pure, Except.pure]
  simp only [MWorld.step] at hs
  split at hs
  · rename_i sigs ptrs hm
    simp only [Except.ok.injEq, Prod.mk.injEq] at hs
    obtain ⟨rfl, rfl⟩ := hs
    have hlt := (List.getElem?_eq_some_iff.mp hm).1
    refine ⟨rfl, key ops _ _ hops rfl (by simp) hlt (fun n hn => ?_)⟩
    simp only [List.getElem?_set_ne (Ne.symm hn)]
  · simp at hs

/-- A mock is moved, used through the new variable, and dies before its expectations end. -/
example : (MWorld.final (β := Nat) [.newMock threeSigs, .expect 0 0 1 1 [] [] [], .expect 0 1 1 1 [] [] [], .moveMock 0,
    .call 1 0 5, .dropMock 0, .dropMock 1, .destroy 0, .destroy 1]).2.map (·.2) =
    [[.mockCreated 0], [.created 0], [.created 1], [], [.fullMatch 0], [], [], [.destroyed 0],
     [.destroyed 1, .unfulfilled 1]] := by decide

/-- The moved-from variable is unusable until a mock is assigned to it. -/
example :
    let mw := (MWorld.final (β := Nat) [.newMock threeSigs, .moveMock 0]).1
    (mw.reports [.call 0 0 5]).toOption = none ∧
    (mw.reports [.assignMock 0 1, .call 0 0 5]).toOption = some [[], [.noMatch []]] := by decide

end Mimic
