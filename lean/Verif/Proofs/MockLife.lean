import Verif.Proofs.Mock

/-!
# Recording mock histories; living variables
-/

set_option autoImplicit false

namespace Mimic

variable {τ β : Type} [DecidableEq τ]

/-! ### Recording concrete histories -/

/-- Runs a program and records what each operation reported. -/
def MWorld.record (mw : MWorld τ β) : List (MOp τ β) → M (MWorld τ β × MTrace τ β)
  | [] => .ok (mw, [])
  | op :: ops => do
    let (mw', ev) ← mw.step op
    let (mw'', tr) ← mw'.record ops
    return (mw'', (op, ev) :: tr)

theorem mrecord_reach (ops : List (MOp τ β)) : ∀ {tr : MTrace τ β} {mw : MWorld τ β} {r : MWorld τ β × MTrace τ β},
    MReach tr mw → mw.record ops = .ok r → MReach (tr ++ r.2) r.1 := by
  induction ops with
  | nil =>
    intro tr mw r h hr
    simp only [MWorld.record, Except.ok.injEq] at hr
    subst hr
    simpa using h
  | cons op ops ih =>
    intro tr mw r h hr
    simp only [MWorld.record, bind, Except.bind] at hr
    cases hs : mw.step op with
    | error x => rw [hs] at hr; simp at hr
    | ok x =>
      rw [hs] at hr
      simp only at hr
      cases hrec : x.1.record ops with
      | error y => rw [hrec] at hr; simp at hr
      | ok y =>
        rw [hrec] at hr
        simp only [pure, Except.pure, Except.ok.injEq] at hr
        subst hr
        have := ih (h.step (mw' := x.1) (ev := x.2) hs) hrec
        simpa using this

/-- The state and the history a program ends with (the fresh state if it does not survive). -/
def MWorld.final (ops : List (MOp τ β)) : MWorld τ β × MTrace τ β :=
  match (MWorld.init : MWorld τ β).record ops with
  | .ok r => r
  | .error _ => (MWorld.init, [])

theorem mreach_final (ops : List (MOp τ β)) : MReach (MWorld.final ops).2 (MWorld.final ops).1 := by
  unfold MWorld.final
  cases h : (MWorld.init : MWorld τ β).record ops with
  | error x => exact MReach.init
  | ok r => simpa using mrecord_reach ops MReach.init h

theorem MReach.alive {tr : MTrace τ β} {mw : MWorld τ β} (h : MReach tr mw) :
    mw.mocks.length = tr.vars.length ∧ (∀ m ev, (MOp.dropMock m, ev) ∈ tr → m < tr.vars.length) ∧
    ∀ m c, mw.mocks[m]? = some c → (c.alive = true ↔ ∀ ev, (MOp.dropMock m, ev) ∉ tr) := by
  induction h with
  | init =>
    refine ⟨rfl, by simp, ?_⟩
    intro m c hm; simp [MWorld.init] at hm
  | @step tr mw mw' op ev hr hs ih =>
    obtain ⟨hlen, hdrop, hal⟩ := ih
    obtain ⟨f, ft, hi⟩ := (hr.step hs).inv
    have hlen' := hi.len
    have hmono : tr.vars.length ≤ (MTrace.vars (tr ++ [(op, ev)])).length := by
      rw [vars_snoc]; exact varsStep_length _ _
    have hothers : (∀ m, op ≠ .dropMock m) → (∀ m c, mw'.mocks[m]? = some c → m < mw.mocks.length →
        ∃ c', mw.mocks[m]? = some c' ∧ c'.alive = c.alive) → (∀ m c, mw'.mocks[m]? = some c → mw.mocks.length ≤ m → c.alive = true) →
        (∀ m ev', (MOp.dropMock m, ev') ∈ tr ++ [(op, ev)] → m < (MTrace.vars (tr ++ [(op, ev)])).length) ∧
        ∀ m c, mw'.mocks[m]? = some c → (c.alive = true ↔ ∀ ev', (MOp.dropMock m, ev') ∉ tr ++ [(op, ev)]) := by
      intro hno hold hnew
      have hmem : ∀ m ev', (MOp.dropMock m, ev') ∈ tr ++ [(op, ev)] → (MOp.dropMock m, ev') ∈ tr := by
        intro m ev' hm
        simp only [List.mem_append, List.mem_singleton, Prod.mk.injEq] at hm
        rcases hm with hm | ⟨hm, _⟩
        · exact hm
        · exact absurd hm.symm (hno m)
      refine ⟨fun m ev' hm => Nat.lt_of_lt_of_le (hdrop m ev' (hmem m ev' hm)) hmono, fun m c hm => ?_⟩
      by_cases hlt : m < mw.mocks.length
      · obtain ⟨c', h1, h2⟩ := hold m c hm hlt
        rw [← h2, hal m c' h1]
        exact ⟨fun hh ev' hc => hh ev' (hmem m ev' hc), fun hh ev' hc => hh ev' (List.mem_append_left _ hc)⟩
      · have := hnew m c hm (by omega)
        simp only [this, true_iff]
        intro ev' hc
        have := hdrop m ev' (hmem m ev' hc)
        omega
    refine ⟨hlen', ?_⟩
    have hplain : ∀ {o : Op (CallInfo β)}, (∀ m, op ≠ .dropMock m) → mw.plain o = .ok (mw', ev) →
        (∀ m ev', (MOp.dropMock m, ev') ∈ tr ++ [(op, ev)] → m < (MTrace.vars (tr ++ [(op, ev)])).length) ∧
        ∀ m c, mw'.mocks[m]? = some c → (c.alive = true ↔ ∀ ev', (MOp.dropMock m, ev') ∉ tr ++ [(op, ev)]) := by
      intro o hno hp
      obtain ⟨w', _, rfl⟩ := MWorld.plain_ok hp
      refine hothers hno (fun m c hm _ => ⟨c, hm, rfl⟩) (fun m c hm hge => ?_)
      have := (List.getElem?_eq_some_iff.mp hm).1
      simp only at this
      omega
    cases op with
    | newSequence st => exact hplain (by simp) hs
    | dropSequence s => exact hplain (by simp) hs
    | destroy e => exact hplain (by simp) hs
    | call m i a =>
      simp only [MWorld.step] at hs
      split at hs
      · simp at hs
      · simp at hs
      · exact hplain (by simp) hs
    | expect m i min max tags args extra =>
      simp only [MWorld.step] at hs
      split at hs
      · simp at hs
      · simp at hs
      · exact hplain (by simp) hs
    | newMock sigs =>
      simp only [MWorld.step] at hs
      split at hs
      · simp only [bind, Except.bind] at hs
        split at hs
        · simp at hs
        · simp only [pure, Except.pure, Except.ok.injEq, Prod.mk.injEq] at hs
          obtain ⟨rfl, rfl⟩ := hs
          refine hothers (by simp) (fun m c hm hlt => ?_) (fun m c hm hge => ?_)
          · rw [List.getElem?_append_left hlt] at hm
            exact ⟨c, hm, rfl⟩
          · rw [List.getElem?_append_right hge] at hm
            have := List.mem_of_getElem? hm
            simp only [List.mem_singleton] at this
            rw [this]
      · simp at hs
    | moveMock m =>
      simp only [MWorld.step] at hs
      split at hs
      · rename_i sigs ptrs hm
        simp only [Except.ok.injEq, Prod.mk.injEq] at hs
        obtain ⟨rfl, rfl⟩ := hs
        refine hothers (by simp) (fun n c hn hlt => ?_) (fun n c hn hge => ?_)
        · rw [List.getElem?_append_left (by simpa using hlt)] at hn
          by_cases hmn : m = n
          · subst hmn
            rw [List.getElem?_set_self hlt] at hn
            simp only [Option.some.injEq] at hn
            subst hn
            exact ⟨_, hm, rfl⟩
          · rw [List.getElem?_set_ne hmn] at hn
            exact ⟨c, hn, rfl⟩
        · rw [List.getElem?_append_right (by simpa using hge)] at hn
          have := List.mem_of_getElem? hn
          simp only [List.mem_singleton] at this
          rw [this]
      · simp at hs
    | assignMock dst src =>
      simp only [MWorld.step] at hs
      split at hs
      · rename_i sigs ptrs sigs' ptrs' hd hsrc
        split at hs
        · split at hs
          · simp only [Except.ok.injEq, Prod.mk.injEq] at hs
            obtain ⟨rfl, rfl⟩ := hs
            refine hothers (by simp) (fun n c hn _ => ⟨c, hn, rfl⟩) (fun n c hn hge => ?_)
            have := (List.getElem?_eq_some_iff.mp hn).1
            omega
          · simp only [Except.ok.injEq, Prod.mk.injEq] at hs
            obtain ⟨rfl, rfl⟩ := hs
            refine hothers (by simp) (fun n c hn hlt => ?_) (fun n c hn hge => ?_)
            · by_cases hns : src = n
              · subst hns
                rw [List.getElem?_set_self (by simpa using hlt)] at hn
                simp only [Option.some.injEq] at hn
                subst hn
                exact ⟨_, hsrc, rfl⟩
              · rw [List.getElem?_set_ne hns] at hn
                by_cases hnd : dst = n
                · subst hnd
                  rw [List.getElem?_set_self hlt] at hn
                  simp only [Option.some.injEq] at hn
                  subst hn
                  exact ⟨_, hd, rfl⟩
                · rw [List.getElem?_set_ne hnd] at hn
                  exact ⟨c, hn, rfl⟩
            · have := (List.getElem?_eq_some_iff.mp hn).1
              simp only [List.length_set] at this
              omega
        · simp at hs
      · simp at hs
    | dropMock m =>
      simp only [MWorld.step] at hs
      split at hs
      · rename_i sigs ptrs hm
        simp only [Except.ok.injEq, Prod.mk.injEq] at hs
        obtain ⟨rfl, rfl⟩ := hs
        have hlt := (List.getElem?_eq_some_iff.mp hm).1
        refine ⟨fun n ev' hn => ?_, fun n c hn => ?_⟩
        · simp only [List.mem_append, List.mem_singleton, Prod.mk.injEq, MOp.dropMock.injEq] at hn
          rcases hn with hn | ⟨rfl, _⟩
          · exact Nat.lt_of_lt_of_le (hdrop n ev' hn) hmono
          · rw [hlen] at hlt; exact Nat.lt_of_lt_of_le hlt hmono
        · by_cases hmn : m = n
          · subst hmn
            rw [List.getElem?_set_self hlt] at hn
            simp only [Option.some.injEq] at hn
            subst hn
            simp only [Bool.false_eq_true, false_iff]
            intro hh
            exact hh [] (by simp)
          · rw [List.getElem?_set_ne hmn] at hn
            rw [hal n c hn]
            constructor
            · intro hh ev' hc
              simp only [List.mem_append, List.mem_singleton, Prod.mk.injEq, MOp.dropMock.injEq] at hc
              rcases hc with hc | ⟨hc, _⟩
              · exact hh ev' hc
              · exact hmn hc.symm
            · intro hh ev' hc
              exact hh ev' (List.mem_append_left _ hc)
      · simp at hs

/-- The front-end of a held mock is usable; that of a living variable without a mock has no storage. -/
theorem MReach.frontend {tr : MTrace τ β} {mw : MWorld τ β} (h : MReach tr mw) (m i : Nat) :
    (∀ k, tr.holds m k → ∃ sigs, tr.sigs k = some sigs ∧
      ((i < sigs.length → ∃ c cat con, mw.frontend m i = some (some c, cat, con) ∧ c < mw.w.colls.length) ∧
       (sigs.length ≤ i → mw.frontend m i = none))) ∧
    ((∀ k, ¬ tr.holds m k) → ∀ c cat con, mw.frontend m i ≠ some (some c, cat, con)) ∧
    (¬ tr.living m → mw.frontend m i = none) ∧
    (∀ k, tr.holds m k → tr.living m) := by
  obtain ⟨f, ft, hi⟩ := h.inv
  obtain ⟨hlen, hdrop, hal⟩ := h.alive
  refine ⟨fun k hk => ?_, fun hn c cat con hf => ?_, fun hl => ?_, fun k hk => ?_⟩
  · obtain ⟨h1, h2, h3⟩ := hi.held m k hk
    refine ⟨_, h2, fun hlt => ?_, fun hge => ?_⟩
    · have hg : (f k).2[i]? = some (f k).2[i] := List.getElem?_eq_getElem hlt
      obtain ⟨hpw, hvar⟩ := hi.sig k h1
      have hmem : (f k).2[i] ∈ (f k).2 := List.getElem_mem hlt
      obtain ⟨⟨idx, hidx, hidx'⟩, _⟩ := C23_binding (f k).2 _ hmem
      have hb := hi.bound k h1
      have := (List.getElem?_eq_some_iff.mp hidx').1
      unfold MWorld.frontend
      rw [h3]
      simp only [if_true, ptrsOf, List.getElem?_map, hg, Option.map_some, hidx, frontend_eq, hvar _ hmem,
        Bool.false_eq_true, if_false]
      exact ⟨_, _, _, rfl, by omega⟩
    · unfold MWorld.frontend
      rw [h3]
      simp [List.getElem?_eq_none hge]
  · obtain ⟨k, _, _, hk, _⟩ := hi.frontend hf
    exact hn k hk
  · unfold MWorld.frontend
    split
    · rename_i c hc
      rw [if_neg]
      intro hca
      exact hl ⟨by rw [← hlen]; exact (List.getElem?_eq_some_iff.mp hc).1, (hal m c hc).mp hca⟩
    · rfl
  · obtain ⟨_, _, h3⟩ := hi.held m k hk
    exact ⟨by rw [← hlen]; exact (List.getElem?_eq_some_iff.mp h3).1, (hal m _ h3).mp rfl⟩

/-- Every variable has at least one overload and a front-end for each. -/
theorem MReach.cells {tr : MTrace τ β} {mw : MWorld τ β} (h : MReach tr mw) :
    ∀ c ∈ mw.mocks, c.ptrs.length = c.sigs.length ∧ c.sigs ≠ [] ∧ ∀ g ∈ c.sigs, g.frontend.isSome = true := by
  induction h with
  | init => intro c hc; simp [MWorld.init] at hc
  | @step tr mw mw' op ev hr hs ih =>
    have hplain : ∀ {o : Op (CallInfo β)}, mw.plain o = .ok (mw', ev) → mw'.mocks = mw.mocks := by
      intro o hp
      obtain ⟨w', _, rfl⟩ := MWorld.plain_ok hp
      rfl
    have hset : ∀ (l : List (MockCell τ)) (n : Nat) (x : MockCell τ), (∀ c ∈ l, c.ptrs.length = c.sigs.length ∧
        c.sigs ≠ [] ∧ ∀ g ∈ c.sigs, g.frontend.isSome = true) → (x.ptrs.length = x.sigs.length ∧
        x.sigs ≠ [] ∧ ∀ g ∈ x.sigs, g.frontend.isSome = true) → ∀ c ∈ l.set n x, c.ptrs.length = c.sigs.length ∧
        c.sigs ≠ [] ∧ ∀ g ∈ c.sigs, g.frontend.isSome = true := by
      intro l n x hl hx c hc
      rcases List.mem_or_eq_of_mem_set hc with hc | rfl
      · exact hl c hc
      · exact hx
    cases op with
    | newSequence st => rw [hplain hs]; exact ih
    | dropSequence s => rw [hplain hs]; exact ih
    | destroy e => rw [hplain hs]; exact ih
    | call m i a =>
      simp only [MWorld.step] at hs
      split at hs
      · simp at hs
      · simp at hs
      · rw [hplain hs]; exact ih
    | expect m i min max tags args extra =>
      simp only [MWorld.step] at hs
      split at hs
      · simp at hs
      · simp at hs
      · rw [hplain hs]; exact ih
    | newMock sigs =>
      simp only [MWorld.step] at hs
      split at hs
      · rename_i hok
        simp only [bind, Except.bind] at hs
        split at hs
        · simp at hs
        · simp only [pure, Except.pure, Except.ok.injEq, Prod.mk.injEq] at hs
          obtain ⟨rfl, rfl⟩ := hs
          intro c hc
          simp only [List.mem_append, List.mem_singleton] at hc
          rcases hc with hc | rfl
          · exact ih c hc
          · refine ⟨by simp, ?_, List.all_eq_true.mp hok.2.1⟩
            have := hok.1
            show sigs ≠ []
            rintro rfl
            simp [isOverloadSet] at this
      · simp at hs
    | moveMock m =>
      simp only [MWorld.step] at hs
      split at hs
      · rename_i sigs ptrs hm
        simp only [Except.ok.injEq, Prod.mk.injEq] at hs
        obtain ⟨rfl, rfl⟩ := hs
        have := ih _ (List.mem_of_getElem? hm)
        intro c hc
        simp only [List.mem_append, List.mem_singleton] at hc
        rcases hc with hc | rfl
        · exact hset _ m ⟨sigs, ptrs.map (fun _ => none), true⟩ ih ⟨by simpa using this.1, this.2⟩ c hc
        · exact this
      · simp at hs
    | assignMock dst src =>
      simp only [MWorld.step] at hs
      split at hs
      · rename_i sigs ptrs sigs' ptrs' hd hsrc
        split at hs
        · rename_i heq
          subst heq
          have := ih _ (List.mem_of_getElem? hsrc)
          split at hs
          · simp only [Except.ok.injEq, Prod.mk.injEq] at hs
            obtain ⟨rfl, rfl⟩ := hs
            exact ih
          · simp only [Except.ok.injEq, Prod.mk.injEq] at hs
            obtain ⟨rfl, rfl⟩ := hs
            exact hset _ _ _ (hset _ _ _ ih this) ⟨by simpa using this.1, this.2⟩
        · simp at hs
      · simp at hs
    | dropMock m =>
      simp only [MWorld.step] at hs
      split at hs
      · rename_i sigs ptrs hm
        simp only [Except.ok.injEq, Prod.mk.injEq] at hs
        obtain ⟨rfl, rfl⟩ := hs
        have := ih _ (List.mem_of_getElem? hm)
        exact hset _ m ⟨sigs, ptrs, false⟩ ih this
      · simp at hs

/-- A living variable without a mock: the front-ends exist and have no storage. -/
theorem MReach.movedFrom {tr : MTrace τ β} {mw : MWorld τ β} (h : MReach tr mw) {m : Nat} (hl : tr.living m)
    (hn : ∀ k, ¬ tr.holds m k) : ∃ n, 0 < n ∧ ∀ i,
      (i < n → ∃ cat con, mw.frontend m i = some (none, cat, con)) ∧ (n ≤ i → mw.frontend m i = none) := by
  obtain ⟨hlen, hdrop, hal⟩ := h.alive
  have hlt : m < mw.mocks.length := by rw [hlen]; exact hl.1
  have hm := List.getElem?_eq_getElem hlt
  have ha := (hal m _ hm).mpr hl.2
  obtain ⟨h1, h2, h3⟩ := h.cells _ (List.getElem_mem hlt)
  refine ⟨mw.mocks[m].sigs.length, List.length_pos_iff.mpr h2, fun i => ⟨fun hi => ?_, fun hi => ?_⟩⟩
  · have hf := h3 _ (List.getElem_mem hi)
    rw [Option.isSome_iff_exists] at hf
    obtain ⟨⟨cat, con⟩, hf⟩ := hf
    have hres : mw.frontend m i = some (mw.mocks[m].ptrs[i]'(by omega), cat, con) := by
      unfold MWorld.frontend
      simp only [hm, ha, if_true, List.getElem?_eq_getElem hi, List.getElem?_eq_getElem (show i < mw.mocks[m].ptrs.length by omega), hf]
    refine ⟨cat, con, ?_⟩
    cases hp : mw.mocks[m].ptrs[i]'(by omega) with
    | none => rw [hres, hp]
    | some c =>
      rw [hp] at hres
      exact absurd hres ((h.frontend m i).2.1 hn c cat con)
  · unfold MWorld.frontend
    simp [hm, List.getElem?_eq_none hi]

end Mimic
