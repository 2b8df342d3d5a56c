import Verif.Proofs.WatcherProgress
import Verif.Props.Watchers

/-!
# C34–C36: what a client of watched objects may do
-/

set_option autoImplicit false

namespace Mimic

variable {α : Type} {a0 : Trigger α}

/-- C34–C36: watchers do not affect anything else: an operation on what the client created itself does what it does in a program
without watchers, in which only the mocks of the watchers were used the way the watchers used them. -/
theorem C34_others {tr : WTrace α} {ww : WWorld α} (h : WReach a0 tr ww) {op : Op α} (hv : tr.valid (.plain op)) :
    ∃ w, Reach tr.flat w ∧
      (∀ w' ev, w.step op = .ok (w', ev) → ∃ ww', ww.step a0 (.plain op) = .ok (ww', [.lib op ev])) ∧
      (∀ x, w.step op = .error x → ww.step a0 (.plain op) = .error x) := by
  refine ⟨ww.w, h.inv.reach, ?_, ?_⟩
  · intro w' ev hs
    refine ⟨{ ww with w := w' }, ?_⟩
    simp only [WWorld.step, untouched h hv, WWorld.lib, hs, Bool.false_eq_true, if_false]
  · intro x hs
    simp only [WWorld.step, untouched h hv, WWorld.lib, hs, Bool.false_eq_true, if_false]

theorem call_ok {tr : Trace α} {w : World α} (h : Reach tr w) {k : Nat} (hk : k < w.colls.length) (a : α) :
    ∃ w' ev, w.step (.call k a) = .ok (w', ev) :=
  (C17_progress h (.call k a)).1 ((h.view.2.mocks k).mpr hk) id

/-- C34–C36: everything else works: an operation that only uses what exists succeeds, unless it uses an object that carries nothing
(C35), or the operation attaches an expectation to a sequence that is full (C17). -/
theorem C34_progress {tr : WTrace α} {ww : WWorld α} (h : WReach a0 tr ww) {op : WOp α} (hv : tr.valid op) (hu : ¬ tr.undefined op)
    (hf : ¬ tr.overfull op) :
    ∃ ww' log, ww.step a0 op = .ok (ww', log) := by
  have hi := h.inv
  have hi2 := h.inv2
  have hr := hi.reach
  have nub : ∀ why, ww.step a0 op ≠ .error (.ub why) := by
    intro why hw
    exact hu ((C35_undefined h op).mp ⟨why, hw⟩)
  have hlt : ∀ {o x k}, ww.obj o = some x → x.mock = some k → k < ww.w.colls.length := by
    intro o x k hx hk
    apply hi.owned
    apply hi.mock o
    rw [(obj_some hx).2.2.2, hk]
  cases op with
  | plain op =>
    have ho : ¬ tr.flat.overflows op := by
      cases op with
      | expect m min max seqs ps => exact fun hc => hf ⟨m, min, max, seqs, ps, hc, .inl rfl⟩
      | _ => exact id
    obtain ⟨w', ev, hs⟩ := (C17_progress hr op).1 hv.1 ho
    exact ⟨{ ww with w := w' }, [.lib op ev], by simp only [WWorld.step, untouched h hv, WWorld.lib, hs, Bool.false_eq_true, if_false]⟩
  | create kind => exact ⟨_, _, rfl⟩
  | copy s =>
    obtain ⟨x, hx⟩ := (h.exists_iff s).mp hv
    simp only [WWorld.step, hx]
    exact ⟨_, _, rfl⟩
  | move s =>
    obtain ⟨x, hx⟩ := (h.exists_iff s).mp hv
    simp only [WWorld.step, hx] at nub ⊢
    cases hk : x.kind with
    | lifetime => exact ⟨_, _, rfl⟩
    | relocation =>
      simp only [hk, WWorld.fresh_eq] at nub ⊢
      cases hm : x.mock with
      | none => rw [hm] at nub; exact absurd rfl (nub _)
      | some c =>
        obtain ⟨w', ev, hc⟩ := call_ok (grown_reach hr) (k := c) (by have := hlt hx hm; simp [WWorld.grown]; omega) a0.arg
        simp only [WWorld.lib, hc]
        cases a0.fails ev <;> exact ⟨_, _, rfl⟩
  | copyAssign d s =>
    obtain ⟨h1, h2, kd, h3, h4⟩ := hv
    obtain ⟨x, hx⟩ := (h.exists_iff d).mp h1
    obtain ⟨y, hy⟩ := (h.exists_iff s).mp h2
    have h5 : x.kind = y.kind := by
      have a1 := (hi2.kind d kd).mp h3
      have a2 := (hi2.kind s kd).mp h4
      rw [(obj_fields hx).2.1] at a1
      rw [(obj_fields hy).2.1] at a2
      simp_all
    simp only [WWorld.step, hx, hy, if_pos h5]
    cases hk : x.kind with
    | relocation => exact ⟨_, _, rfl⟩
    | lifetime =>
      cases hm : x.mock with
      | none => exact ⟨_, _, rfl⟩
      | some c =>
        obtain ⟨w', ev, hc⟩ := call_ok hr (hlt hx hm) a0.arg
        simp only [WWorld.lib, hc]
        cases a0.fails ev <;> exact ⟨_, _, rfl⟩
  | moveAssign d s =>
    obtain ⟨h1, h2, kd, h3, h4⟩ := hv
    obtain ⟨x, hx⟩ := (h.exists_iff d).mp h1
    obtain ⟨y, hy⟩ := (h.exists_iff s).mp h2
    have h5 : x.kind = y.kind := by
      have a1 := (hi2.kind d kd).mp h3
      have a2 := (hi2.kind s kd).mp h4
      rw [(obj_fields hx).2.1] at a1
      rw [(obj_fields hy).2.1] at a2
      simp_all
    simp only [WWorld.step, hx, hy, if_pos h5] at nub ⊢
    cases hk : y.kind with
    | lifetime =>
      by_cases hd : d = s
      · simp only [if_pos hd]; exact ⟨_, _, rfl⟩
      · simp only [if_neg hd]; exact ⟨_, _, rfl⟩
    | relocation =>
      simp only [hk] at nub ⊢
      cases hm : y.mock with
      | none => rw [hm] at nub; exact absurd rfl (nub _)
      | some c =>
        obtain ⟨w', ev, hc⟩ := call_ok hr (hlt hy hm) a0.arg
        simp only [WWorld.lib, hc]
        cases a0.fails ev <;> by_cases hd : d = s <;> simp [hd]
  | drop o =>
    obtain ⟨x, hx⟩ := (h.exists_iff o).mp hv
    simp only [WWorld.step, hx]
    cases hk : x.kind with
    | relocation => exact ⟨_, _, rfl⟩
    | lifetime =>
      cases hm : x.mock with
      | none => exact ⟨_, _, rfl⟩
      | some c =>
        obtain ⟨w', ev, hc⟩ := call_ok hr (hlt hx hm) a0.arg
        simp only [WWorld.lib, hc]
        exact ⟨_, _, rfl⟩
  | expect o min max seqs ps =>
    obtain ⟨h1, h2, h3, h4⟩ := hv
    obtain ⟨x, hx⟩ := (h.exists_iff o).mp h1
    have hkd := (obj_fields hx).2.1
    simp only [WWorld.step, hx] at nub ⊢
    cases hk : x.kind with
    | lifetime =>
      simp only [hk] at nub ⊢
      cases hh : x.has with
      | true => exact ⟨_, _, rfl⟩
      | false =>
        simp only [hh, Bool.false_eq_true, if_false] at nub ⊢
        cases hm : x.mock with
        | none => rw [hm] at nub; exact absurd rfl (nub _)
        | some c =>
          obtain ⟨w', ev, hc⟩ := (C17_progress hr (.expect c 1 1 seqs ps)).1
            ⟨(hr.view.2.mocks c).mpr (hlt hx hm), h2, by omega, by omega⟩
            (fun hc => hf ⟨c, 1, 1, seqs, ps, hc, .inr (.inr ⟨o, min, max, rfl, rfl, rfl, (hi2.kind _ _).mpr (by rw [hkd, hk])⟩)⟩)
          simp only [WWorld.lib, hc]
          exact ⟨_, _, rfl⟩
    | relocation =>
      simp only [hk] at nub ⊢
      cases hm : x.mock with
      | none => rw [hm] at nub; exact absurd rfl (nub _)
      | some c =>
        obtain ⟨w', ev, hc⟩ := (C17_progress hr (.expect c min max seqs ps)).1
          ⟨(hr.view.2.mocks c).mpr (hlt hx hm), h2, h3, h4⟩
          (fun hc => hf ⟨c, min, max, seqs, ps, hc, .inr (.inl ⟨o, rfl, (hi2.kind _ _).mpr (by rw [hkd, hk])⟩)⟩)
        simp only [WWorld.lib, hc]
        exact ⟨_, _, rfl⟩
  | abandon o =>
    obtain ⟨x, hx⟩ := (h.exists_iff o).mp hv
    simp only [WWorld.step, hx] at nub ⊢
    cases hk : x.kind with
    | lifetime =>
      simp only [hk] at nub ⊢
      cases hh : x.has with
      | true => exact ⟨_, _, rfl⟩
      | false =>
        simp only [hh, Bool.false_eq_true, if_false] at nub ⊢
        cases hm : x.mock with
        | none => rw [hm] at nub; exact absurd rfl (nub _)
        | some c => exact ⟨_, _, rfl⟩
    | relocation =>
      simp only [hk] at nub ⊢
      cases hm : x.mock with
      | none => rw [hm] at nub; exact absurd rfl (nub _)
      | some c => exact ⟨_, _, rfl⟩

open WatcherExamples in
/-- The hypotheses can be met: a call of a mock of the client while there is a watched object. -/
example : ∃ (tr : WTrace Unit) (ww : WWorld Unit), WReach calm tr ww ∧ tr.watch 1 ∧ tr.mine 0 ∧ tr.valid (.plain (.call 0 ())) ∧
    ¬ tr.undefined (.plain (.call 0 ())) ∧ tr.valid (.drop 0) ∧ ¬ tr.undefined (.drop 0) := by
  let tr : WTrace Unit := [((.plain .newMock : WOp Unit), [.lib .newMock [.mockCreated 0]]),
    (.create .lifetime, [.lib .newMock [.mockCreated 1], .object 0 .lifetime, .born 0 1])]
  have hm : tr.mine 0 := ⟨_, _, List.mem_cons_self, List.mem_cons_self, List.mem_cons_self⟩
  refine ⟨tr, _, .step (op := .create .lifetime) (.step (op := .plain .newMock) .init rfl) rfl, ?_, hm, ⟨?_, ?_, ?_⟩, ?_, ?_, ?_⟩
  · exact ⟨_, List.mem_cons_of_mem _ List.mem_cons_self, 0, by simp⟩
  · show Event.mockCreated 0 ∈ _
    decide
  · intro _ _ _ _ _ h; cases h
  · intro _ _ h; cases h; exact hm
  · rintro ⟨o, -, -, ⟨⟨_, _, _, _, h⟩ | h, -⟩ | ⟨-, h | ⟨_, h, -⟩⟩⟩ <;> cases h
  · exact ⟨⟨.lifetime, _, List.mem_cons_of_mem _ List.mem_cons_self, by simp⟩, by simp [tr]⟩
  · rintro ⟨o, -, -, ⟨⟨_, _, _, _, h⟩ | h, -⟩ | ⟨-, h | ⟨_, h, -⟩⟩⟩ <;> cases h

end Mimic
