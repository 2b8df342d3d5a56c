import Verif.Spec.WatcherProgress
import Verif.Proofs.WatcherLife

/-!
# What a client of watched objects may do: lemmas
-/

set_option autoImplicit false

namespace Mimic

variable {α : Type} {a0 : Trigger α}

/-- What the client created does not belong to watchers. -/
structure OwnInv (tr : WTrace α) (ww : WWorld α) : Prop where
  apart : ∀ k, tr.mine k → k ∉ ww.owned
  created : ∀ k, tr.mine k → k < ww.w.colls.length

theorem mine_snoc {tr : WTrace α} {op : WOp α} {log : List (WEvent α)} {k : Nat} :
    (tr ++ [(op, log)] : WTrace α).mine k ↔
      tr.mine k ∨ (op = .plain .newMock ∧ ∃ ev, WEvent.lib .newMock ev ∈ log ∧ Event.mockCreated k ∈ ev) := by
  unfold WTrace.mine
  simp only [List.mem_append, List.mem_singleton, Prod.mk.injEq]
  constructor
  · rintro ⟨l, ev, h1 | ⟨h1, rfl⟩, h2, h3⟩
    · exact .inl ⟨l, ev, h1, h2, h3⟩
    · exact .inr ⟨h1.symm, ev, h2, h3⟩
  · rintro (⟨l, ev, h1, h2, h3⟩ | ⟨rfl, ev, h2, h3⟩)
    · exact ⟨l, ev, .inl h1, h2, h3⟩
    · exact ⟨log, ev, .inr ⟨rfl, rfl⟩, h2, h3⟩

/-- What an operation does to the storages. -/
theorem owned_step {tr : WTrace α} {ww ww' : WWorld α} (h : WReach a0 tr ww) {op : WOp α} {log : List (WEvent α)}
    (hs : ww.step a0 op = .ok (ww', log)) :
    (ww.w.colls.length ≤ ww'.w.colls.length) ∧ (∀ k ∈ ww'.owned, k ∈ ww.owned ∨ (ww.w.colls.length ≤ k ∧ op ≠ .plain .newMock)) := by
  have hr := h.inv.reach
  have hg := grown_reach hr
  cases WStep.of_step hs with
  | @plain op w' ev ht hst => exact ⟨by have := (step_lengths hr hst).2; simp; omega, fun k hk => .inl hk⟩
  | make hop => exact ⟨by simp [WWorld.grown], by rcases hop with rfl | ⟨_, _, rfl, _⟩ <;> simp [WWorld.grown] <;> grind⟩
  | moveR _ _ _ hst _ => exact ⟨by have := colls_call hg hst; simp [WWorld.grown] at this ⊢; omega, by simp [WWorld.grown]; grind⟩
  | moveRfail _ _ _ hst _ => exact ⟨by have := colls_call hg hst; simp [WWorld.grown] at this ⊢; omega, by simp [WWorld.grown]; grind⟩
  | copyAssign _ _ _ _ => exact ⟨by simp [WWorld.grown], by simp [WWorld.grown]; grind⟩
  | copyAssignL _ _ _ _ _ hst _ => exact ⟨by have := colls_call hr hst; simp; omega, by have := colls_call hr hst; simp; grind⟩
  | copyAssignLfail _ _ _ _ _ hst _ => exact ⟨by have := colls_call hr hst; simp; omega, fun k hk => .inl hk⟩
  | moveAssignSelfR _ _ _ hst _ => exact ⟨by have := colls_call hr hst; simp; omega, fun k hk => .inl hk⟩
  | moveAssignR _ _ _ _ _ _ hst _ => exact ⟨by have := colls_call hr hst; simp; omega, fun k hk => .inl hk⟩
  | moveAssignRfail _ _ _ _ _ hst _ => exact ⟨by have := colls_call hr hst; simp; omega, fun k hk => .inl hk⟩
  | dropL _ _ _ hst => exact ⟨by have := colls_call hr hst; simp; omega, fun k hk => .inl hk⟩
  | expectL _ _ _ _ hst => exact ⟨by have := colls_expect hr hst; simp; omega, fun k hk => .inl hk⟩
  | expectR _ _ _ hst => exact ⟨by have := colls_expect hr hst; simp; omega, fun k hk => .inl hk⟩
  | _ => exact ⟨Nat.le_refl _, fun k hk => .inl hk⟩

theorem WReach.ownInv {tr : WTrace α} {ww : WWorld α} (h : WReach a0 tr ww) : OwnInv tr ww := by
  induction h with
  | init => exact ⟨by simp [WTrace.mine], by simp [WTrace.mine]⟩
  | @step tr ww ww' op log h hs ih =>
    obtain ⟨h1, h2⟩ := owned_step h hs
    have key : ∀ k, op = .plain .newMock → (∃ ev, WEvent.lib .newMock ev ∈ log ∧ Event.mockCreated k ∈ ev) →
        k = ww.w.colls.length ∧ ww'.w.colls.length = ww.w.colls.length + 1 := by
      rintro k rfl ⟨ev, hev, hk⟩
      simp only [WWorld.step, WWorld.touches, WWorld.lib, newMock_ok, Bool.false_eq_true, if_false, Except.ok.injEq, Prod.mk.injEq] at hs
      obtain ⟨rfl, rfl⟩ := hs
      simp only [List.mem_singleton, WEvent.lib.injEq, true_and] at hev
      subst hev
      simp at hk
      exact ⟨hk, by simp⟩
    constructor
    · intro k hk hc
      rcases mine_snoc.mp hk with hk | ⟨rfl, hk⟩
      · rcases h2 k hc with hc | ⟨hc, -⟩
        · exact ih.apart k hk hc
        · have := ih.created k hk; omega
      · rename_i hk'
        rcases h2 k hc with hc | ⟨-, hc⟩
        · have := h.inv.owned k hc
          have := key k rfl hk'
          omega
        · exact hc rfl
    · intro k hk
      rcases mine_snoc.mp hk with hk | ⟨hop, hk⟩
      · have := ih.created k hk; omega
      · have := key k hop hk; omega

theorem untouched {tr : WTrace α} {ww : WWorld α} (h : WReach a0 tr ww) {op : Op α} (hv : tr.valid (.plain op)) : ww.touches op = false := by
  obtain ⟨-, h1, h2⟩ := hv
  cases op <;> simp only [WWorld.touches]
  · simpa using h.ownInv.apart _ (h1 _ _ _ _ _ rfl)
  · simpa using h.ownInv.apart _ (h2 _ _ rfl)

end Mimic
