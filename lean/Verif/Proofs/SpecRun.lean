import Verif.Proofs.Bridge
import Verif.Proofs.Demo
import Verif.Props.Safety

/-!
# Programs and the reference semantics

A program runs on the library exactly if it runs in the reference semantics and no sequence is asked to take more
expectations than it can count, and both report the same.
-/

set_option autoImplicit false

namespace Mimic

variable {α : Type}

/-- No sequence is asked to take more expectations than it can count. -/
def Spec.State.fits (S : Spec.State α) : List (Op α) → Prop
  | [] => True
  | op :: ops => ¬ S.full op ∧ ∀ S' ev, S.step op = some (S', ev) → S'.fits ops

theorem run_iff_spec {tr : Trace α} {w : World α} (hr : Reach tr w) {ops : List (Op α)} {evs : List Event} :
    (∃ w', w.run ops = .ok (w', evs)) ↔ (∃ S, (abs w).run ops = some (S, evs)) ∧ (abs w).fits ops := by
  induction ops generalizing tr w evs with
  | nil =>
    constructor
    · rintro ⟨w', h⟩
      simp only [World.run, Except.ok.injEq, Prod.mk.injEq] at h
      obtain ⟨-, rfl⟩ := h
      exact ⟨⟨_, rfl⟩, trivial⟩
    · rintro ⟨⟨S, h⟩, -⟩
      simp only [Spec.State.run, Option.some.injEq, Prod.mk.injEq] at h
      obtain ⟨-, rfl⟩ := h
      exact ⟨_, rfl⟩
  | cons op ops ih =>
    constructor
    · rintro ⟨w', h⟩
      simp only [World.run, bind, Except.bind, pure, Except.pure] at h
      cases hs : w.step op with
      | error x => rw [hs] at h; cases h
      | ok r =>
        obtain ⟨w1, ev1⟩ := r
        rw [hs] at h
        simp only at h
        cases hs2 : w1.run ops with
        | error x => rw [hs2] at h; cases h
        | ok r2 =>
          obtain ⟨w2, ev2⟩ := r2
          rw [hs2] at h
          simp only [Except.ok.injEq, Prod.mk.injEq] at h
          obtain ⟨rfl, rfl⟩ := h
          obtain ⟨⟨S, h1⟩, h2⟩ := (ih (hr.step hs)).mp ⟨w2, hs2⟩
          have hsp := hr.spec_step hs
          refine ⟨⟨S, by simp [Spec.State.run, hsp, h1]⟩, ?_, ?_⟩
          · intro hf
            obtain ⟨why, hw⟩ := (C17_progress hr op).2.1 ((hr.view.2.valid_iff op).mpr ⟨_, hsp⟩)
              ((overflows_iff hr.view.2 op).mpr hf)
            rw [hs] at hw; cases hw
          · intro S' ev hst
            rw [hsp] at hst
            simp only [Option.some.injEq, Prod.mk.injEq] at hst
            rw [← hst.1]; exact h2
    · rintro ⟨⟨S, h⟩, hf, hfits⟩
      simp only [Spec.State.run] at h
      split at h
      · cases h
      · rename_i S1 ev1 hs1
        split at h
        · cases h
        · rename_i S2 ev2 hs2
          simp only [Option.some.injEq, Prod.mk.injEq] at h
          obtain ⟨rfl, rfl⟩ := h
          obtain ⟨w1, ev, hw⟩ := (C17_progress hr op).1 ((hr.view.2.valid_iff op).mpr ⟨_, hs1⟩)
            (by rw [overflows_iff hr.view.2]; exact hf)
          have hsp := hr.spec_step hw
          rw [hs1] at hsp
          simp only [Option.some.injEq, Prod.mk.injEq] at hsp
          obtain ⟨rfl, rfl⟩ := hsp
          obtain ⟨w2, hw2⟩ := (ih (hr.step hw)).mpr ⟨⟨_, hs2⟩, hfits _ _ hs1⟩
          exact ⟨w2, by simp [World.run, hw, hw2, bind, Except.bind, pure, Except.pure]⟩

theorem program_iff_spec {ops : List (Op α)} {evs : List Event} :
    (∃ w, runProgram ops = .ok (w, evs)) ↔
      (∃ S, (Spec.State.init : Spec.State α).run ops = some (S, evs)) ∧ (Spec.State.init : Spec.State α).fits ops := by
  rw [← abs_init]
  exact run_iff_spec Reach.init

end Mimic
