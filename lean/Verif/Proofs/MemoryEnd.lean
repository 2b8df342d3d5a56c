import Verif.Proofs.Memory
import Verif.Proofs.Whole

/-!
# Lemmas about sequence errors when memory may run out
-/

set_option autoImplicit false

namespace Mimic.Memory

variable {α : Type}

theorem endOf_error {tr : Trace α} {s : Nat} {ev : List Event} (h : Whole.EndOf tr s ev) :
    ev.any isSequenceError = true ↔ ∃ e, tr.attached e s ∧ tr.tooFew e := by
  cases h with
  | fine h => simpa [isSequenceError] using h
  | missing ho hk ht _ => simpa [isSequenceError] using ⟨_, (ho.2 _).mp (List.mem_of_getElem? hk), ht⟩

theorem ends_error {tr : Trace α} {kept : Nat → Prop} {ss : List Nat} {evs : List Event} (h : Whole.Ends tr kept ss evs) :
    evs.any isSequenceError = true ↔ ∃ s ∈ ss, ¬ kept s ∧ ∃ e, tr.attached e s ∧ tr.tooFew e := by
  induction h with
  | nil => simp
  | keep hk _ ih =>
    rw [ih]
    simp [hk]
  | gone hn he _ ih =>
    rw [List.any_append, Bool.or_eq_true, ih, endOf_error he]
    simp [hn]

theorem step_lift {w : World α} {e : Nat} {W : World (Starved α)} {ev : List Event} (hW : (liftWorld w).step (.destroy e) = .ok (W, ev)) :
    ∃ w', w.destroyExp e = .ok (w', ev) := by
  have hlift := lift_destroyExp w e
  rw [show (liftWorld w).destroyExp e = .ok (W, ev) from hW] at hlift
  cases hd1 : w.destroyExp e with
  | error s => rw [hd1] at hlift; simp [Except.map] at hlift
  | ok r =>
    obtain ⟨w1, ev1⟩ := r
    rw [hd1] at hlift
    simp only [Except.map, liftResult, Except.ok.injEq, Prod.mk.injEq] at hlift
    obtain ⟨rfl, rfl⟩ := hlift
    exact ⟨_, rfl⟩

end Mimic.Memory
