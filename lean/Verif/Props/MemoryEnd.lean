import Verif.Props.Memory
import Verif.Proofs.MemoryEnd

/-!
# C90: when running out of memory at the end of a sequence terminates the program
-/

set_option autoImplicit false

namespace Mimic.Memory

variable {α : Type}

/-- C90: the end of an expectation terminates the program iff a sequence ends with it that has an error to report (an expectation attached to
it has resolved too few calls), and memory runs out there. -/
theorem C90_end_terminates {tr : MTrace α} {w : World α} (h : MReach tr w) {e : Nat} (hl : live tr e) (p : EndPoints) :
    (∃ why, step w (.destroy e p) = .error (.terminate why)) ↔
      p.ending = true ∧ ∃ s, (asIf tr).attached e s ∧ ¬ (asIf tr).handle s ∧
        (∀ e', e' ≠ e → (asIf tr).live e' → ¬ (asIf tr).attached e' s) ∧ ∃ e', (asIf tr).attached e' s ∧ (asIf tr).tooFew e' := by
  have hr := h.sim
  have hl' : (asIf tr).live e := (h.corr.live_iff e).mpr hl
  obtain ⟨W, ev, hW⟩ := (C17_progress hr (.destroy e)).1 hl' (by simp [Trace.overflows])
  obtain ⟨w1, hd1⟩ := step_lift hW
  have hany : ev.any isSequenceError = true ↔ ∃ s, (asIf tr).attached e s ∧ ¬ (asIf tr).handle s ∧
        (∀ e', e' ≠ e → (asIf tr).live e' → ¬ (asIf tr).attached e' s) ∧ ∃ e', (asIf tr).attached e' s ∧ (asIf tr).tooFew e' := by
    have hkey : ∀ {d : Decl (Starved α)} {evs : List Event}, (asIf tr).decl e = some d →
        Whole.Ends (asIf tr) (fun s => (asIf tr).handle s ∨ ∃ e', e' ≠ e ∧ (asIf tr).live e' ∧ (asIf tr).attached e' s) d.seqs evs →
        (evs.any isSequenceError = true ↔ ∃ s, (asIf tr).attached e s ∧ ¬ (asIf tr).handle s ∧
        (∀ e', e' ≠ e → (asIf tr).live e' → ¬ (asIf tr).attached e' s) ∧ ∃ e', (asIf tr).attached e' s ∧ (asIf tr).tooFew e') := by
      intro d evs hd he
      rw [ends_error he]
      have hatt : ∀ s, (asIf tr).attached e s ↔ s ∈ d.seqs := by
        intro s; unfold Trace.attached; rw [hd]; simp
      constructor
      · rintro ⟨s, hs, hk, hx⟩
        exact ⟨s, (hatt s).mpr hs, fun hh => hk (Or.inl hh), fun e' h1 h2 h3 => hk (Or.inr ⟨e', h1, h2, h3⟩), hx⟩
      · rintro ⟨s, hs, h1, h2, hx⟩
        refine ⟨s, (hatt s).mp hs, ?_, hx⟩
        rintro (hh | ⟨e', h3, h4, h5⟩)
        · exact h1 hh
        · exact h2 e' h3 h4 h5
    have hp := (Whole.prescribed_step hr hW).2.2
    generalize asIf tr = T at hp hkey ⊢
    cases hp with
    | fulfilled hd _ he => rw [← hkey hd he]; simp [isSequenceError]
    | unfulfilled hd _ he => rw [← hkey hd he]; simp [isSequenceError]
  rw [← hany]
  simp only [step, destroy, hd1, bind, Except.bind, ends]
  by_cases hend : (p.ending && ev.any isSequenceError) = true
  · rw [if_pos hend]
    rw [Bool.and_eq_true] at hend
    exact ⟨fun _ => hend, fun _ => ⟨_, rfl⟩⟩
  · rw [if_neg hend]
    rw [Bool.and_eq_true] at hend
    refine ⟨fun ⟨why, hy⟩ => ?_, fun hh => absurd hh hend⟩
    simp only at hy
    split at hy <;> simp [pure, Except.pure] at hy

/-- C90: the same for the end of the client's sequence object. -/
theorem C90_drop_terminates {tr : MTrace α} {w : World α} (h : MReach tr w) {s : Nat} (hl : (asIf tr).handle s) (p : EndPoints) :
    (∃ why, step w (.dropSequence s p) = .error (.terminate why)) ↔
      p.ending = true ∧ (∀ e, (asIf tr).live e → ¬ (asIf tr).attached e s) ∧ ∃ e, (asIf tr).attached e s ∧ (asIf tr).tooFew e := by
  have hr := h.sim
  obtain ⟨W, ev, hW⟩ := (C17_progress hr (.dropSequence s)).1 hl (by simp [Trace.overflows])
  have hh : w.hasHandle s = true := by
    have := (hr.view.2.hasHandle_iff s).mpr hl
    rw [hasHandle_abs] at this
    exact this
  have hst : ∃ w', w.step (.dropSequence s) = .ok (w', ev) := by
    have h1 := lift_release { w with seqs := w.seqs.modify s (fun c => { c with handle := false }) } s
    have hh' : (liftWorld w).hasHandle s = true := hh
    simp only [World.step, hh, hh', if_true] at hW ⊢
    rw [show ({ liftWorld w with seqs := (liftWorld w).seqs.modify s (fun c => { c with handle := false }) } :
        World (Starved α)).release s = _ from h1] at hW
    generalize World.release { w with seqs := w.seqs.modify s (fun c => { c with handle := false }) } s = r at hW ⊢
    cases r with
    | error x => simp [Except.map] at hW
    | ok r =>
      simp only [Except.map, liftResult, Except.ok.injEq, Prod.mk.injEq] at hW
      exact ⟨r.1, by rw [← hW.2]⟩
  obtain ⟨w1, hst⟩ := hst
  have hany : ev.any isSequenceError = true ↔ (∀ e, (asIf tr).live e → ¬ (asIf tr).attached e s) ∧
      ∃ e, (asIf tr).attached e s ∧ (asIf tr).tooFew e := by
    have hp := (Whole.prescribed_step hr hW).2.2
    cases hp with
    | drop he =>
      rw [ends_error he]
      simp only [List.mem_singleton, exists_eq_left, not_exists, not_and]
  rw [← hany]
  simp only [step, hst, bind, Except.bind, ends]
  by_cases hend : (p.ending && ev.any isSequenceError) = true
  · rw [if_pos hend]
    rw [Bool.and_eq_true] at hend
    exact ⟨fun _ => hend, fun _ => ⟨_, rfl⟩⟩
  · rw [if_neg hend]
    rw [Bool.and_eq_true] at hend
    refine ⟨fun ⟨why, hy⟩ => ?_, fun hh => absurd hh hend⟩
    simp [pure, Except.pure] at hy

/-- Both cases occur: the sequence ends with its client object, or with the last expectation attached to it; without an error to report,
memory does not matter. -/
example :
    (runM (World.init : World Nat) [.newMock false, .newSequence .lazy false, .expect 0 1 1 [0] [anything] ⟨false, false, false⟩,
      .destroy 0 ⟨false, true⟩]).toOption.map (fun r => r.2.map (·.2)) =
      some [.done [.mockCreated 0], .done [.sequenceCreated 0 .lazy], .done [.created 0], .done [.destroyed 0, .unfulfilled 0]] ∧
    endings [.newMock false, .newSequence .lazy false, .expect 0 1 1 [0] [anything] ⟨false, false, false⟩,
      .destroy 0 ⟨false, true⟩, .dropSequence 0 ⟨false, true⟩] = none ∧
    endings [.newMock false, .newSequence .lazy false, .expect 0 1 1 [0] [anything] ⟨false, false, false⟩,
      .dropSequence 0 ⟨false, true⟩, .destroy 0 ⟨false, true⟩] = none ∧
    endings [.newMock false, .newSequence .lazy false, .expect 0 1 1 [0] [anything] ⟨false, false, false⟩, .call 0 5 .good,
      .dropSequence 0 ⟨false, true⟩, .destroy 0 ⟨false, true⟩] =
      some [.done [.mockCreated 0], .done [.sequenceCreated 0 .lazy], .done [.created 0], .done [.fullMatch 0],
        .done [], .done [.destroyed 0, .sequenceDestroyed 0]] := by
  decide +kernel

end Mimic.Memory
