import Verif.Props.SequenceEnd
import Verif.Props.Safety
import Verif.Proofs.Outcome

/-!
# C14: which sequences are reported, over whole histories
-/

set_option autoImplicit false

namespace Mimic

variable {α : Type}

/-- C14: after any history, a sequence has been reported as unfulfilled exactly if it has ended and an expectation attached to it has
resolved fewer calls than required. (Nothing about the sequence changes after its end.) -/
theorem C14_reported {tr : Trace α} {w : World α} (h : Reach tr w) (s : Nat) :
    (∃ k n, Event.sequenceError s k n ∈ tr.events) ↔
      Event.sequenceDestroyed s ∈ tr.events ∧ ∃ e, tr.attached e s ∧ tr.tooFew e := by
  induction h with
  | init => simp [Trace.events]
  | @step tr w w' op ev hr hs ih =>
    have honce := C16_ended_once (hr.step hs) s
    rw [events_snoc, List.count_append] at honce
    simp only [events_snoc, List.mem_append]
    by_cases hd : Event.sequenceDestroyed s ∈ ev
    · have hn : Event.sequenceDestroyed s ∉ tr.events := by
        intro hm
        have := List.count_pos_iff.mpr hm
        have := List.count_pos_iff.mpr hd
        omega
      rw [← C14_error_iff hr hs hd]
      constructor
      · rintro ⟨k, n, hk | hk⟩
        · exact absurd (ih.mp ⟨k, n, hk⟩).1 hn
        · exact ⟨.inr hd, k, n, hk⟩
      · rintro ⟨-, k, n, hk⟩
        exact ⟨k, n, .inr hk⟩
    · have he : ∀ k n, Event.sequenceError s k n ∉ ev := fun k n hk => hd ((C14_sequence_error hr hs s k n).mp hk).1
      have hl : (∃ k n, Event.sequenceError s k n ∈ tr.events ∨ Event.sequenceError s k n ∈ ev) ↔ ∃ k n, Event.sequenceError s k n ∈ tr.events := by
        simp [he]
      rw [hl, ih]
      simp only [hd, or_false]
      refine and_congr_right fun hdd => ?_
      have hnr := ((C16_ended_iff hr s).mp hdd).2
      have hatt : ∀ e, (tr ++ [(op, ev)]).attached e s ↔ tr.attached e s := by
        intro e
        constructor
        · rintro ⟨d, h1, h2⟩
          rw [decl_snoc] at h1
          cases ho : tr.decl e with
          | some d' =>
            rw [ho] at h1
            cases h1
            exact ⟨_, ho, h2⟩
          | none =>
            rw [ho, Option.none_or] at h1
            cases op with
            | expect m min max tags ps =>
              simp only [declStep] at h1
              split at h1
              · simp only [Option.some.injEq] at h1
                subst h1
                have hv : tr.valid (.expect m min max tags ps) := by
                  refine Classical.byContradiction fun hv => ?_
                  obtain ⟨why, hw⟩ := (C17_progress hr _).2.2 hv
                  rw [hs] at hw
                  cases hw
                exact absurd (.inl (hv.2.1 s h2)) hnr
              · cases h1
            | _ => cases h1
        · rintro ⟨d, h1, h2⟩
          exact ⟨d, decl_mono h1, h2⟩
      constructor
      · rintro ⟨e, ⟨d, h1, h2⟩, d', h3, h4⟩
        rw [h1] at h3
        cases h3
        exact ⟨e, (hatt e).mpr ⟨d, h1, h2⟩, d, decl_mono h1, by
          have hc : ev.count (.fullMatch e) = 0 := by
            refine List.count_eq_zero_of_not_mem fun hm => ?_
            obtain ⟨m, a, -, hcand⟩ := fullMatch_source hr hs hm
            exact hnr (.inr ⟨e, hcand.1.1, d, h1, h2⟩)
          rw [matched_snoc, hc]
          exact h4⟩
      · rintro ⟨e, h1, d', h3, h4⟩
        obtain ⟨d, h1, h2⟩ := (hatt e).mp h1
        rw [decl_mono h1, Option.some.injEq] at h3
        subst h3
        rw [matched_snoc] at h4
        exact ⟨e, ⟨d, h1, h2⟩, d, h1, by omega⟩

/-- A sequence with an unfulfilled expectation that ends, and other things that happen afterwards. -/
example : ∃ (tr : Trace Nat) (w : World Nat), Reach tr w ∧ Event.sequenceError 0 0 1 ∈ tr.events ∧ tr.attached 0 0 ∧ tr.tooFew 0 := by
  have hr := reach_final (α := Nat) [.newMock, .newSequence .lazy, .expect 0 1 1 [0] [], .dropSequence 0, .destroy 0, .newMock, .call 1 3]
  exact ⟨_, _, hr, by decide, ⟨_, rfl, by decide⟩, ⟨_, rfl, by decide⟩⟩

end Mimic
