import Verif.Proofs.Situation
import Verif.Proofs.Demo

/-!
# Only numbers of calls are remembered (C95)
-/

set_option autoImplicit false

namespace Mimic.Situation

variable {α : Type}

/-- C95: after two histories that led to the same situation, exactly the same can happen, and the same is observed. When, in which order and
with which arguments calls were made before, and which calls failed, has no influence. -/
theorem C95_future {tr tr' : Trace α} {w w' : World α} (h : Reach tr w) (h' : Reach tr' w') (hs : Same tr tr') (rest : Trace α) :
    (∃ v, Reach (tr ++ rest) v) ↔ ∃ v, Reach (tr' ++ rest) v := by
  suffices key : ∀ (n : Nat) {tr tr' : Trace α} {w w' : World α}, Reach tr w → Reach tr' w' → abs w = abs w' → ∀ rest : Trace α,
      rest.length = n → ∀ v, Reach (tr ++ rest) v → ∃ v', Reach (tr' ++ rest) v' ∧ abs v = abs v' by
    have ha := hs.state h.view.2 h'.view.2
    constructor
    · rintro ⟨v, hv⟩
      obtain ⟨v', hv', -⟩ := key _ h h' ha rest rfl v hv
      exact ⟨v', hv'⟩
    · rintro ⟨v, hv⟩
      obtain ⟨v', hv', -⟩ := key _ h' h ha.symm rest rfl v hv
      exact ⟨v', hv'⟩
  intro n
  induction n with
  | zero =>
    intro tr tr' w w' h h' ha rest hl v hv
    rw [List.eq_nil_of_length_eq_zero hl, List.append_nil] at *
    have := h.view.2
    have h2 := hv.view.2
    exact ⟨w', h', by rw [← ha]; exact (Same.of_state this this).state h2 this⟩
  | succ n ih =>
    intro tr tr' w w' h h' ha rest hl v hv
    rcases List.eq_nil_or_concat rest with rfl | ⟨init, ⟨op, ev⟩, rfl⟩
    · simp at hl
    rw [List.concat_eq_append] at *
    rw [← List.append_assoc] at hv ⊢
    obtain ⟨v0, hv0, hstep⟩ := hv.snoc_inv
    obtain ⟨v0', hv0', hab⟩ := ih h h' ha init (by simpa using hl) v0 hv0
    have hsp := hv0.spec_step hstep
    have hf := hv0.not_full hstep
    rw [hab] at hsp hf
    obtain ⟨v', h1, h2⟩ := hv0'.step_of_spec hsp hf
    exact ⟨v', hv0'.step h1, h2.symm⟩

/-- C95 for programs: the rest of a program goes the same way. -/
theorem C95_program {tr tr' : Trace α} {w w' : World α} (h : Reach tr w) (h' : Reach tr' w') (hs : Same tr tr') (ops : List (Op α))
    (log : List Event) : (∃ v, w.run ops = .ok (v, log)) ↔ ∃ v, w'.run ops = .ok (v, log) := by
  rw [run_iff_spec h, run_iff_spec h', hs.state h.view.2 h'.view.2]

/-- C95: calls that no expectation resolves might as well not have been made: everything else is as it would be without them. -/
theorem C95_unresolved {tr : Trace α} {w : World α} (h : Reach tr w) :
    ∃ w', Reach (tr.filter effective) w' ∧ Same tr (tr.filter effective) := by
  suffices key : ∃ w', Reach (tr.filter effective) w' ∧ abs w = abs w' by
    obtain ⟨w', h1, h2⟩ := key
    exact ⟨w', h1, Same.of_state (h2 ▸ h.view.2) h1.view.2⟩
  induction h with
  | init => exact ⟨_, .init, rfl⟩
  | @step tr w w1 op ev hr hs ih =>
    obtain ⟨w', h1, h2⟩ := ih
    rw [List.filter_append]
    by_cases he : effective (op, ev) = true
    · have hsp := hr.spec_step hs
      have hf := hr.not_full hs
      rw [h2] at hsp hf
      obtain ⟨v, h3, h4⟩ := h1.step_of_spec hsp hf
      refine ⟨v, ?_, h4.symm⟩
      simp only [List.filter_cons, he, if_true, List.filter_nil]
      exact h1.step h3
    · refine ⟨w', ?_, ?_⟩
      · simp only [List.filter_cons, he, List.filter_nil]
        simpa using h1
      · rw [ineffective hr hs (by simpa using he), h2]

/-! ## Concrete cases -/

/-- Accepts calls with a number up to `n`. -/
def upTo (n : Nat) : Policy Nat := { accepts := fun a => some (decide (a ≤ n)) }

def setup : List (Op Nat) :=
  [.newSequence .greedy, .newMock, .newMock, .expect 0 0 2 [0] [upTo 5], .expect 1 1 2 [] [upTo 5], .expect 1 0 1 [] [upTo 3], .expect 0 1 1 [0] [upTo 9]]

/-- Two ways to the same situation: other arguments, another order, and calls that fail. -/
def one : List (Op Nat) := setup ++ [.call 1 2, .call 0 4, .call 1 5, .call 1 9]
def two : List (Op Nat) := setup ++ [.call 0 7, .call 0 1, .call 1 4, .call 1 3]

example : (World.final one).2.events.drop 7 = [.fullMatch 2, .fullMatch 3, .fullMatch 1, .noMatch [2, 1]] ∧
    (World.final two).2.events.drop 7 = [.fullMatch 3, .inapplicable [3, 0], .fullMatch 1, .fullMatch 2] := by decide +kernel

/-- The hypothesis is met. -/
theorem same_one_two : Same (World.final one).2 (World.final two).2 :=
  Same.of_state (S := abs (World.final one).1) (reach_final one).view.2 (reach_final two).view.2

example : ∀ e ∈ List.range 4, (World.final one).2.matched e = (World.final two).2.matched e := by decide +kernel

example : ((World.final one).2.filter effective).map (·.2) =
    [[.sequenceCreated 0 .greedy], [.mockCreated 0], [.mockCreated 1], [.created 0], [.created 1], [.created 2], [.created 3], [.fullMatch 2],
      [.fullMatch 3], [.fullMatch 1]] := by decide +kernel

/-- What follows is the same, too. -/
example : (runProgram (one ++ [.call 1 0, .call 0 0, .destroy 0, .destroy 3])).toOption.map (fun r => r.2.drop 11) =
    (runProgram (two ++ [.call 1 0, .call 0 0, .destroy 0, .destroy 3])).toOption.map (fun r => r.2.drop 11) := by decide +kernel

end Mimic.Situation
