import Verif.Proofs.Forbid
import Verif.Props.SequenceReport

/-!
# C80: Forbidding a call does not veto it
-/

set_option autoImplicit false

namespace Mimic

open Forbid

variable {α : Type}

/-- C80: leaving out an expectation with the upper limit 0 (`expect::never()`), whatever sequences it belongs to, changes nothing about
which calls are resolved and by which expectations, nor about which of the other expectations are unfulfilled. -/
theorem C80_never {tr : Trace α} {w : World α} (h : Reach tr w) {e : Nat} {d : Decl α} (hd : tr.decl e = some d) (hm : d.max = 0) :
    ∃ tr' w', Reach tr' w' ∧ verdicts tr' = verdicts (Unused.without e tr) := by
  obtain ⟨tr', w', h1, -, h2⟩ := reach_lessen h (e := e) (fun d' hd' => by rw [hd] at hd'; cases hd'; exact hm)
  exact ⟨tr', w', h1, h2⟩

/-- C80: if that expectation has come to its end, the same sequences are reported as unfulfilled, too. -/
theorem C80_sequences {tr : Trace α} {w : World α} (h : Reach tr w) {e : Nat} {d : Decl α} (hd : tr.decl e = some d) (hm : d.max = 0)
    (he : Event.destroyed e ∈ tr.events) :
    ∃ tr' w', Reach tr' w' ∧ verdicts tr' = verdicts (Unused.without e tr) ∧
      ∀ s, (∃ k n, Event.sequenceError s k n ∈ tr'.events) ↔ ∃ k n, Event.sequenceError s k n ∈ tr.events := by
  have hd' : ∀ d, tr.decl e = some d → d.max = 0 := fun d' hd' => by rw [hd] at hd'; cases hd'; exact hm
  obtain ⟨tr', w', h1, h3, h2⟩ := reach_lessen h hd'
  refine ⟨tr', w', h1, h2, fun s => ?_⟩
  rw [C14_reported h1, C14_reported h, C16_ended_iff h1, C16_ended_iff h, ended_lessen h h1 h3 he, short_lessen h h1 h3 hd']

/-- The hypotheses can be met, and the warning in the property is justified: the call with 5 is forbidden by the younger expectation, but
allowed by the older one, so it is resolved. The forbidding one belongs to a sequence together with another one. -/
example : ∃ (tr : Trace Nat) (w : World Nat) (d : Decl Nat), Reach tr w ∧ tr.decl 1 = some d ∧ d.max = 0 ∧ d.seqs = [0] ∧
    (∀ p ∈ d.policies, p.accepts 5 = some true) ∧ tr[5]? = some (Op.call 0 5, [.fullMatch 0]) ∧ Event.destroyed 1 ∈ tr.events ∧
    Event.sequenceError 0 1 2 ∈ tr.events := by
  have h : Reach _ _ := record_reach (α := Nat)
    [.newMock, .newSequence .greedy, .expect 0 0 9 [] [], .expect 0 0 0 [0] [onlyArg 5], .expect 0 1 1 [0] [onlyArg 6], .call 0 5, .dropSequence 0,
     .destroy 2, .destroy 1, .destroy 0] Reach.init rfl
  exact ⟨_, _, _, h, rfl, rfl, rfl, by simp [onlyArg], rfl, by decide, by decide⟩

/-- The reports about a call that is not resolved do depend on it. -/
example : ∃ (tr tr' : Trace Nat) (w w' : World Nat), Reach tr w ∧ Reach tr' w' ∧ verdicts tr' = verdicts (Unused.without 0 tr) ∧
    Event.inapplicable [0] ∈ tr.events ∧ Event.noMatch [] ∈ tr'.events := by
  have h : Reach _ _ := record_reach (α := Nat) [.newMock, .expect 0 0 0 [] [], .call 0 1] Reach.init rfl
  have h' : Reach _ _ := record_reach (α := Nat) [.newMock, .call 0 1] Reach.init rfl
  exact ⟨_, _, _, _, h, h', rfl, by decide, by decide⟩

end Mimic
