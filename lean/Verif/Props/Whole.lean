import Verif.Proofs.Whole
import Verif.Proofs.Demo

/-!
# C105: the rules determine everything that is observed

`Whole.Prescribed` (`Verif/Spec/Whole.lean`) says for every operation what has to be observed after a given history, in terms of that
history alone. Here: the library always does what is prescribed, nothing else is possible, and a history that keeps the rules is a history
of the library.
-/

set_option autoImplicit false

namespace Mimic

open Whole

variable {α : Type}

/-- C105: the histories of the library are exactly the histories that keep the rules. -/
theorem C105_histories (tr : Trace α) : (∃ w, Reach tr w) ↔ Lawful tr :=
  ⟨fun ⟨_, h⟩ => reach_lawful h, lawful_reach⟩

/-- C105: the rules leave no choice, whatever has happened before. -/
theorem C105_determined {tr : Trace α} {op : Op α} {ev ev' : List Event} (h : Prescribed tr op ev) (h' : Prescribed tr op ev') : ev = ev' :=
  prescribed_unique h h'

/-- C105: after a history that keeps the rules, the rules say something about every operation the client may carry out. -/
theorem C105_complete {tr : Trace α} (h : Lawful tr) {op : Op α} (hv : tr.valid op) (ho : ¬ tr.overflows op) : ∃ ev, Prescribed tr op ev := by
  obtain ⟨w, hr⟩ := lawful_reach h
  obtain ⟨w', ev, hs⟩ := (C17_progress hr op).1 hv ho
  exact ⟨ev, (prescribed_step hr hs).2.2⟩

/-- C105: what the library does in one step is what is prescribed, and it is carried out whenever it is allowed. -/
theorem C105_step {tr : Trace α} {w : World α} (h : Reach tr w) (op : Op α) (ev : List Event) :
    (∃ w', w.step op = .ok (w', ev)) ↔ tr.valid op ∧ ¬ tr.overflows op ∧ Prescribed tr op ev :=
  ⟨fun ⟨_, hs⟩ => prescribed_step h hs, fun ⟨h1, h2, h3⟩ => step_prescribed h h1 h2 h3⟩

/-- C105: what a program observes can be read off the rules. -/
theorem C105_programs (ops : List (Op α)) (evs : List Event) :
    (∃ w, runProgram ops = .ok (w, evs)) ↔ ∃ tr, Lawful tr ∧ tr.map (·.1) = ops ∧ tr.events = evs := by
  constructor
  · rintro ⟨w, hr⟩
    obtain ⟨tr, h, h1, h2⟩ := (runProgram_iff ops w evs).mp hr
    exact ⟨tr, reach_lawful h, h1, h2⟩
  · rintro ⟨tr, h, h1, h2⟩
    obtain ⟨w, hr⟩ := lawful_reach h
    exact ⟨w, (runProgram_iff ops w evs).mpr ⟨tr, hr, h1, h2⟩⟩

/-- C105: two lawful histories of the same operations are the same. -/
theorem C105_unique {tr tr' : Trace α} (h : Lawful tr) (h' : Lawful tr') (he : tr.map (·.1) = tr'.map (·.1)) : tr = tr' :=
  lawful_unique h h' he

/-- C105: any other library, whatever its states are and however it works, that keeps the rules whenever it is used as allowed, cannot be
told from this one: it has the same histories. -/
theorem C105_interchangeable {σ : Type} (start : σ) (step : σ → Op α → Option (σ × List Event))
    (hdoes : ∀ tr q op, Runs step start tr q → Lawful tr → tr.valid op → ¬ tr.overflows op →
      ∃ q' ev, step q op = some (q', ev) ∧ Prescribed tr op ev)
    (hnot : ∀ tr q op, Runs step start tr q → Lawful tr → ¬ (tr.valid op ∧ ¬ tr.overflows op) → step q op = none) (tr : Trace α) :
    (∃ q, Runs step start tr q) ↔ ∃ w, Reach tr w := by
  rw [C105_histories]
  exact runs_lawful hdoes hnot tr

/-! ### The rules at work -/

namespace Whole

def accept : Policy Nat := { isSatisfied := true, accepts := fun _ => some true }
def five : Policy Nat := { isSatisfied := true, accepts := fun n => some (n == 5) }
def broken : Policy Nat := { isSatisfied := true, accepts := fun n => if n = 7 then none else some true }

/-- Two sequences, three expectations, a matcher that throws, a rejected expectation, too few calls in the end. -/
def demo : List (Op Nat) :=
  [.newSequence .lazy, .newSequence .greedy, .newMock,
   .expect 0 1 2 [0] [accept], .expect 0 1 1 [0, 1] [five], .expect 0 0 3 [] [broken], .expect 0 2 1 [] [],
   .call 0 7, .call 0 5, .call 0 4, .dropSequence 0, .destroy 2, .call 0 4, .destroy 0, .dropSequence 1, .destroy 1]

example : (World.final demo).2.map (·.2) =
    [[.sequenceCreated 0 .lazy], [.sequenceCreated 1 .greedy], [.mockCreated 0], [.created 0], [.created 1], [.created 2], [.rejected],
     [.unhandled 2, .fullMatch 0], [.fullMatch 2], [.fullMatch 2], [], [.destroyed 2], [.fullMatch 0], [.destroyed 0], [],
     [.destroyed 1, .unfulfilled 1, .sequenceError 0 1 2, .sequenceDestroyed 0, .sequenceError 1 0 1, .sequenceDestroyed 1]] := by
  decide +kernel

/-- That history keeps the rules … -/
theorem demo_lawful : Lawful (World.final demo).2 := (C105_histories _).mp ⟨_, reach_final demo⟩

theorem demo_step {n : Nat} {op : Op Nat} {ev ev' : List Event} (h : Prescribed (World.final (demo.take n)).2 op ev')
    (he : ((World.final (demo.take n)).1.step op).toOption.map (·.2) = some ev) : ev' = ev := by
  cases hs : (World.final (demo.take n)).1.step op with
  | error x => rw [hs] at he; cases he
  | ok r =>
    rw [hs] at he
    injection he with he
    subst he
    exact C105_determined h ((C105_step (reach_final _) op _).mp ⟨_, hs⟩).2.2

/-- … a call that is resolved by another expectation would not … -/
example : ¬ Prescribed (World.final (demo.take 7)).2 (.call 0 7) [.unhandled 2, .fullMatch 1] := by
  intro h
  have := demo_step (ev := [.unhandled 2, .fullMatch 0]) h (by decide +kernel)
  simp at this

/-- … and neither would a sequence that ends too early. -/
example : ¬ Prescribed (World.final (demo.take 10)).2 (.dropSequence 0) [.sequenceDestroyed 0] := by
  intro h
  have := demo_step (ev := []) h (by decide +kernel)
  simp at this

open Classical in
/-- The reference semantics with the limit on the number of expectations of a sequence. -/
noncomputable def reference (S : Spec.State Nat) (op : Op Nat) : Option (Spec.State Nat × List Event) := if S.full op then none else S.step op

theorem reference_some {S : Spec.State Nat} {op : Op Nat} {r : Spec.State Nat × List Event} (h : reference S op = some r) :
    ¬ S.full op ∧ S.step op = some r := by
  unfold reference at h
  split at h
  · cases h
  · exact ⟨‹_›, h⟩

/-- The hypotheses of `C105_interchangeable` are met by the reference semantics (`Verif/Spec/History.lean`), which has no cursors, no
priorities and no reports to collect. -/
example (tr : Trace Nat) : (∃ q, Runs reference (Spec.State.init : Spec.State Nat) tr q) ↔ ∃ w, Reach tr w := by
  have hv : ∀ tr q, Runs reference (Spec.State.init : Spec.State Nat) tr q → View tr q := by
    intro tr q h
    induction h with
    | init => exact View.init
    | step _ hs ih => exact ih.step (reference_some hs).2
  refine C105_interchangeable _ _ (fun tr q op h _ hv' ho => ?_) (fun tr q op h _ hn => ?_) tr
  · obtain ⟨⟨q', ev⟩, hs⟩ := ((hv _ _ h).valid_iff op).mp hv'
    refine ⟨q', ev, ?_, prescribed_view (hv _ _ h) hs⟩
    unfold reference
    rw [if_neg (fun hf => ho ((overflows_iff (hv _ _ h) op).mpr hf)), hs]
  · cases hr : reference q op with
    | none => rfl
    | some r =>
      have := reference_some hr
      exact absurd ⟨((hv _ _ h).valid_iff op).mpr ⟨_, this.2⟩, fun ho => this.1 ((overflows_iff (hv _ _ h) op).mp ho)⟩ hn

end Whole

end Mimic
