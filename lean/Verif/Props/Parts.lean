import Verif.Proofs.PartsJoint

/-!
# Independent parts of a test (C70)
-/

set_option autoImplicit false

namespace Mimic.Parts

variable {α ι : Type} [DecidableEq ι]

/-- C70: if several programs that share no mocks, sequences and expectations are carried out together, in any order of their
operations, then each of them observes exactly what it observes alone: the same calls are resolved by the same expectations, and the
same reports and errors are made at the same operations. -/
theorem C70_parts (ops : List (ι × Op α)) (j : Joint ι α) (log : List (ι × Event)) (h : Joint.init.run ops = .ok (j, log)) (i : ι) :
    ∃ v, runProgram (part i ops) = .ok (v, part i log) := by
  rcases run_parts (ops := ops) (good_init (ι := ι) (α := α)) with ⟨j', log', v', h1, h2⟩ | ⟨x, y, k, h1, _⟩
  · rw [h] at h1
    cases h1
    exact ⟨v' i, h2 i⟩
  · rw [h] at h1
    cases h1

/-- C70: and they can be carried out together if each of them can be carried out alone. -/
theorem C70_together (ops : List (ι × Op α)) (h : ∀ i, ∃ r, runProgram (part i ops) = .ok r) :
    ∃ r, (Joint.init : Joint ι α).run ops = .ok r := by
  rcases run_parts (ops := ops) (good_init (ι := ι) (α := α)) with ⟨j', log', v', h1, _⟩ | ⟨x, y, k, _, h2⟩
  · exact ⟨_, h1⟩
  · obtain ⟨r, hr⟩ := h k
    rw [runProgram] at hr
    rw [hr] at h2
    cases h2

/-- C70: so the order in which independent parts take turns does not matter. -/
theorem C70_order (ops ops' : List (ι × Op α)) (hp : ∀ i, part i ops = part i ops') (j : Joint ι α) (log : List (ι × Event))
    (h : Joint.init.run ops = .ok (j, log)) :
    ∃ j' log', (Joint.init : Joint ι α).run ops' = .ok (j', log') ∧ ∀ i, part i log' = part i log := by
  obtain ⟨⟨j', log'⟩, h'⟩ := C70_together ops' (fun i => by
    obtain ⟨v, hv⟩ := C70_parts ops j log h i
    rw [← hp i]
    exact ⟨_, hv⟩)
  refine ⟨j', log', h', fun i => ?_⟩
  obtain ⟨v, hv⟩ := C70_parts ops j log h i
  obtain ⟨v', hv'⟩ := C70_parts ops' j' log' h' i
  rw [← hp i, hv] at hv'
  simp only [Except.ok.injEq, Prod.mk.injEq] at hv'
  exact hv'.2.symm

/-- C70: parts do not notice whether others are there. -/
theorem C70_alone (ops : List (ι × Op α)) (j : Joint ι α) (log : List (ι × Event)) (h : Joint.init.run ops = .ok (j, log)) (P : ι → Bool) :
    ∃ j' log', (Joint.init : Joint ι α).run (ops.filter fun o => P o.1) = .ok (j', log') ∧
      ∀ i, P i = true → part i log' = part i log := by
  have hp : ∀ i, P i = true → part i (ops.filter fun o => P o.1) = part i ops := by
    intro i hi
    unfold part
    rw [List.filterMap_filter]
    congr 1
    funext o
    by_cases e : o.1 = i
    · simp [e, hi]
    · simp [e]
  have hq : ∀ i, P i = false → part i (ops.filter fun o => P o.1) = [] := by
    intro i hi
    unfold part
    rw [List.filterMap_eq_nil_iff]
    intro o ho
    have := (List.mem_filter.mp ho).2
    by_cases e : o.1 = i
    · subst e
      rw [hi] at this
      cases this
    · simp [e]
  obtain ⟨⟨j', log'⟩, h'⟩ := C70_together (ops.filter fun o => P o.1) (fun i => by
    cases hi : P i with
    | true =>
      rw [hp i hi]
      obtain ⟨v, hv⟩ := C70_parts ops j log h i
      exact ⟨_, hv⟩
    | false =>
      rw [hq i hi]
      exact ⟨_, rfl⟩)
  refine ⟨j', log', h', fun i hi => ?_⟩
  obtain ⟨v, hv⟩ := C70_parts ops j log h i
  obtain ⟨v', hv'⟩ := C70_parts _ j' log' h' i
  rw [hp i hi, hv] at hv'
  simp only [Except.ok.injEq, Prod.mk.injEq] at hv'
  exact hv'.2.symm

/-! ## A concrete case: two parts, each with a mock, a sequence and expectations, taking turns -/

/-- Accepts calls with the number `n`. -/
def is (n : Nat) : Policy Nat := { accepts := fun a => some (a == n) }

/-- A part: a sequence, two expectations in it, calls in the right or the wrong order. -/
def program (good : Bool) : List (Op Nat) :=
  [.newSequence .lazy, .newMock, .expect 0 1 1 [0] [is 1], .expect 0 1 1 [0] [is 2],
    .call 0 (if good then 1 else 2), .call 0 (if good then 2 else 1), .destroy 1, .destroy 0, .dropSequence 0]

def turns : List (Bool × Op Nat) :=
  (List.range 9).flatMap fun n => ((program false)[n]?).toList.map (fun o => (false, o)) ++ ((program true)[n]?).toList.map (fun o => (true, o))

/-- What part `i` observes when all are carried out. -/
def seen (ops : List (Bool × Op Nat)) (i : Bool) : Option (List Event) := ((Joint.init.run ops).toOption).map fun r => part i r.2

example : seen turns true = some [.sequenceCreated 0 .lazy, .mockCreated 0, .created 0, .created 1, .fullMatch 0, .fullMatch 1,
    .destroyed 1, .destroyed 0, .sequenceDestroyed 0] := by decide +kernel

example : seen turns false = some [.sequenceCreated 0 .lazy, .mockCreated 0, .created 0, .created 1, .inapplicable [1], .fullMatch 0,
    .destroyed 1, .unfulfilled 1, .destroyed 0, .sequenceError 0 1 2, .sequenceDestroyed 0] := by decide +kernel

example : part true turns = program true ∧ part false turns = program false := ⟨rfl, rfl⟩

/-- The library knows the objects by other numbers: it is the translation that makes the parts independent of each other. -/
example : ((Joint.init.run turns).toOption).map (fun r => ((r.1.names false).exps, (r.1.names true).exps)) = some ([0, 2], [1, 3]) := by
  decide +kernel

end Mimic.Parts
