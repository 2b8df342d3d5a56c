import Verif.Spec.Watcher
import Verif.Props.Safety

/-!
# Specification: operations a client of watched objects may carry out
-/

set_option autoImplicit false

namespace Mimic

variable {α : Type}

/-- The client created mock `m`. -/
def WTrace.mine (tr : WTrace α) (m : Nat) : Prop :=
  ∃ log ev, (WOp.plain .newMock, log) ∈ tr ∧ WEvent.lib .newMock ev ∈ log ∧ Event.mockCreated m ∈ ev

/-- The client only uses things that exist, and mocks that it created itself. -/
def WTrace.valid (tr : WTrace α) : WOp α → Prop
  | .plain op =>
    tr.flat.valid op ∧ (∀ m min max seqs ps, op = .expect m min max seqs ps → tr.mine m) ∧ (∀ m a, op = .call m a → tr.mine m)
  | .create _ => True
  | .copy s => tr.exists s
  | .move s => tr.exists s
  | .copyAssign d s => tr.exists d ∧ tr.exists s ∧ ∃ kd, tr.isKind d kd ∧ tr.isKind s kd
  | .moveAssign d s => tr.exists d ∧ tr.exists s ∧ ∃ kd, tr.isKind d kd ∧ tr.isKind s kd
  | .drop o => tr.exists o
  | .expect o min max seqs _ =>
    tr.exists o ∧ (∀ s ∈ seqs, tr.flat.handle s) ∧
      (-2147483648 ≤ min ∧ min ≤ 2147483647) ∧ (-2147483648 ≤ max ∧ max ≤ 2147483647)
  | .abandon o => tr.exists o

/-- The operation uses an object that carries nothing. -/
def WTrace.undefined (tr : WTrace α) (op : WOp α) : Prop :=
  ∃ o, tr.exists o ∧ (∀ k, ¬ tr.carries o k) ∧
    (((∃ min max tags ps, op = .expect o min max tags ps) ∨ op = .abandon o) ∧ (tr.isKind o .lifetime → ¬ tr.armed o) ∨
     tr.isKind o .relocation ∧ (op = .move o ∨ ∃ d, op = .moveAssign d o ∧ tr.exists d ∧ tr.isKind d .relocation))

/-- The operation attaches an expectation to a sequence that is full (C17): the client's own one, the one for moves, or the one for the
destruction, which is always expected once. -/
def WTrace.overfull (tr : WTrace α) (op : WOp α) : Prop :=
  ∃ m min max seqs ps, tr.flat.overflows (.expect m min max seqs ps) ∧
    (op = .plain (.expect m min max seqs ps) ∨ (∃ o, op = .expect o min max seqs ps ∧ tr.isKind o .relocation) ∨
     (∃ o min' max', min = 1 ∧ max = 1 ∧ op = .expect o min' max' seqs ps ∧ tr.isKind o .lifetime))

end Mimic
