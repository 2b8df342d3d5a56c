import Verif.Spec.Watchful
import Verif.Spec.WatchedProgress
import Verif.Spec.WatchedTerminate

/-!
# Specification: all rules for watched objects of the client's own types together

The same as `Verif/Spec/Watchful.lean` for objects that consist of several watchers and a part of the client's class.
-/

set_option autoImplicit false

namespace Mimic.Combined

variable {α : Type}

/-- After `tr`, the single watchers can do `b`, one step after the other (C110). -/
def Follows (a0 : Trigger α) (tr b : WTrace α) : Prop :=
  ∀ (pre : WTrace α) op log post, b = pre ++ (op, log) :: post → Watchful.Rule a0 (tr ++ pre) op log

/-- None of the steps ended with an exception. -/
def Calm (b : WTrace α) : Prop := ∀ st ∈ b, completed st.2

/-- The number of the next watched object. -/
def NextObject (tr : CTrace α) (n : Nat) : Prop := Whole.NextNumber (fun c => ∃ ps, tr.parts c = some ps) n

/-- A new watched object is to be made. -/
def Makes (op : COp α) : Prop :=
  (∃ base kinds f, op = .create base kinds f) ∨ (∃ s f, op = .copy s f) ∨ ∃ s f, op = .move s f

/-- A watched object is to be assigned. -/
def Assigns (op : COp α) : Prop := (∃ d s f, op = .copyAssign d s f) ∨ ∃ d s f, op = .moveAssign d s f

/-- The part of the client's class fails. -/
def ownFails : COp α → Bool
  | .create _ _ f => f
  | .copy _ f => f
  | .move _ f => f
  | .copyAssign _ _ f => f
  | .moveAssign _ _ f => f
  | _ => false

/-- The client's class promises not to throw here. -/
def Promise (tr : CTrace α) : COp α → Prop
  | .move s _ => ∃ base kinds, tr.type s = some (base, kinds) ∧ base.nothrowMove = true
  | .moveAssign _ s _ => ∃ base kinds, tr.type s = some (base, kinds) ∧ base.nothrowMoveAssign = true
  | .drop c => ∃ base kinds, tr.type c = some (base, kinds) ∧ base.nothrowDtor = true
  | _ => False

/-- The objects are there, and of the same type if one is assigned to the other. -/
def Usable (tr : CTrace α) : COp α → Prop
  | .plain _ => True
  | .create _ _ _ => True
  | .copy s _ => tr.exists s
  | .move s _ => tr.exists s
  | .copyAssign d s _ => tr.exists d ∧ tr.exists s ∧ tr.type d = tr.type s
  | .moveAssign d s _ => tr.exists d ∧ tr.exists s ∧ tr.type d = tr.type s
  | .drop c => tr.exists c
  | .expect c _ _ _ _ _ => tr.exists c

/-- After the history `tr`, the operation is allowed, and this happens. -/
inductive Rule (a0 : Trigger α) (tr : CTrace α) : COp α → CLog α → Prop where
  /-- Everything else, and expectations on a watcher of the object. -/
  | single {op : COp α} {wop : WOp α} {l : List (WEvent α)} :
    ((∃ p, op = .plain p) ∨ ∃ c i min max ss ps, op = .expect c i min max ss ps) → Usable tr op → tr.work op = [wop] →
    Follows a0 tr.flat [(wop, l)] → Rule a0 tr op ⟨[(wop, l)], none, false⟩
  /-- All watchers come into being in order, then the client's part. -/
  | made {op : COp α} {b : WTrace α} {n : Nat} :
    Makes op → Usable tr op → ownFails op = false → b.map (·.1) = tr.work op → Calm b → Follows a0 tr.flat b → NextObject tr n →
    Rule a0 tr op ⟨b, some n, false⟩
  /-- Something fails: the finished watchers are destroyed in reverse order, and none of them throws again. -/
  | unmade {op : COp α} {b d : WTrace α} :
    Makes op → Usable tr op → ¬ Promise tr op → FailsIn (tr.work op) (ownFails op) b →
    d.map (·.1) = b.createdIn.reverse.map .drop → Calm d → Follows a0 tr.flat (b ++ d) →
    Rule a0 tr op ⟨b ++ d, none, true⟩
  /-- All watchers are assigned in order, then the client's part. -/
  | assigned {op : COp α} {b : WTrace α} :
    Assigns op → Usable tr op → ownFails op = false → b.map (·.1) = tr.work op → Calm b → Follows a0 tr.flat b →
    Rule a0 tr op ⟨b, none, false⟩
  /-- Something fails: the rest is not assigned. -/
  | unassigned {op : COp α} {b : WTrace α} :
    Assigns op → Usable tr op → ¬ Promise tr op → FailsIn (tr.work op) (ownFails op) b → Follows a0 tr.flat b →
    Rule a0 tr op ⟨b, none, true⟩
  /-- The watchers are destroyed in reverse order. -/
  | dropped {c : Nat} {b : WTrace α} :
    Usable tr (.drop c) → b.map (·.1) = tr.work (.drop c) → Calm b → Follows a0 tr.flat b → Rule a0 tr (.drop c) ⟨b, none, false⟩
  /-- One of them may throw; the others are destroyed all the same. -/
  | droppedThrows {c : Nat} {b b' : WTrace α} {st : WOp α × List (WEvent α)} :
    Usable tr (.drop c) → ¬ Promise tr (.drop c) → (b ++ st :: b').map (·.1) = tr.work (.drop c) → Calm b → ¬ completed st.2 → Calm b' →
    Follows a0 tr.flat (b ++ st :: b') → Rule a0 tr (.drop c) ⟨b ++ st :: b', none, true⟩

/-- A history that keeps all rules. -/
def Lawful (a0 : Trigger α) (tr : CTrace α) : Prop :=
  ∀ (pre : CTrace α) op log post, tr = pre ++ (op, log) :: post → Rule a0 pre op log

/-- The histories of any library with states `σ`: `step q op` says what happens, `none` if the client must not do that. -/
inductive Runs {σ : Type} (step : σ → COp α → Option (σ × CLog α)) (start : σ) : CTrace α → σ → Prop where
  | init : Runs step start [] start
  | step {tr : CTrace α} {q q' : σ} {op : COp α} {log : CLog α} :
    Runs step start tr q → step q op = some (q', log) → Runs step start (tr ++ [(op, log)]) q'

end Mimic.Combined
