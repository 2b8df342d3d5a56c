import Verif.Spec.Watched
import Verif.Spec.WatcherProgress

/-!
# Specification: operations a client of watched objects of its own types may carry out
-/

set_option autoImplicit false

namespace Mimic

variable {α : Type}

/-- The watched object `c` is there. -/
def CTrace.exists (tr : CTrace α) (c : Nat) : Prop := (∃ ps, tr.parts c = some ps) ∧ ¬ tr.dropped c

def TypeRev : List (COp α × CLog α) → Nat → Option (BaseSpec × List Watcher)
  | [], _ => none
  | (op, log) :: past, c =>
    if log.made = some c then
      match op with
      | .create base kinds _ => some (base, kinds)
      | .copy s _ => TypeRev past s
      | .move s _ => TypeRev past s
      | _ => none
    else TypeRev past c

/-- The type of the watched object `c`: that of its definition, or that of the object it was copied or moved from. -/
def CTrace.type (tr : CTrace α) (c : Nat) : Option (BaseSpec × List Watcher) := TypeRev tr.reverse c

/-- The watchers of `c` without their kinds. -/
def CTrace.watchers (tr : CTrace α) (c : Nat) : List Nat := ((tr.parts c).getD []).map (·.1)

/-- The operations on the single watchers that an operation on a watched object consists of. -/
def CTrace.work (tr : CTrace α) : COp α → List (WOp α)
  | .plain op => [.plain op]
  | .create _ kinds _ => kinds.map .create
  | .copy s _ => (tr.watchers s).map .copy
  | .move s _ => (tr.watchers s).map .move
  | .copyAssign d s _ => List.zipWith .copyAssign (tr.watchers d) (tr.watchers s)
  | .moveAssign d s _ => List.zipWith .moveAssign (tr.watchers d) (tr.watchers s)
  | .drop c => (tr.watchers c).reverse.map .drop
  | .expect c i min max seqs ps => ((tr.watchers c)[i]?).toList.map (fun o => .expect o min max seqs ps)

/-- The client only uses objects that exist, and mocks that it created itself. -/
def CTrace.valid (tr : CTrace α) : COp α → Prop
  | .plain op => tr.flat.valid (.plain op)
  | .create _ _ _ => True
  | .copy s _ => tr.exists s
  | .move s _ => tr.exists s
  | .copyAssign d s _ => tr.exists d ∧ tr.exists s ∧ tr.type d = tr.type s
  | .moveAssign d s _ => tr.exists d ∧ tr.exists s ∧ tr.type d = tr.type s
  | .drop c => tr.exists c
  | .expect c i min max seqs _ =>
    tr.exists c ∧ i < (tr.watchers c).length ∧ (∀ s ∈ seqs, tr.flat.flat.handle s) ∧
      (-2147483648 ≤ min ∧ min ≤ 2147483647) ∧ (-2147483648 ≤ max ∧ max ≤ 2147483647)

/-- The operations `ops` are carried out one after the other without an exception, up to one of them that uses an object that carries
nothing. -/
def StuckIn (a0 : Trigger α) (tr : WTrace α) (ops : List (WOp α)) : Prop :=
  ∃ b ww op, WReach a0 (tr ++ b) ww ∧ b.map (·.1) ++ [op] <+: ops ∧ (∀ st ∈ b, completed st.2) ∧ (tr ++ b : WTrace α).undefined op

end Mimic
