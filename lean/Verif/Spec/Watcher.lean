import Verif.Model.Watcher
import Verif.Spec.Trace

/-!
# Specification vocabulary for watchers: who carries which watch
-/

set_option autoImplicit false

namespace Mimic

variable {α : Type}

/-- What the library did, as a history of the underlying operations. -/
def libOps (log : List (WEvent α)) : Trace α :=
  log.filterMap (fun x => match x with | .lib op ev => some (op, ev) | _ => none)

def WTrace.flat (tr : WTrace α) : Trace α := tr.flatMap (fun st => libOps st.2)

/-- The operation did not end with an exception of the reporter. -/
def completed (log : List (WEvent α)) : Prop := WEvent.exception ∉ log

/-- The operation moved the watch of `s` to `o`. -/
def movesTo (op : WOp α) (log : List (WEvent α)) (s o : Nat) : Prop :=
  completed log ∧ ((op = .move s ∧ ∃ k, WEvent.object o k ∈ log) ∨ op = .moveAssign o s)

/-- The operation takes away what `o` carried before: `o` is destroyed, assigned over or moved from. -/
def leaves (op : WOp α) (log : List (WEvent α)) (o : Nat) : Prop :=
  op = .drop o ∨ (∃ s, op = .copyAssign o s) ∨
  completed log ∧ (op = .move o ∨ (∃ d, d ≠ o ∧ op = .moveAssign d o) ∨ ∃ s, s ≠ o ∧ op = .moveAssign o s)

/-- Who carries a watch, on histories with the newest operation first: it was just given a new one, it received one by
a move, or it carried one already and kept it. -/
def CarriesRev : List (WOp α × List (WEvent α)) → Nat → Nat → Prop
  | [], _, _ => False
  | (op, log) :: past, o, k =>
    WEvent.born o k ∈ log ∨ (∃ s, movesTo op log s o ∧ CarriesRev past s k) ∨ (CarriesRev past o k ∧ ¬ leaves op log o)

/-- After history `tr`, object `o` carries watch `k`. -/
def WTrace.carries (tr : WTrace α) (o k : Nat) : Prop := CarriesRev tr.reverse o k

/-- `o` has got a destruction expectation (or the attempt of one): by `expect_destruct`, or by a move from an object that
has one; it loses it only by being assigned over. -/
def ArmedRev : List (WOp α × List (WEvent α)) → Nat → Prop
  | [], _ => False
  | (op, log) :: past, o =>
    (∃ min max tags ps, op = .expect o min max tags ps) ∨ op = .abandon o ∨
    (∃ s, movesTo op log s o ∧ ArmedRev past s) ∨
    (ArmedRev past o ∧ ¬ (∃ s, s ≠ o ∧ op = .moveAssign o s) ∧ ¬ (completed log ∧ ∃ s, op = .copyAssign o s))

def WTrace.armed (tr : WTrace α) (o : Nat) : Prop := ArmedRev tr.reverse o

/-- Object `o` was created as a watcher of this kind. -/
def WTrace.isKind (tr : WTrace α) (o : Nat) (k : Watcher) : Prop := ∃ st ∈ tr, WEvent.object o k ∈ st.2

/-- Object `o` is there. -/
def WTrace.exists (tr : WTrace α) (o : Nat) : Prop :=
  (∃ k, tr.isKind o k) ∧ ∀ log, (WOp.drop o, log) ∉ tr

/-- The mock of watch `k` is called. -/
def isTrigger (k : Nat) : WEvent α → Bool
  | .lib (.call m _) _ => m == k
  | _ => false

/-- How often an operation triggered watch `k`. -/
def triggers (log : List (WEvent α)) (k : Nat) : Nat := log.countP (isTrigger k)

/-- How often watch `k` was triggered. -/
def WTrace.triggers (tr : WTrace α) (k : Nat) : Nat := (tr.map (fun st => Mimic.triggers st.2 k)).sum

/-- Watch `k` has begun its life. -/
def WTrace.watch (tr : WTrace α) (k : Nat) : Prop := ∃ st ∈ tr, ∃ o, WEvent.born o k ∈ st.2

/-- The operation ends the object `o` as it was: destruction or copy-assignment. -/
def ends (op : WOp α) (o : Nat) : Prop := op = .drop o ∨ ∃ s, op = .copyAssign o s

/-- The operation moves from object `o`. -/
def movesFrom (op : WOp α) (o : Nat) : Prop := op = .move o ∨ ∃ d, op = .moveAssign d o

/-- What has to be reported: the end of an object with a lifetime watcher, every move of an object with a relocation
watcher. -/
def WTrace.reportable (tr : WTrace α) (op : WOp α) (o : Nat) : Prop :=
  (tr.isKind o .lifetime ∧ ends op o) ∨ (tr.isKind o .relocation ∧ movesFrom op o)

open Classical in
/-- How often, in `post` (which happens after `tr`), the carrier of watch `k` has something to report. -/
noncomputable def WTrace.reports : WTrace α → WTrace α → Nat → Nat
  | _, [], _ => 0
  | tr, st :: post, k =>
    (if ∃ o, tr.carries o k ∧ tr.reportable st.1 o then 1 else 0) + WTrace.reports (tr ++ [st]) post k

end Mimic
