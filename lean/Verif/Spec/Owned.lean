import Verif.Spec.Concurrent

/-!
# Specification vocabulary: threads with mocks of their own

The usual way of running tests in parallel: every mock belongs to one thread.
-/

set_option autoImplicit false

namespace Mimic

variable {α : Type}

/-- Every mock `c` is used by the thread `own c` only: only that thread sets up, queries and withdraws expectations of the
mock, and only that thread calls it. -/
def KTrace.Owned (own : Nat → Nat) (tr : KTrace α) : Prop :=
  ∀ p x, p ++ [x] <+: tr →
    match x.act with
    | .expect c _ _ _ => x.thread = own c
    | .scan c _ => x.thread = own c
    | .remove e => ∀ d, KTrace.decl p e = some d → x.thread = own d.mock
    | .query e => ∀ d, KTrace.decl p e = some d → x.thread = own d.mock
    | _ => True

/-- What thread `t` did and observed: its steps of the schedule, without those of the others. -/
def KTrace.of (tr : KTrace α) (t : Nat) : KTrace α := tr.filter (fun x => x.thread = t)

end Mimic
