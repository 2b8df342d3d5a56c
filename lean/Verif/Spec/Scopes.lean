import Verif.Spec.TestRun

/-!
# Specification vocabulary for scopes
-/

set_option autoImplicit false

namespace Mimic

variable {α : Type}

/-- After history `tr` the scoped expectations `o` and `i` both exist, and `i` was defined while `o` existed: the scope of `i`
lies inside that of `o`. -/
def STrace.inside (tr : STrace α) (i o : Nat) : Prop :=
  tr.exists i ∧ tr.exists o ∧
  ∃ (pre : STrace α) (st : SEntry α) (post : STrace α), tr = pre ++ st :: post ∧ st.log.slot = some i ∧ pre.exists o

namespace TestRun

/-- Scoped expectations are neither moved nor assigned: each stays in the scope it was created in. -/
def Prog.moveless (p : Prog α) : Prop := ∀ src, ¬ Uses p (.moveConstruct src) ∧ ∀ dst, ¬ Uses p (.moveAssign dst src)

/-- At some point of a test, expectation `e` resolves a call of mock `m` with `a` although expectation `e'`, whose scope lies
further inside, could have resolved it. `pre` is what the test has done before. -/
def Overtaken (tr : STrace α) (pre : STrace α) (m : Nat) (a : α) (e e' : Nat) : Prop :=
  (∃ st post, tr = pre ++ st :: post ∧ st.op = .plain (.call m a) ∧ Event.fullMatch e ∈ Trace.events st.log.lib) ∧
  pre.flat.candidate m a e' ∧ ∃ o o', pre.owns o e ∧ pre.owns o' e' ∧ pre.inside o' o

end TestRun

end Mimic
