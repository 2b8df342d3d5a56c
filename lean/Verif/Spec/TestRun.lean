import Verif.Model.TestRun
import Verif.Spec.Scoped

/-!
# Specification vocabulary for tests
-/

set_option autoImplicit false

namespace Mimic.TestRun

variable {α : Type}

/-- After history `pre`, the operation `st` is something a test should not do: it calls a mock and no expectation can resolve
the call, or it ends an expectation that has been matched too rarely. -/
inductive Violates (pre : STrace α) (st : SEntry α) : Prop where
  | call {m : Nat} {a : α} : st.op = .plain (.call m a) → (∀ e, ¬ pre.flat.candidate m a e) → Violates pre st
  | unmet {o e : Nat} : pre.owns o e → pre.flat.unmet e → (st.op = .drop o ∨ ∃ s, s ≠ o ∧ st.op = .moveAssign o s) →
      Violates pre st

/-- Something went wrong at position `i` of a history. -/
def Violation (tr : STrace α) (i : Nat) : Prop := ∃ st, tr[i]? = some st ∧ Violates (tr.take i) st

/-- At position `i` of a history something else than a call is done while an exception is on its way. -/
def Hidden (tr : STrace α) (i : Nat) : Prop :=
  ∃ st, tr[i]? = some st ∧ (∀ m a, st.op ≠ .plain (.call m a)) ∧ st.ctx.uncaught ≠ 0

/-- Nothing went wrong in a history. -/
def Clean (tr : STrace α) : Prop := ∀ i, ¬ Violation tr i

/-- The report is that a call was resolved. -/
def isFullMatch : Event → Bool
  | .fullMatch _ => true
  | _ => false

/-- The report is that something the client supplied has thrown an exception while a call was compared with an expectation. -/
def isUnhandled : Event → Bool
  | .unhandled _ => true
  | _ => false

/-- The program installs reporter `k` somewhere. -/
inductive Installs : Prog α → Installed → Prop where
  | here {k : Installed} : Installs (.install k) k
  | seqLeft {p q : Prog α} {k : Installed} : Installs p k → Installs (.seq p q) k
  | seqRight {p q : Prog α} {k : Installed} : Installs q k → Installs (.seq p q) k
  | expectation {m : Nat} {min max : Int} {tags : List Nat} {ps : List (Policy α)} {p : Prog α} {k : Installed} :
    Installs p k → Installs (.expectation m min max tags ps p) k
  | moved {src : Nat} {p : Prog α} {k : Installed} : Installs p k → Installs (.moved src p) k
  | sequence {st : Strategy} {p : Prog α} {k : Installed} : Installs p k → Installs (.sequence st p) k
  | guardCleanup {p q : Prog α} {k : Installed} : Installs p k → Installs (.guard p q) k
  | guardRest {p q : Prog α} {k : Installed} : Installs q k → Installs (.guard p q) k
  | attemptBody {c : Thrown → Bool} {p q : Prog α} {k : Installed} : Installs p k → Installs (.attempt c p q) k
  | attemptHandler {c : Thrown → Bool} {p q : Prog α} {k : Installed} : Installs q k → Installs (.attempt c p q) k

/-- The operations of a program that name a mock or a scoped expectation. -/
inductive Uses : Prog α → SOp α → Prop where
  | call {m : Nat} {a : α} : Uses (.call m a) (.plain (.call m a))
  | assign {dst src : Nat} : Uses (.assign dst src) (.moveAssign dst src)
  | expectation {m : Nat} {min max : Int} {tags : List Nat} {ps : List (Policy α)} {p : Prog α} :
    Uses (.expectation m min max tags ps p) (.expect m min max tags ps)
  | inExpectation {m : Nat} {min max : Int} {tags : List Nat} {ps : List (Policy α)} {p : Prog α} {op : SOp α} :
    Uses p op → Uses (.expectation m min max tags ps p) op
  | moved {src : Nat} {p : Prog α} : Uses (.moved src p) (.moveConstruct src)
  | inMoved {src : Nat} {p : Prog α} {op : SOp α} : Uses p op → Uses (.moved src p) op
  | sequence {st : Strategy} {p : Prog α} {op : SOp α} : Uses p op → Uses (.sequence st p) op
  | seqLeft {p q : Prog α} {op : SOp α} : Uses p op → Uses (.seq p q) op
  | seqRight {p q : Prog α} {op : SOp α} : Uses q op → Uses (.seq p q) op
  | guardCleanup {p q : Prog α} {op : SOp α} : Uses p op → Uses (.guard p q) op
  | guardRest {p q : Prog α} {op : SOp α} : Uses q op → Uses (.guard p q) op
  | attemptBody {c : Thrown → Bool} {p q : Prog α} {op : SOp α} : Uses p op → Uses (.attempt c p q) op
  | attemptHandler {c : Thrown → Bool} {p q : Prog α} {op : SOp α} : Uses q op → Uses (.attempt c p q) op

/-- No exception is caught. -/
def Prog.catchless : Prog α → Prop
  | .seq p q => p.catchless ∧ q.catchless
  | .expectation _ _ _ _ _ rest => rest.catchless
  | .moved _ rest => rest.catchless
  | .sequence _ rest => rest.catchless
  | .guard cleanup rest => cleanup.catchless ∧ rest.catchless
  | .attempt _ _ _ => False
  | _ => True

/-- The test and the code under test throw nothing themselves. -/
def Prog.throwless : Prog α → Prop
  | .throw _ => False
  | .seq p q => p.throwless ∧ q.throwless
  | .expectation _ _ _ _ _ rest => rest.throwless
  | .moved _ rest => rest.throwless
  | .sequence _ rest => rest.throwless
  | .guard cleanup rest => cleanup.throwless ∧ rest.throwless
  | .attempt _ body handler => body.throwless ∧ handler.throwless
  | _ => True

/-- An operation that creates an expectation has meaningful limits and names no sequence twice. -/
def Sensible (st : SEntry α) : Prop :=
  ∀ m min max tags ps, st.op = .expect m min max tags ps → 0 ≤ min ∧ min ≤ max ∧ tags.Nodup

/-- Expectation `e` got what it had asked for. -/
def Met (tr : Trace α) (e : Nat) (d : Decl α) : Prop :=
  d.min ≤ (tr.matched e : Int) ∧ (tr.matched e : Int) ≤ d.max ∧ ∀ p ∈ d.policies, p.isSatisfied = true

end Mimic.TestRun
