import Verif.Model.Shared

/-!
# Specification vocabulary for reports and installations by several threads

Everything here is a function of the schedule.
-/

set_option autoImplicit false

namespace Mimic.Shared

/-- `Before tr i j`: step `i` happens before step `j`: by the order within a thread, because `i` has initialised the static variable
that `j` gets to, because the client releases something in step `i` that it acquires in step `j`, or by a chain of these. -/
inductive Before (tr : Schedule) : Nat → Nat → Prop where
  | thread {i j : Nat} {x y : Entry} : i < j → tr[i]? = some x → tr[j]? = some y → x.thread = y.thread → Before tr i j
  | static {i j : Nat} {x y : Entry} : i < j → tr[i]? = some x → tr[j]? = some y →
    x.log.inits.isSome → y.log.visits = true → Before tr i j
  | client {i j : Nat} {x y : Entry} {c : Nat} : i < j → tr[i]? = some x → tr[j]? = some y →
    x.act = .release c → y.act = .acquire c → Before tr i j
  | trans {i j k : Nat} : Before tr i j → Before tr j k → Before tr i k

/-- Two steps of different threads use the same memory, one of them writes, and neither happens before the other. -/
def Race (tr : Schedule) (i j : Nat) : Prop :=
  ∃ x y, tr[i]? = some x ∧ tr[j]? = some y ∧ x.thread ≠ y.thread ∧
    (∃ m, m ∈ x.log.writes ∧ (m ∈ y.log.reads ∨ m ∈ y.log.writes)) ∧ ¬ Before tr i j ∧ ¬ Before tr j i

/-- Step `j` belongs to the report that begins with step `i`. -/
def InReport (tr : Schedule) (i j : Nat) : Prop :=
  ∃ x y, tr[i]? = some x ∧ tr[j]? = some y ∧ x.thread = y.thread ∧ x.act = .enter ∧
    (j = i ∨ (i < j ∧ y.act = .deliver ∧ ∀ (k : Nat) z, i < k → k < j → tr[k]? = some z → z.thread ≠ x.thread))

/-- Step `j` belongs to the installation that begins with step `i`. -/
def InInstall (tr : Schedule) (i j : Nat) : Prop :=
  ∃ x y, tr[i]? = some x ∧ tr[j]? = some y ∧ x.thread = y.thread ∧ x.act = .make ∧
    (j = i ∨ (i < j ∧ (y.act = .assign ∨ y.act = .destroy) ∧
      ∀ (k : Nat) z, i < k → k < j → tr[k]? = some z → z.thread = x.thread → z.act = .assign))

/-- The client keeps its installations apart: a report, or another installation, of another thread happens before or after it as a
whole. -/
def Apart (tr : Schedule) : Prop :=
  ∀ (i i' : Nat) (x x' : Entry), tr[i]? = some x → tr[i']? = some x' → x.thread ≠ x'.thread →
    x.act = .make → (x'.act = .enter ∨ x'.act = .make) →
      (∀ j j', InInstall tr i j → (InReport tr i' j' ∨ InInstall tr i' j') → Before tr j j') ∨
      (∀ j j', InInstall tr i j → (InReport tr i' j' ∨ InInstall tr i' j') → Before tr j' j)

/-- Nothing is installed. -/
def NoInstall (tr : Schedule) : Prop := ∀ x ∈ tr, x.act ≠ .make

/-- The reporter in force according to the schedule: the one that was put there last, and before the one that the static variable was
initialised with. -/
def inForce (tr : Schedule) : Option Nat :=
  match (tr.filter (fun x => x.act = .assign)).getLast? with
  | some x => x.log.whom
  | none => tr.findSome? (·.log.inits)

end Mimic.Shared
