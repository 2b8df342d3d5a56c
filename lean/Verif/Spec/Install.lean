import Verif.Model.Install

/-!
# Specification: which reporter is in force
-/

set_option autoImplicit false

namespace Mimic.Install

/-- Whether `install_reporter` succeeds: the constructor must not throw. It may throw an exception of its own, or let one escape that the
reporter in force throws. -/
def accepted (cur c : Cls) : Bool := !c.ctorThrows && (!cur.throws || c.ctor.all (·.caught))

/-- The reporter in force, for a client: the one that was installed last; without any, the default one. -/
def current (ops : List Op) : Cls :=
  ops.foldl (fun cur op => match op with
    | .install c => if accepted cur c then c else cur
    | _ => cur) defaultCls

/-- Whether something was reported or installed (or a constructor reported something before it failed). -/
def usedBy : Op → Bool
  | .static _ => false
  | .report => true
  | .install c => !c.ctor.isEmpty || !c.ctorThrows

def used (ops : List Op) : Bool := ops.any usedBy

/-- The reporter that the pointer refers to, as seen by what happened. -/
def inForce (log : List Ev) : Option Nat :=
  log.foldl (fun cur e => match e with
    | .set k => some k
    | _ => cur) none

/-- What must be true when something happens. -/
def Fine (before : List Ev) : Ev → Prop
  | .made k => .made k ∉ before
  | .set k => .made k ∈ before ∧ .dying k ∉ before
  /- only the reporter in force gets reports, and it is alive -/
  | .gets k => inForce before = some k ∧ .dying k ∉ before
  /- a reporter dies once, and before the end of the program only when it has been replaced -/
  | .dying k => .made k ∈ before ∧ .dying k ∉ before ∧ (.exit ∈ before ∨ inForce before ≠ some k)
  | _ => True

/-- Every single thing that happened was fine. -/
def Sound (log : List Ev) : Prop := ∀ (before : List Ev) (e : Ev) (after : List Ev), log = before ++ e :: after → Fine before e

/-- No exception of a reporter escapes from the destructor of a reporter that is replaced. -/
def Quiet (ops : List Op) : Prop :=
  ∀ pre c post, ops = pre ++ .install c :: post → accepted (current pre) c = true → c.throws = true → (current pre).dtor.all (·.caught) = true

/-- The destructors of the objects with static storage duration that report something, in the order of initialisation. -/
def reporting : List Op → List (List Act)
  | [] => []
  | .static d :: ops => if d.isEmpty then reporting ops else d :: reporting ops
  | _ :: ops => reporting ops

/-- Some object with static storage duration whose destructor reports something was initialised before the first use of the reporter. -/
def Early (ops : List Op) : Prop := ∃ pre d post, ops = pre ++ .static d :: post ∧ d ≠ [] ∧ used pre = false

/-- Some object with static storage duration was initialised after the first use of the reporter, and its destructor lets exceptions of
the reporter escape. -/
def Careless (ops : List Op) : Prop :=
  ∃ pre d post, ops = pre ++ .static d :: post ∧ used pre = true ∧ ∃ a ∈ d, a.caught = false

end Mimic.Install
