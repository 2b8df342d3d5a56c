import Verif.Model.Calls
import Verif.Spec.Trace

/-!
# Specification vocabulary for carrying out calls
-/

set_option autoImplicit false

namespace Mimic

variable {V : Type}

/-- The library operations among everything that happened, nested or not, in order of time: a flat history. -/
def flat (log : List (Obs V)) : Trace (Snap V) :=
  log.filterMap (fun o => match o with | .op o ev => some (o, ev) | _ => none)

/-- Client code `c`, started in `s`, ends in `s'` with outcome `o`; `log` happened meanwhile. -/
def Runs (s : CState V) (c : Code V) (s' : CState V) (log : List (Obs V)) (o : Outcome V) : Prop :=
  ∃ n, exec n s c = some (.ok (s', log, o))

/-- Client code `c`, started in `s`, leads to `x` (undefined behaviour, termination, ...). -/
def Stops (s : CState V) (c : Code V) (x : Stop) : Prop := ∃ n, exec n s c = some (.error x)

/-- The call `m(args...)`, started in `s`, ends in `s'` with outcome `o`. -/
def Calls (s : CState V) (m : Nat) (args : List Nat) (s' : CState V) (log : List (Obs V)) (o : Outcome V) : Prop :=
  ∃ n, invoke n s m args = some (.ok (s', log, o))

/-- The call `m(args...)`, started in `s`, leads to `x`. -/
def CallStops (s : CState V) (m : Nat) (args : List Nat) (x : Stop) : Prop := ∃ n, invoke n s m args = some (.error x)

/-- The program is in state `s` after the library operations `tr` (nested ones included). -/
structure CInv (tr : Trace (Snap V)) (s : CState V) : Prop where
  reach : Reach tr s.w
  acts : s.acts.length = s.w.exps.length
  mocks : s.mocks.length = s.w.colls.length

/-- The side effects `cs` (numbered from `i`) of expectation `e` run one after the other, each from the state the
previous one left, none of them throws, and the expectation still exists whenever one begins. -/
inductive InOrder (e : Nat) (locs : List Nat) :
    Nat → List (List Nat → Code V) → CState V → CState V → List (Obs V) → Prop where
  | nil {i : Nat} {s : CState V} : InOrder e locs i [] s s []
  | cons {i : Nat} {c : List Nat → Code V} {cs : List (List Nat → Code V)} {s s' s'' : CState V}
      {log log' : List (Obs V)} {v : V} :
      s.w.isAlive e = true → Runs s (c locs) s' log (.ret v) → InOrder e locs (i + 1) cs s' s'' log' →
      InOrder e locs i (c :: cs) s s'' (.effect e i :: log ++ log')

/-- The call `m(args...)` in state `s`: the parameters become `locs` in memory `mem'`, the reports are `ev` and the
world of expectations becomes `w'`. -/
structure Resolves (s : CState V) (m : Nat) (args : List Nat) (noexc : Bool) (mem' : List V) (locs : List Nat)
    (w' : World (Snap V)) (ev : List Event) : Prop where
  params : ∃ params, s.mocks[m]? = some (noexc, params) ∧ bindArgs s.mem params args = some (mem', locs)
  step : s.w.step (.call m ⟨mem', locs⟩) = .ok (w', ev)

/-- Client code in which no `ScopedExpectation` is destroyed, neither directly nor in an attached action. -/
inductive NoDestroy : Code V → Prop where
  | done {o : Outcome V} : NoDestroy (.done o)
  | illFormed : NoDestroy .illFormed
  | read {a : Nat} {k : V → Code V} : (∀ v, NoDestroy (k v)) → NoDestroy (.read a k)
  | write {a : Nat} {v : V} {k : Code V} : NoDestroy k → NoDestroy (.write a v k)
  | newSequence {st : Strategy} {k : Code V} : NoDestroy k → NoDestroy (.newSequence st k)
  | dropSequence {q : Nat} {k : Code V} : NoDestroy k → NoDestroy (.dropSequence q k)
  | newMock {b : Bool} {ps : List ParamKind} {k : Code V} : NoDestroy k → NoDestroy (.newMock b ps k)
  | expect {m : Nat} {min max : Int} {tags : List Nat} {policies : List (Policy (Snap V))}
      {effects : List (List Nat → Code V)} {fin : List Nat → Code V} {k : Code V} :
      (∀ c ∈ effects, ∀ locs, NoDestroy (c locs)) → (∀ locs, NoDestroy (fin locs)) → NoDestroy k →
      NoDestroy (.expect m min max tags policies effects fin k)
  | call {m : Nat} {args : List Nat} {k : Outcome V → Code V} : (∀ o, NoDestroy (k o)) → NoDestroy (.call m args k)

/-- Client code whose attached actions (side effects, finalizers) destroy no `ScopedExpectation`; other code may. -/
inductive ActionsKeep : Code V → Prop where
  | done {o : Outcome V} : ActionsKeep (.done o)
  | illFormed : ActionsKeep .illFormed
  | read {a : Nat} {k : V → Code V} : (∀ v, ActionsKeep (k v)) → ActionsKeep (.read a k)
  | write {a : Nat} {v : V} {k : Code V} : ActionsKeep k → ActionsKeep (.write a v k)
  | newSequence {st : Strategy} {k : Code V} : ActionsKeep k → ActionsKeep (.newSequence st k)
  | dropSequence {q : Nat} {k : Code V} : ActionsKeep k → ActionsKeep (.dropSequence q k)
  | newMock {b : Bool} {ps : List ParamKind} {k : Code V} : ActionsKeep k → ActionsKeep (.newMock b ps k)
  | expect {m : Nat} {min max : Int} {tags : List Nat} {policies : List (Policy (Snap V))}
      {effects : List (List Nat → Code V)} {fin : List Nat → Code V} {k : Code V} :
      (∀ c ∈ effects, ∀ locs, NoDestroy (c locs)) → (∀ locs, NoDestroy (fin locs)) → ActionsKeep k →
      ActionsKeep (.expect m min max tags policies effects fin k)
  | call {m : Nat} {args : List Nat} {k : Outcome V → Code V} : (∀ o, ActionsKeep (k o)) → ActionsKeep (.call m args k)
  | destroy {e : Nat} {k : Code V} : ActionsKeep k → ActionsKeep (.destroy e k)

/-- Code that uses no library operation and writes only to addresses in `A`. -/
inductive WritesOnly (A : Nat → Prop) : Code V → Prop where
  | done {o : Outcome V} : WritesOnly A (.done o)
  | illFormed : WritesOnly A .illFormed
  | read {a : Nat} {k : V → Code V} : (∀ v, WritesOnly A (k v)) → WritesOnly A (.read a k)
  | write {a : Nat} {v : V} {k : Code V} : A a → WritesOnly A k → WritesOnly A (.write a v k)

end Mimic
