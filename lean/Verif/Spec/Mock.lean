import Verif.Model.Mock
import Verif.Spec.Trace

/-!
# Specification vocabulary for mocks

All notions are functions of the history of client operations and what they reported.
-/

set_option autoImplicit false

namespace Mimic

/-- Which objects an overload can be used on: `false` lvalues, `true` rvalues. -/
def ValueCategory.admits : ValueCategory → Bool → Prop
  | .lvalue, r => r = false
  | .rvalue, r => r = true
  | .any, _ => True

/-- The constness of an overload: `false` non-const, `true` const. -/
def Constness.admits : Constness → Bool → Prop
  | .nonConst, c => c = false
  | .asConst, c => c = true
  | .any, _ => True

variable {τ β : Type}

/-- What the mock variables hold: `some k` for the mock that was created by the operation that introduced variable `k`,
`none` for moved-from and dead variables. -/
def varsStep (vs : List (Option Nat)) : MOp τ β → List (Option Nat)
  | .newMock _ => vs ++ [some vs.length]
  | .moveMock m => vs.set m none ++ [vs[m]?.join]
  | .assignMock dst src => if dst = src then vs else (vs.set dst vs[src]?.join).set src none
  | .dropMock m => vs.set m none
  | _ => vs

/-- The variables after a history. -/
def MTrace.vars (tr : MTrace τ β) : List (Option Nat) := tr.foldl (fun vs st => varsStep vs st.1) []

/-- Variable `m` holds the mock `k`. -/
def MTrace.holds (tr : MTrace τ β) (m k : Nat) : Prop := tr.vars[m]? = some (some k)

/-- Variable `m` exists and its scope has not ended. -/
def MTrace.living (tr : MTrace τ β) (m : Nat) : Prop := m < tr.vars.length ∧ ∀ ev, (MOp.dropMock m, ev) ∉ tr

/-- Looks through a history from left to right; the test `P` of a step may depend on what the variables held before. -/
def searchFrom {γ : Type} (P : List (Option Nat) → MOp τ β → List Event → Option γ) :
    List (Option Nat) → MTrace τ β → Option γ
  | _, [] => none
  | vs, (op, ev) :: tr => (P vs op ev).or (searchFrom P (varsStep vs op) tr)

/-- The signatures mock `k` was created with. -/
def MTrace.sigs (tr : MTrace τ β) (k : Nat) : Option (List (Sig τ)) :=
  searchFrom (fun vs op _ =>
    match op with
    | .newMock sigs => if k = vs.length then some sigs else none
    | _ => none) [] tr

/-- The history without the information which mock and which overload the operations used, and without the front-end's
own policies. Limits, order, liveness and applicability do not depend on it. -/
def MOp.plain : MOp τ β → Op (CallInfo β)
  | .newSequence st => .newSequence st
  | .dropSequence s => .dropSequence s
  | .expect _ _ min max tags args extra => .expect 0 min max tags (args ++ extra)
  | .call _ _ a => .call 0 ⟨a, .any, .any⟩
  | .destroy e => .destroy e
  | _ => .newMock

/-- See `MOp.plain`. -/
def MTrace.plain (tr : MTrace τ β) : Trace (CallInfo β) := tr.map (fun st => (st.1.plain, st.2))

/-- The mock and the overload through which expectation `e` was created. -/
def MTrace.origin (tr : MTrace τ β) (e : Nat) : Option (Nat × Nat) :=
  searchFrom (fun vs op ev =>
    match op with
    | .expect m i _ _ _ _ _ => if Event.created e ∈ ev then vs[m]?.join.map (fun k => (k, i)) else none
    | _ => none) [] tr

/-- Expectation `e` was created through overload `i` of some mock; `args` came from the arguments of `expect_call`, `extra` was
added afterwards. -/
def MTrace.asked (tr : MTrace τ β) (e i : Nat) (args extra : List (Policy (CallInfo β))) : Prop :=
  ∃ m min max tags ev, (MOp.expect m i min max tags args extra, ev) ∈ tr ∧ Event.created e ∈ ev

/-- What a matcher sees of a call through overload `f`. -/
def Sig.info (f : Sig τ) (a : β) : CallInfo β where
  args := a
  category := match f.ref with | .none => .any | .lvalue => .lvalue | .rvalue => .rvalue
  constness := if f.isConst then .asConst else .nonConst

/-- `e` is alive, was created through overload `i` of mock `k`, and everything its creator asked for accepts the call. -/
def MTrace.accepts (tr : MTrace τ β) (k i : Nat) (a : CallInfo β) (e : Nat) : Prop :=
  tr.plain.live e ∧ tr.origin e = some (k, i) ∧
    ∃ d, tr.plain.decl e = some d ∧ ∀ p ∈ d.policies, p.accepts a = some true

/-- ... and `e` is applicable. -/
def MTrace.candidate (tr : MTrace τ β) (k i : Nat) (a : CallInfo β) (e : Nat) : Prop :=
  tr.accepts k i a e ∧ tr.plain.applicable e

end Mimic
