import Verif.Model.Reach
import Verif.Model.Signature

/-!
# Mocks: overloads, front-ends, moves and lifetime

Models `/repo/include/mimic++/Mock.hpp` 18-657, `/repo/include/mimic++/Call.hpp` 40-59 and the policies `Category` and
`Constness` (`/repo/include/mimic++/ExpectationPolicies.hpp` 30-88).

`β` is the type of argument lists (including everything else a matcher may look at), `τ` the type of C++ types.
Which overload an expression `mock(...)` or `mock.expect_call(...)` means is decided by the C++ language; the operations
name the overload.
-/

set_option autoImplicit false

namespace Mimic

/-- Call.hpp 40-48: `call::Info`, without the source location. -/
structure CallInfo (β : Type) where
  args : β
  category : ValueCategory
  constness : Constness

variable {τ β : Type}

/-- ExpectationPolicies.hpp 30-58: `Category<expected>`. -/
def categoryPolicy (expected : ValueCategory) : Policy (CallInfo β) where
  accepts info := some (info.category.isMatching expected)
  description := some ("expect: from " ++ expected.word ++ " category overload")

/-- ExpectationPolicies.hpp 60-88: `Constness<constness>`. -/
def constnessPolicy (expected : Constness) : Policy (CallInfo β) where
  accepts info := some (info.constness.isMatching expected)
  description := some ("expect: from " ++ expected.word ++ " qualified overload")

/-- A variable of type `Mock<sigs...>`. `ptrs[i]` is `m_Expectations` of the front-end of overload `i` (Mock.hpp 62):
the number of a storage, or null. -/
structure MockCell (τ : Type) where
  sigs : List (Sig τ)
  ptrs : List (Option Nat)
  alive : Bool

/-- The world with mocks. -/
structure MWorld (τ β : Type) where
  w : World (CallInfo β)
  mocks : List (MockCell τ)

def MWorld.init : MWorld τ β := { w := World.init, mocks := [] }

/-- Client operations. -/
inductive MOp (τ β : Type) where
  | newSequence (strategy : Strategy)
  | dropSequence (s : Nat)
  /-- `Mock<sigs...> m{};` -/
  | newMock (sigs : List (Sig τ))
  /-- `Mock<sigs...> n{std::move(m)};` -/
  | moveMock (m : Nat)
  /-- `dst = std::move(src);` -/
  | assignMock (dst src : Nat)
  /-- End of life of a mock variable. -/
  | dropMock (m : Nat)
  /-- `ScopedExpectation e = m.expect_call(args...) and extra... and times(min, max) and in_sequences(tags...)`
  through overload `i`. -/
  | expect (m i : Nat) (min max : Int) (tags : List Nat) (args extra : List (Policy (CallInfo β)))
  /-- `m(a...)` through overload `i`. -/
  | call (m i : Nat) (a : β)
  /-- End of life of a `ScopedExpectation`. -/
  | destroy (e : Nat)

/-- Mock.hpp 521-534, 615-625: creates the storages, from left to right. -/
def MWorld.addStorages (w : World (CallInfo β)) : Nat → M (World (CallInfo β) × List Event)
  | 0 => .ok (w, [])
  | n + 1 => do
    let (w', ev) ← w.step .newMock
    let (w'', ev') ← MWorld.addStorages w' n
    return (w'', ev ++ ev')

/-- The front-end of overload `i` of variable `m`: its storage pointer and its template arguments.
Outer `none`: there is no such (living) mock or overload, or the overload has no front-end. -/
def MWorld.frontend (mw : MWorld τ β) (m i : Nat) : Option (Option Nat × ValueCategory × Constness) :=
  match mw.mocks[m]? with
  | some cell =>
    if cell.alive then
      match cell.sigs[i]?, cell.ptrs[i]? with
      | some f, some p =>
        match f.frontend with
        | some (cat, con) => some (p, cat, con)
        | none => none
      | _, _ => none
    else none
  | none => none

/-- Lifts an operation of the underlying world. -/
def MWorld.plain (mw : MWorld τ β) (op : Op (CallInfo β)) : M (MWorld τ β × List Event) := do
  let (w', ev) ← mw.w.step op
  return ({ mw with w := w' }, ev)

/-- One client operation.
* `newMock`: Mock.hpp 595-625 and 648-657; the `requires` clause demands an overload set, and every overload needs a
  front-end.
* moves: Mock.hpp 638-646 (defaulted): every front-end's `std::shared_ptr` is moved, leaving null; self-assignment of a
  `std::shared_ptr` changes nothing.
* `expect`: Mock.hpp 47-58: argument policies, then `Category`, then `Constness`, then what the client adds; with a null
  storage `assert(m_Storage)` fails (ExpectationBuilder.hpp 51).
* `call`: Mock.hpp 29-45: with a null storage the pointer is dereferenced. -/
def MWorld.step [DecidableEq τ] (mw : MWorld τ β) : MOp τ β → M (MWorld τ β × List Event)
  | .newSequence st => mw.plain (.newSequence st)
  | .dropSequence s => mw.plain (.dropSequence s)
  | .destroy e => mw.plain (.destroy e)
  | .newMock sigs =>
    let storages := storagesOf sigs
    if isOverloadSet sigs = some true ∧ sigs.all (fun f => f.frontend.isSome) ∧
        sigs.all (fun f => (storageIndex storages f).isSome) then do
      let base := mw.w.colls.length
      let (w', ev) ← MWorld.addStorages mw.w storages.length
      let ptrs := sigs.map (fun f => (storageIndex storages f).map (base + ·))
      return ({ w := w', mocks := mw.mocks ++ [⟨sigs, ptrs, true⟩] }, ev)
    else .error (.client "ill-formed mock type")
  | .moveMock m =>
    match mw.mocks[m]? with
    | some ⟨sigs, ptrs, true⟩ =>
      .ok ({ mw with mocks := mw.mocks.set m ⟨sigs, ptrs.map (fun _ => none), true⟩ ++ [⟨sigs, ptrs, true⟩] }, [])
    | _ => .error (.client "use of a dead mock")
  | .assignMock dst src =>
    match mw.mocks[dst]?, mw.mocks[src]? with
    | some ⟨sigs, _, true⟩, some ⟨sigs', ptrs', true⟩ =>
      if sigs = sigs' then
        if dst = src then .ok (mw, [])
        else
          .ok ({ mw with mocks := (mw.mocks.set dst ⟨sigs, ptrs', true⟩).set src ⟨sigs', ptrs'.map (fun _ => none), true⟩ }, [])
      else .error (.client "assignment between different types")
    | _, _ => .error (.client "use of a dead mock")
  | .dropMock m =>
    match mw.mocks[m]? with
    | some ⟨sigs, ptrs, true⟩ => .ok ({ mw with mocks := mw.mocks.set m ⟨sigs, ptrs, false⟩ }, [])
    | _ => .error (.client "destruction of a dead mock")
  | .expect m i min max tags args extra =>
    match mw.frontend m i with
    | none => .error (.client "no such mock or overload")
    | some (none, _, _) => .error (.ub "expect_call on a moved-from mock")
    | some (some c, cat, con) =>
      mw.plain (.expect c min max tags (args ++ [categoryPolicy cat, constnessPolicy con] ++ extra))
  | .call m i a =>
    match mw.frontend m i with
    | none => .error (.client "no such mock or overload")
    | some (none, _, _) => .error (.ub "call of a moved-from mock")
    | some (some c, cat, con) => mw.plain (.call c ⟨a, cat, con⟩)

/-- Operations performed so far with their observations, oldest first. -/
abbrev MTrace (τ β : Type) := List (MOp τ β × List Event)

/-- Histories of clients with mocks. -/
inductive MReach [DecidableEq τ] : MTrace τ β → MWorld τ β → Prop where
  | init : MReach [] MWorld.init
  | step {tr : MTrace τ β} {mw mw' : MWorld τ β} {op : MOp τ β} {ev : List Event} :
    MReach tr mw → mw.step op = .ok (mw', ev) → MReach (tr ++ [(op, ev)]) mw'

end Mimic
