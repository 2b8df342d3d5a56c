import Verif.Model.Capture

/-!
# What `finally::returns_arg` hands out

Models `finally::returns_arg` (`/repo/include/mimic++/ExpectationPolicies.hpp` 575-588) with what surrounds it: the parameters of the
call operator (`/repo/include/mimic++/Mock.hpp` 29-45, 65-519), to which the library keeps references
(`/repo/include/mimic++/Call.hpp` 43-48), the side effects `then::apply_arg` (ExpectationPolicies.hpp 647-664), which run first
(`/repo/include/mimic++/Expectation.hpp` 333-352), and the conversion to the return type of the mock (ExpectationPolicies.hpp 103-122).

This refines `returnsArg` of `Model/Calls.lean`, which does not look at what is moved. Simplifications: argument, parameter and return
type belong to the same object type, which is copyable (and so not an array); arguments are evaluated from left to right (in C++ the order is
unspecified, so the theorems are about objects that no other argument mentions); the variables of the client are not `const`.
-/

set_option autoImplicit false

namespace Mimic.Forward

open Mimic.Capture (Kind Cell Obj Fault object)

variable {V : Type}

/-- How a parameter is declared: `T`, `T&`, `const T&`, `T&&`, `const T&&`. -/
inductive Pass where
  | value
  | lref
  | constLref
  | rref
  | constRref
deriving DecidableEq, Repr

/-- The return type of the mock: `T`, `T&`, `const T&`, `T&&`, `const T&&`. -/
inductive Ret where
  | object
  | lref
  | constLref
  | rref
  | constRref
deriving DecidableEq, Repr

/-- An argument of the call: the name of a variable, `std::move(o)`, or a temporary. -/
inductive Arg (V : Type) where
  | named (o : Nat)
  | moved (o : Nat)
  | temp (v : V)

/-- A parameter and its argument; `kind` is the kind of the type `T`. -/
structure Param (V : Type) where
  kind : Kind
  pass : Pass
  arg : Arg V

/-- What an action does to the argument it is applied to: nothing, an assignment, or it moves from it. -/
inductive Change (V : Type) where
  | keep
  | assign (v : V)
  | take

/-- `then::apply_arg<index>(act)`. The action sees the argument; `none`: it was moved from, so the value is unspecified. -/
structure Effect (V : Type) where
  index : Nat
  act : Option V → Change V

/-- Which arguments a reference can be bound to. -/
def binds : Pass → Arg V → Bool
  | .value, _ => true
  | .lref, .named _ => true
  | .lref, _ => false
  | .constLref, _ => true
  | .rref, .named _ => false
  | .rref, _ => true
  | .constRref, .named _ => false
  | .constRref, _ => true

/-- Mock.hpp 80: a parameter of the call operator comes into being. The result is the object that it denotes: a by-value parameter and a
temporary are new objects. -/
def bindOne (objs : List (Obj V)) (p : Param V) : Except Fault (List (Obj V) × Nat) :=
  if binds p.pass p.arg then
    match p.arg with
    | .temp v => .ok (objs ++ [⟨p.kind, .holds v⟩], objs.length)
    | .named o => do
      let x ← object objs o
      if x.kind ≠ p.kind then .error .illFormed
      else if p.pass = .value then .ok (objs ++ [x], objs.length)
      else .ok (objs, o)
    | .moved o => do
      let x ← object objs o
      if x.kind ≠ p.kind then .error .illFormed
      else if p.pass = .value then .ok (objs.set o ⟨x.kind, x.cell.left x.kind⟩ ++ [x], objs.length)
      else .ok (objs, o)
  else .error .illFormed

/-- The object of the client that an argument mentions. -/
def Arg.mentions : Arg V → Option Nat
  | .named o => some o
  | .moved o => some o
  | .temp _ => none

def bindAll (objs : List (Obj V)) : List (Param V) → Except Fault (List (Obj V) × List Nat)
  | [] => .ok (objs, [])
  | p :: ps => do
    let (objs, l) ← bindOne objs p
    let (objs, ls) ← bindAll objs ps
    return (objs, l :: ls)

def Pass.isConst : Pass → Bool
  | .constLref => true
  | .constRref => true
  | _ => false

/-- What a living object holds, for those who look at it. -/
def look (objs : List (Obj V)) (l : Nat) : Except Fault (Obj V × Option V) :=
  match objs[l]? with
  | some ⟨k, .holds v⟩ => .ok (⟨k, .holds v⟩, some v)
  | some ⟨k, .moved⟩ => .ok (⟨k, .moved⟩, none)
  | _ => .error .dangling

/-- ExpectationPolicies.hpp 311-357 with `std::add_lvalue_reference_t`: the action is applied to a reference to the parameter. -/
def runEffect (ps : List (Param V)) (ls : List Nat) (objs : List (Obj V)) (e : Effect V) : Except Fault (List (Obj V)) :=
  match ps[e.index]?, ls[e.index]? with
  | some p, some l => do
    let (x, v) ← look objs l
    match e.act v with
    | .keep => return objs
    | .assign v => if p.pass.isConst then .error .illFormed else return objs.set l ⟨x.kind, .holds v⟩
    | .take => if p.pass.isConst then .error .illFormed else return objs.set l ⟨x.kind, x.cell.left x.kind⟩
  | _, _ => .error .illFormed

def runEffects (ps : List (Param V)) (ls : List Nat) : List (Obj V) → List (Effect V) → Except Fault (List (Obj V))
  | objs, [] => .ok objs
  | objs, e :: es => do
    let objs ← runEffect ps ls objs e
    runEffects ps ls objs es

/-- What the projection `std::add_rvalue_reference_t` makes of the parameter (352-354): an expression of type `T&`, `const T&`, `T&&` or
`const T&&`, by reference collapsing. -/
def projected : Pass → Ret
  | .value => .rref
  | .lref => .lref
  | .constLref => .constLref
  | .rref => .rref
  | .constRref => .constRref

/-- Whether `static_cast` to the return type is well-formed (`explicitly_convertible_to`, 105-107). -/
def castable : Ret → Ret → Bool
  /- `T` is copyable -/
  | _, .object => true
  | .lref, .lref => true
  | _, .lref => false
  /- binds to everything -/
  | _, .constLref => true
  /- `static_cast<T&&>` of an lvalue is what `std::move` does -/
  | .lref, .rref => true
  | .rref, .rref => true
  | _, .rref => false
  | _, .constRref => true

/-- What the caller gets: an object (`none`: with unspecified value), or a reference to an object. -/
inductive Result (V : Type) where
  | object (k : Kind) (v : Option V)
  | ref (o : Nat)

/-- ExpectationPolicies.hpp 118-119: an object is made from the projected parameter, by moving if that is `T&&`, otherwise by copying. -/
def finalize (objs : List (Obj V)) (p : Param V) (l : Nat) (ret : Ret) : Except Fault (List (Obj V) × Result V) :=
  if castable (projected p.pass) ret then
    if ret = .object then do
      let (x, v) ← look objs l
      if projected p.pass = .rref then return (objs.set l ⟨x.kind, x.cell.left x.kind⟩, .object x.kind v)
      else return (objs, .object x.kind v)
    else return (objs, .ref l)
  else .error .illFormed

/-- The parameters and temporaries, which are the objects from number `n`, die. -/
def bury (n : Nat) (objs : List (Obj V)) : List (Obj V) :=
  objs.take n ++ (objs.drop n).map (fun x => { x with cell := .gone })

/-- A call of a mock whose expectation has these side effects and `finally::returns_arg<index>()`. Simplification: by-value parameters
die together with the temporaries at the end of the full expression (this is implementation-defined). -/
def call (objs : List (Obj V)) (ps : List (Param V)) (effects : List (Effect V)) (index : Nat) (ret : Ret) :
    Except Fault (List (Obj V) × Result V) := do
  if ps.any (fun p => p.arg.mentions.any (fun o => decide (objs.length ≤ o))) then .error .client
  let (objs₁, ls) ← bindAll objs ps
  let objs₂ ← runEffects ps ls objs₁ effects
  match ps[index]?, ls[index]? with
  | some p, some l =>
    let (objs₃, r) ← finalize objs₂ p l ret
    return (bury objs.length objs₃, r)
  | _, _ => .error .illFormed

/-- `T y = ...`: a variable is initialised with the result: by copying or, from `T&&`, by moving. -/
def receive (objs : List (Obj V)) (ret : Ret) : Result V → Except Fault (List (Obj V) × Option V)
  | .object k v => .ok (objs ++ [⟨k, match v with | some v => .holds v | none => .moved⟩], v)
  | .ref l => do
    let (x, v) ← look objs l
    let objs := if ret = .rref then objs.set l ⟨x.kind, x.cell.left x.kind⟩ else objs
    return (objs ++ [x], v)

end Mimic.Forward
