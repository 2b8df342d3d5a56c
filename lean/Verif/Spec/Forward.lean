import Verif.Model.Forward

/-!
# Specification: `finally::returns_arg`

In words: the caller gets the argument in the state in which the side effects have left it, and nothing else happens to the objects of the
caller.
-/

set_option autoImplicit false

namespace Mimic.Forward

open Mimic.Capture (Kind Cell Obj)

variable {V : Type}

/-- Argument `i` mentions a temporary or an object that no other argument mentions. -/
def Alone (ps : List (Param V)) (i : Nat) : Prop :=
  ∀ (j : Nat) (p q : Param V), j ≠ i → ps[i]? = some p → ps[j]? = some q → p.arg.mentions = none ∨ q.arg.mentions ≠ p.arg.mentions

/-- The content of an object: its value, or unspecified because it was moved from. -/
def Holds (objs : List (Obj V)) (o : Nat) (k : Kind) : Option V → Prop
  | some v => objs[o]? = some ⟨k, .holds v⟩
  | none => objs[o]? = some ⟨k, .moved⟩

/-- The value of an argument before the call. -/
def Arg.Is (objs : List (Obj V)) (k : Kind) (a : Arg V) (v : Option V) : Prop :=
  match a with
  | .named o => Holds objs o k v
  | .moved o => Holds objs o k v
  | .temp t => v = some t

/-- What is left of a value that was moved away: nothing can be said about it, except for plain types. -/
def remains (k : Kind) (v : Option V) : Option V := if k = .plain then v else none

/-- The value after an action. -/
def Change.result (k : Kind) (v : Option V) : Change V → Option V
  | .keep => v
  | .assign v' => some v'
  | .take => remains k v

/-- The value of argument `i` after all side effects: the actions for this argument, one after the other. -/
def after (k : Kind) (i : Nat) : List (Effect V) → Option V → Option V
  | [], v => v
  | e :: es, v => after k i es (if e.index = i then (e.act v).result k v else v)

/-- The parameter is a new object, which does not outlive the call. -/
def Param.isNew (p : Param V) : Bool :=
  p.pass = .value || p.arg.mentions.isNone

/-- The return types that are allowed for a parameter: objects and references to `const` always; references to non-`const` unless the
parameter is `const`; of those, an lvalue reference only for an lvalue reference. -/
def allowed (p : Pass) : Ret → Bool
  | .object => true
  | .constLref => true
  | .constRref => true
  | .lref => p = .lref
  | .rref => !(p = .constLref || p = .constRref)

/-- What becomes of an object of the caller that only argument `j` mentions, if argument `i` is returned: a by-value parameter is a copy,
or takes the value if the caller wrote `std::move`; side effects on a reference parameter are side effects on the object; and the value is
moved into the result if the parameter is an rvalue reference and the mock returns an object. -/
def fate (p : Param V) (j : Nat) (es : List (Effect V)) (i : Nat) (ret : Ret) (v : Option V) : Option V :=
  match p.pass, p.arg with
  | .value, .moved _ => remains p.kind v
  | .value, _ => v
  | .rref, _ => if j = i ∧ ret = .object then remains p.kind (after p.kind j es v) else after p.kind j es v
  | _, _ => after p.kind j es v

/-- The argument fits the parameter: `T&` needs an lvalue, `T&&` and `const T&&` an rvalue. -/
def fits (p : Pass) (a : Arg V) : Prop :=
  (p = .lref → ∃ o, a = .named o) ∧ (p = .rref ∨ p = .constRref → ∀ o, a ≠ .named o)

/-- The arguments exist and fit the parameters. -/
def Valid (objs : List (Obj V)) (ps : List (Param V)) : Prop :=
  ∀ p ∈ ps, fits p.pass p.arg ∧ ∃ v, p.arg.Is objs p.kind v

/-- The actions are applied to arguments that exist, and those to which a reference to `const` is passed leave it alone. -/
def Polite (ps : List (Param V)) (es : List (Effect V)) : Prop :=
  ∀ e ∈ es, ∃ p, ps[e.index]? = some p ∧ ((p.pass = .constLref ∨ p.pass = .constRref) → ∀ v, e.act v = .keep)

end Mimic.Forward
