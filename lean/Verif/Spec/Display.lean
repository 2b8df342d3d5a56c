import Verif.Model.Display
import Verif.Spec.Trace

/-!
# Specification: printers that call mocks
-/

set_option autoImplicit false

namespace Mimic.Display

variable {α : Type}

/-- Whatever happens, only mocks below `r` are called. -/
inductive Show.Below (rank : Nat → Nat) (r : Nat) : Show α → Prop where
  | done : Below rank r .done
  | call {m : Nat} {a : α} {next : Option Nat → Show α} : rank m < r → (∀ x, Below rank r (next x)) → Below rank r (.call m a next)

/-- Whatever happens, only mocks with property `P` are called. -/
inductive Show.Only (P : Nat → Prop) : Show α → Prop where
  | done : Only P .done
  | call {m : Nat} {a : α} {next : Option Nat → Show α} : P m → (∀ x, Only P (next x)) → Only P (.call m a next)

/-- Printing the arguments of a call only calls mocks of lower layers. -/
def Layered (rank : Nat → Nat) (shows : Nat → α → Show α) : Prop := ∀ m a, (shows m a).Below rank (rank m)

/-- Each sequence only concerns expectations of one layer. -/
def DTrace.layered (rank srank : Nat → Nat) (dh : DTrace α) : Prop :=
  ∀ m min max tags pols tr, (Op.expect m min max tags pols, tr) ∈ dh → ∀ q ∈ tags, srank q = rank m

/-- All operations of the library, in the order in which they ended. -/
def DTrace.flat (dh : DTrace α) : Trace α := dh.flatMap (·.2)

/-- Which expectation resolved a call. -/
def resolver (ev : List Event) : Option Nat :=
  ev.findSome? (fun x => match x with | .fullMatch e => some e | _ => none)

/-- For how many expectations an exception of a matcher was reported. -/
def exceptions (ev : List Event) : Nat :=
  ev.countP (fun x => match x with | .unhandled _ => true | _ => false)

mutual

/-- `Prints shows p tr`: `tr` are the calls that come from printing with `p`. -/
inductive Prints (shows : Nat → α → Show α) : Show α → Trace α → Prop where
  | done : Prints shows .done []
  | call {tr tr' : Trace α} {m : Nat} {a : α} {next : Option Nat → Show α} {r : Option Nat} :
    Made shows m a tr r → Prints shows (next r) tr' → Prints shows (.call m a next) (tr ++ tr')

/-- The same for printing several times. -/
inductive Repeats (shows : Nat → α → Show α) : Nat → Show α → Trace α → Prop where
  | zero {p : Show α} : Repeats shows 0 p []
  | succ {n : Nat} {p : Show α} {tr tr' : Trace α} : Prints shows p tr → Repeats shows n p tr' → Repeats shows (n + 1) p (tr ++ tr')

/-- `Made shows m a tr r`: mock `m` was called with `a`; `tr` are the calls that came from printing the arguments, once for the report
about the call and once for each report about an exception, and finally this call, which `r` resolved. -/
inductive Made (shows : Nat → α → Show α) : Nat → α → Trace α → Option Nat → Prop where
  | call {tr : Trace α} {m : Nat} {a : α} {ev : List Event} :
    Repeats shows (exceptions ev + 1) (shows m a) tr → Made shows m a (tr ++ [(.call m a, ev)]) (resolver ev)

end

end Mimic.Display
