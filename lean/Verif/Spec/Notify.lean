import Verif.Model.Notify
import Verif.Spec.Display

/-!
# Specification: reporters that call mocks
-/

set_option autoImplicit false

namespace Mimic.Notify

open Mimic.Display (Show)

variable {α : Type}

/-- The layer of what a report is about. -/
def About.layer (rank srank : Nat → Nat) : About α → Nat
  | .call m _ => rank m
  | .expectation m => rank m
  | .sequence s => srank s

/-- Printers and the reporter only call mocks of lower layers than that which is printed or reported; side effects and finalizers only call
mocks of the same layer or lower ones. -/
structure Layered (rank srank : Nat → Nat) (hooks : Hooks α) : Prop where
  shows : ∀ m a, (hooks.shows m a).Below rank (rank m)
  tells : ∀ x ev, (hooks.tells x ev).Below rank (x.layer rank srank)
  acts : ∀ m e a, (hooks.acts m e a).Below rank (rank m + 1)

/-- Each sequence only concerns expectations of one layer. -/
def NTrace.layered (rank srank : Nat → Nat) (nh : NTrace α) : Prop :=
  ∀ m min max tags pols tr, (Op.expect m min max tags pols, tr) ∈ nh → ∀ q ∈ tags, srank q = rank m

/-- All operations of the library, in the order in which they ended. -/
def NTrace.flat (nh : NTrace α) : Trace α := nh.flatMap (·.2)

/-- The events that the reporter hears of. -/
def isReport : Event → Bool
  | .fullMatch _ | .inapplicable _ | .noMatch _ | .unhandled _ | .unfulfilled _ | .sequenceError _ _ _ => true
  | _ => false

/-- Which expectation resolved a call. -/
def resolver (ev : List Event) : Option Nat :=
  ev.findSome? (fun x => match x with | .fullMatch e => some e | _ => none)

/-- The mock of an expectation. -/
def mockOf (tr : Trace α) (e : Nat) : Nat :=
  match tr.decl e with
  | some d => d.mock
  | none => 0

/-- What a report that is emitted by an operation is about; `mockOf e` is the mock of expectation `e`. -/
def about (mockOf : Nat → Nat) : Op α → Event → About α
  | .call m a, _ => .call m a
  | _, .sequenceError s _ _ => .sequence s
  | .destroy e, _ => .expectation (mockOf e)
  | _, _ => .sequence 0

mutual

/-- `Calls hooks p tr`: `tr` are the calls that come from running `p`. -/
inductive Calls (hooks : Hooks α) : Show α → Trace α → Prop where
  | done : Calls hooks .done []
  | call {tr tr' : Trace α} {m : Nat} {a : α} {next : Option Nat → Show α} {r : Option Nat} :
    Made hooks m a tr r → Calls hooks (next r) tr' → Calls hooks (.call m a next) (tr ++ tr')

/-- `Told hooks ps tr`: the same for several programs, one after the other. -/
inductive Told (hooks : Hooks α) : List (Show α) → Trace α → Prop where
  | nil : Told hooks [] []
  | cons {p : Show α} {ps : List (Show α)} {tr tr' : Trace α} : Calls hooks p tr → Told hooks ps tr' → Told hooks (p :: ps) (tr ++ tr')

/-- `Made hooks m a tr r`: mock `m` was called with `a`; `tr` are the calls that were made for the reports of this call, in the order of these
reports, then this call, which `r` resolved, and then the calls that its side effects and its finalizer made. -/
inductive Made (hooks : Hooks α) : Nat → α → Trace α → Option Nat → Prop where
  | call {tr tr' : Trace α} {m : Nat} {a : α} {ev : List Event} :
    Told hooks (ev.map (hooks (.call m a))) tr → Calls hooks (hooks.effects m a (resolver ev)) tr' →
      Made hooks m a (tr ++ [(.call m a, ev)] ++ tr') (resolver ev)

end

/-- The calls that are made for the reports of an operation, in the order of these reports. -/
def Reacts (hooks : Hooks α) (mockOf : Nat → Nat) (op : Op α) (ev : List Event) (tr : Trace α) : Prop :=
  Told hooks ((ev.filter isReport).map fun x => hooks (about mockOf op x) x) tr

/-- The calls that the side effects and the finalizer of a call make. -/
def Follows (hooks : Hooks α) (op : Op α) (ev : List Event) (tr : Trace α) : Prop :=
  match op with
  | .call m a => Calls hooks (hooks.effects m a (resolver ev)) tr
  | _ => tr = []

end Mimic.Notify
