import Verif.Model.Own
import Verif.Spec.Trace

/-!
# Specification: policies and finalizers of the user's own
-/

set_option autoImplicit false

namespace Mimic.Own

open Mimic.Nested (Seen)

variable {σ α ρ : Type}

/-- The history as the base model sees it. -/
def OTrace.flat (th : OTrace σ α ρ) : Trace (Seen α) := th.filterMap (fun st => st.2.base)

/-- What expectation number `e` was created with. -/
def OTrace.made (th : OTrace σ α ρ) (e : Nat) : Option (Inner σ α ρ) :=
  th.findSome? (fun st =>
    match st with
    | (.expect _ _ _ _ inner, c) => if Event.created e ∈ c.events then some inner else none
    | _ => none)

/-- The lower limit of expectation number `e`. -/
def OTrace.min (th : OTrace σ α ρ) (e : Nat) : Option Int :=
  th.findSome? (fun st =>
    match st with
    | (.expect _ min _ _ _, c) => if Event.created e ∈ c.events then some min else none
    | _ => none)

/-- The calls that expectation `e` was reported to have taken, oldest first. -/
def OTrace.took (th : OTrace σ α ρ) (e : Nat) : List α :=
  th.filterMap (fun st =>
    match st with
    | (.call _ a, c) => if Event.fullMatch e ∈ c.events then some a else none
    | _ => none)

/-- Living expectation `e` of mock `m`. -/
def OTrace.of (th : OTrace σ α ρ) (m e : Nat) : Prop := th.flat.live e ∧ ∃ d, th.flat.decl e = some d ∧ d.mock = m

/-- `Passed ps a ps' left`: the policies `ps` consume the call `a` one after the other, each as it was left by those before it, and none
of them throws. They become `ps'`, and `left` is left of the arguments. -/
inductive Passed : List (Policy σ α) → α → List (Policy σ α) → α → Prop where
  | nil {a : α} : Passed [] a [] a
  | cons {p : Policy σ α} {ps ps' : List (Policy σ α)} {t : σ} {a a' left : α} :
    p.consume p.state a = some (t, a') → Passed ps a' ps' left → Passed (p :: ps) a ({ p with state := t } :: ps') left

/-- `Used i as i'`: what was created as `i` is `i'` after having taken the calls `as`: each is consumed by all policies, and finally by
the finalizer. -/
inductive Used (i : Inner σ α ρ) : List α → Inner σ α ρ → Prop where
  | fresh : Used i [] i
  | took {as : List α} {i' : Inner σ α ρ} {a left : α} {ps : List (Policy σ α)} :
    Used i as i' → Passed i'.policies a ps left →
    Used i (as ++ [a]) { policies := ps, fin := { i'.fin with state := (i'.fin.finalize i'.fin.state left).1 } }

/-- The inner objects of expectation `e` at the end of a history. -/
def OTrace.now (th : OTrace σ α ρ) (e : Nat) (i' : Inner σ α ρ) : Prop := ∃ i, th.made e = some i ∧ Used i (th.took e) i'

/-- All policies accept the call. -/
def Accept (ps : List (Policy σ α)) (a : α) : Prop := ∀ p ∈ ps, p.accepts p.state a = some true

/-- Some policy throws when it is asked about the call. -/
def Throw (ps : List (Policy σ α)) (a : α) : Prop := ∃ p ∈ ps, p.accepts p.state a = none

/-- Expectation `e` could resolve the call `a` of mock `m`: it is a living expectation of `m`, all its policies, being what they are by
now, accept the call, and it is its turn. -/
def OTrace.candidate (th : OTrace σ α ρ) (m : Nat) (a : α) (e : Nat) : Prop :=
  th.of m e ∧ (∃ i, th.now e i ∧ Accept i.policies a) ∧ th.flat.applicable e

/-- Living expectation `e` of mock `m` whose policies, being what they are by now, accept the call `a`. -/
def OTrace.accepts (th : OTrace σ α ρ) (m : Nat) (a : α) (e : Nat) : Prop := th.of m e ∧ ∃ i, th.now e i ∧ Accept i.policies a

/-- Living expectation `e` of mock `m` one of whose policies, being what they are by now, throws when it is asked about the call `a`. -/
def OTrace.throws (th : OTrace σ α ρ) (m : Nat) (a : α) (e : Nat) : Prop := th.of m e ∧ ∃ i, th.now e i ∧ Throw i.policies a

/-- Expectation `e` has taken at least as many calls as it has to, and all its policies, being what they are by now, are satisfied. -/
def OTrace.satisfied (th : OTrace σ α ρ) (e : Nat) : Prop :=
  (∃ min, th.min e = some min ∧ min ≤ (th.took e).length) ∧ ∃ i, th.now e i ∧ ∀ p ∈ i.policies, p.satisfied p.state = true

/-- A policy as the library offers them: it keeps no state and makes no demands. -/
def Plain (p : Policy σ α) : Prop := (∀ t a t' a', p.consume t a = some (t', a') → t' = t) ∧ ∀ t, p.satisfied t = true

end Mimic.Own
