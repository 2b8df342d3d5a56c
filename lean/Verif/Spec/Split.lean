import Verif.Spec.Trace
import Verif.Spec.Language

/-!
# Specification: one expectation for exactly so many calls, or several ones for exact parts of this number
-/

set_option autoImplicit false

namespace Mimic.Split

variable {α : Type}

/-- The rest of the test, if expectation `e` is replaced by the `n` expectations `e`, …, `e + n - 1`: they end where the one ended, and later
expectations have other numbers. -/
def op (e n : Nat) : Op α → List (Op α)
  | .destroy k => if k < e then [.destroy k] else if k = e then (List.range n).map fun i => .destroy (e + i) else [.destroy (k + (n - 1))]
  | o => [o]

/-- The expectation of the first test, for an expectation of the second one. -/
def origin (e n k : Nat) : Nat := if k < e then k else if k < e + n then e else k - (n - 1)

/-- How a call ended. -/
inductive Outcome where
  | resolved (e : Nat)
  | inapplicable
  | noMatch
deriving DecidableEq, Repr

/-- The outcomes of the calls; `f` says which expectation is meant. -/
def outcome (f : Nat → Nat) : Event → Option Outcome
  | .fullMatch e => some (.resolved (f e))
  | .inapplicable _ => some .inapplicable
  | .noMatch _ => some .noMatch
  | _ => none

/-- So far, `e` expectations were created. -/
def Created (tr : Trace α) (e : Nat) : Prop := ∀ k, (tr.decl k).isSome = true ↔ k < e

end Mimic.Split
