import Verif.Spec.Trace

/-!
# Specification: tests with other kinds of sequences
-/

set_option autoImplicit false

namespace Mimic.Kinds

variable {α : Type}

/-- In the whole history there is no call that two expectations could have resolved. -/
def Unambiguous (tr : Trace α) : Prop :=
  ∀ (i m : Nat) (a : α) (ev : List Event), tr[i]? = some (.call m a, ev) →
    ∀ e e', Trace.candidate (tr.take i) m a e → Trace.candidate (tr.take i) m a e' → e = e'

/-- Two expectations never compete for a call: they belong to different mocks; or they share a sequence, and the older one has as its lower
limit its upper limit; or no call passes the policies of both. -/
def Apart (tr : Trace α) (e e' : Nat) : Prop :=
  ∀ d d', tr.decl e = some d → tr.decl e' = some d' →
    d.mock ≠ d'.mock ∨ (d.min = d.max ∧ ∃ s, s ∈ d.seqs ∧ s ∈ d'.seqs) ∨
      ∀ a, ¬ ((∀ p ∈ d.policies, p.accepts a = some true) ∧ ∀ p ∈ d'.policies, p.accepts a = some true)

/-- The step of the history with other kinds of sequences: sequence `s` gets the kind `f s`. -/
def step (f : Nat → Strategy) : Op α × List Event → Op α × List Event
  | (.newSequence _, [.sequenceCreated s _]) => (.newSequence (f s), [.sequenceCreated s (f s)])
  | st => st

/-- The history with other kinds of sequences. Everything else is the same, in particular who resolves which call. -/
def withKinds (f : Nat → Strategy) (tr : Trace α) : Trace α := tr.map (step f)

end Mimic.Kinds
