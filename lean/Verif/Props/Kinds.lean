import Verif.Proofs.Kinds
import Verif.Props.Language

/-!
# C78: The kind of a sequence only matters for calls that fit several expectations
-/

set_option autoImplicit false

namespace Mimic.Kinds

open Language

variable {α : Type}

/-- Two expectations of one mock in one sequence; the first may be skipped. -/
def twoFit (st : Strategy) : List (Op Nat) :=
  [.newSequence st, .newMock, .expect 0 0 1 [0] [], .expect 0 1 1 [0] [], .call 0 7]

/-- Three expectations of two mocks in one sequence, with exact counts; the last call comes too often. -/
def ordered : List (Op Nat) :=
  [.newSequence .lazy, .newMock, .newMock, .expect 0 1 1 [0] [], .expect 1 2 2 [0] [], .expect 0 1 1 [0] [],
    .call 0 7, .call 1 8, .call 1 8, .call 0 9, .call 0 9]

/-- What happens then. -/
def orderedTrace : Trace Nat :=
  [(.newSequence .lazy, [.sequenceCreated 0 .lazy]), (.newMock, [.mockCreated 0]), (.newMock, [.mockCreated 1]),
    (.expect 0 1 1 [0] [], [.created 0]), (.expect 1 2 2 [0] [], [.created 1]), (.expect 0 1 1 [0] [], [.created 2]),
    (.call 0 7, [.fullMatch 0]), (.call 1 8, [.fullMatch 1]), (.call 1 8, [.fullMatch 1]), (.call 0 9, [.fullMatch 2]),
    (.call 0 9, [.inapplicable [2, 0]])]

/-- C78: if no call could have been resolved by two expectations, all sequences can be replaced by sequences of any kinds. The same
operations succeed, the same expectations resolve the same calls, and the same reports are made. -/
theorem C78_kinds (f : Nat → Strategy) {tr : Trace α} {w : World α} (h : Reach tr w) (hu : Unambiguous tr) :
    ∃ w', Reach (withKinds f tr) w' :=
  (reach_kinds f h hu).imp fun _ h => h.1

/-- C78: this is so whenever any two expectations are apart, for example if all expectations are in one sequence and have exact counts. -/
theorem C78_apart (f : Nat → Strategy) {tr : Trace α} {w : World α} (h : Reach tr w) (ha : ∀ e e', e < e' → Apart tr e e') :
    ∃ w', Reach (withKinds f tr) w' :=
  C78_kinds f h (unambiguous_of_apart ha)

/-- The condition is needed: here the call fits both expectations, and the kind of the sequence decides. -/
theorem C78_ambiguous :
    ∃ (tr : Trace Nat) (w : World Nat), Reach tr w ∧ tr.map (·.1) = twoFit .lazy ∧ ¬ ∃ w', Reach (withKinds (fun _ => .greedy) tr) w' := by
  refine ⟨(World.final (twoFit .lazy)).2, _, reach_final _, by rfl, ?_⟩
  rintro ⟨w', h⟩
  have h1 := reach_record h
  have h2 : (withKinds (fun _ => .greedy) (World.final (twoFit .lazy)).2).map (·.1) = twoFit .greedy := by rfl
  rw [h2] at h1
  have h3 : (World.final (twoFit .greedy)).2 = withKinds (fun _ => .greedy) (World.final (twoFit .lazy)).2 := by
    conv => lhs; unfold World.final
    rw [h1]
  have h4 := congrArg (fun t => t.map (·.2)) h3
  revert h4
  decide +kernel

/-- C78 applies to a sequence of exact counts over two mocks, with and without a failing call, of any kinds. -/
example (f : Nat → Strategy) : ∃ w', Reach (withKinds f (World.final ordered).2) w' := by
  refine C78_apart f (reach_final _) ?_
  have ht : (World.final ordered).2 = orderedTrace := by rfl
  rw [ht]
  have key : ∀ e d, orderedTrace.decl e = some d → d.min = d.max ∧ 0 ∈ d.seqs := by
    intro e d hd
    simp only [orderedTrace, Trace.decl, List.findSome?, List.mem_singleton, Event.created.injEq] at hd
    grind
  intro e e' hlt d d' hd hd'
  exact .inr (.inl ⟨(key e d hd).1, 0, (key e d hd).2, (key e' d' hd').2⟩)

end Mimic.Kinds
