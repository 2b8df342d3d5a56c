import Verif.Proofs.Loosen
import Verif.Proofs.Demo

/-!
# C87: sequences only forbid
-/

set_option autoImplicit false

namespace Mimic.Loosen

variable {α : Type}

theorem one_accepts {tr : Trace α} {w : World α} (h : Reach tr w) {m : Nat} {a : α}
    (hu : ∀ e e', tr.accepts m a e → tr.accepts m a e' → e = e') :
    (((abs w).candidates m).filter (·.accepts a)).length ≤ 1 := by
  have hv := h.view.2
  have hn : ((((abs w).candidates m).filter (·.accepts a)).map (·.id)).Pairwise (· > ·) := by
    rw [List.pairwise_map]
    refine List.Pairwise.filter _ ?_
    unfold Spec.State.candidates
    rw [List.pairwise_reverse]
    exact List.Pairwise.filter _ hv.sorted
  generalize hl : ((abs w).candidates m).filter (·.accepts a) = l at hn
  match l, hn with
  | [], _ => simp
  | [_], _ => simp
  | x :: y :: l, hn =>
    exfalso
    have h1 := hu x.id y.id ((hv.accepts_iff m a _).mpr ⟨x, by rw [hl]; simp, rfl⟩) ((hv.accepts_iff m a _).mpr ⟨y, by rw [hl]; simp, rfl⟩)
    simp only [List.map_cons, List.pairwise_cons, List.mem_cons] at hn
    have := hn.1 y.id (.inl rfl)
    omega

theorem loosen {tr : Trace α} {w : World α} (h : Reach tr w) (keep : Nat → Bool) (ha : Accepted tr) (hr : Resolved tr) (hu : Unambiguous tr) :
    ∃ tr' w', Reach tr' w' ∧ Rel keep (abs w) (abs w') ∧ tr'.map (·.1) = tr.map (fun st => op keep st.1) ∧
      tr'.map (fun st => rest st.2) = tr.map (fun st => rest st.2) := by
  induction h with
  | init => exact ⟨[], _, Reach.init, ⟨rfl, rfl, rfl⟩, rfl, rfl⟩
  | @step tr w w1 o ev h hs ih =>
    obtain ⟨tr', w', g1, g2, g3, g4⟩ := ih
      (fun hm => ha (by simp only [Trace.events, List.flatMap_append, List.mem_append] at hm ⊢; exact .inl hm))
      (fun m a ev' hm => hr m a ev' (List.mem_append_left _ hm))
      (fun pre m a ev' post he => hu pre m a ev' (post ++ [(o, ev)]) (by rw [he]; simp))
    obtain ⟨T', ev', k1, k2, k3, k4⟩ := g2.step (h.spec_step hs) (h.not_full hs)
      (fun hm => ha (by simp only [Trace.events, List.flatMap_append, List.mem_append]; right; simpa using hm))
      (fun m a he => by
        subst he
        exact ⟨one_accepts h (hu tr m a ev [] rfl), hr m a ev (by simp)⟩)
    obtain ⟨w1', l1, l2⟩ := g1.step_of_spec k1 k2
    refine ⟨tr' ++ [(op keep o, ev')], w1', g1.step l1, by rw [l2]; exact k4, by simp [g3], by simp [g4, k3]⟩

/-- C87: sequences only forbid. If every call of a test was resolved and none of them fitted two expectations, then the test goes the same way
if its expectations are attached to fewer sequences, or to none at all: the same expectations resolve the same calls, and the same
expectations are reported at their ends. -/
theorem C87_only_forbid {tr : Trace α} {w : World α} (h : Reach tr w) (keep : Nat → Bool) (ha : Accepted tr) (hr : Resolved tr)
    (hu : Unambiguous tr) :
    ∃ tr' w', Reach tr' w' ∧ tr'.map (·.1) = tr.map (fun st => op keep st.1) ∧
      tr'.map (fun st => rest st.2) = tr.map (fun st => rest st.2) := by
  obtain ⟨tr', w', h1, -, h2, h3⟩ := loosen h keep ha hr hu
  exact ⟨tr', w', h1, h2, h3⟩

/-- C87, for programs. -/
theorem C87_program {tr : Trace α} {w : World α} (h : Reach tr w) (keep : Nat → Bool) (ha : Accepted tr) (hr : Resolved tr) (hu : Unambiguous tr) :
    ∃ w' evs, runProgram ((tr.map (·.1)).map (op keep)) = .ok (w', evs) ∧ rest evs = rest tr.events := by
  obtain ⟨tr', w', h1, h2, h3⟩ := C87_only_forbid h keep ha hr hu
  refine ⟨w', tr'.events, (runProgram_iff _ _ _).mpr ⟨tr', h1, by rw [h2, List.map_map]; rfl, rfl⟩, ?_⟩
  have key : ∀ t : Trace α, rest t.events = (t.map (fun st => rest st.2)).flatten := by
    intro t
    induction t with
    | nil => rfl
    | cons st t ih =>
      have : Trace.events (st :: t) = st.2 ++ Trace.events t := rfl
      rw [this, rest_append, ih]; rfl
  rw [key, key, h3]

/-- C87: it is needed that no call fits two expectations: a sequence may also decide which of them takes a call, and without it the test
fails. -/
theorem C87_needed : ∃ (ops : List (Op Nat)) (w : World Nat) (evs : List Event), runProgram ops = .ok (w, evs) ∧
    Event.rejected ∉ evs ∧ (∀ es, Event.inapplicable es ∉ evs ∧ Event.noMatch es ∉ evs) ∧
    ∃ w' evs' es, runProgram (ops.map (op fun _ => false)) = .ok (w', evs') ∧ Event.inapplicable es ∈ evs' := by
  refine ⟨[.newMock, .newSequence .lazy, .expect 0 1 1 [0] [{ accepts := fun a => some (a == 1) }], .expect 0 1 1 [0] [], .call 0 1, .call 0 2],
    _, [.mockCreated 0, .sequenceCreated 0 .lazy, .created 0, .created 1, .fullMatch 0, .fullMatch 1], rfl, by decide, by simp, _,
    [.mockCreated 0, .sequenceCreated 0 .lazy, .created 0, .created 1, .fullMatch 1, .inapplicable [1]], [1], rfl, by decide⟩

/-! ## Examples -/

def wants (n : Nat) : Policy Nat := { accepts := fun a => some (a == n) }

/-- Three calls, in this order. -/
def ordered : Trace Nat :=
  [(.newMock, [.mockCreated 0]), (.newSequence .lazy, [.sequenceCreated 0 .lazy]), (.newSequence .greedy, [.sequenceCreated 1 .greedy]),
    (.expect 0 1 1 [0] [wants 1], [.created 0]), (.expect 0 1 2 [0, 1] [wants 2], [.created 1]), (.expect 0 1 1 [1] [wants 3], [.created 2]),
    (.call 0 1, [.fullMatch 0]), (.call 0 2, [.fullMatch 1]), (.destroy 0, [.destroyed 0]), (.call 0 3, [.fullMatch 2]),
    (.destroy 1, [.destroyed 1]), (.destroy 2, [.destroyed 2]), (.dropSequence 0, [.sequenceDestroyed 0]),
    (.dropSequence 1, [.sequenceDestroyed 1])]

theorem ordered_decl (e : Nat) : ordered.decl e = if e = 0 then some ⟨0, 1, 1, [0], [wants 1]⟩ else
    if e = 1 then some ⟨0, 1, 2, [0, 1], [wants 2]⟩ else if e = 2 then some ⟨0, 1, 1, [1], [wants 3]⟩ else none := by
  by_cases h0 : e = 0
  · subst h0; rfl
  · by_cases h1 : e = 1
    · subst h1; rfl
    · by_cases h2 : e = 2
      · subst h2; rfl
      · simp [ordered, Trace.decl, h0, h1, h2]

/-- The hypotheses are met. -/
example : (∃ w, Reach ordered w) ∧ Accepted ordered ∧ Resolved ordered ∧ Unambiguous ordered := by
  refine ⟨⟨_, reach_final (ordered.map Prod.fst)⟩, by unfold Accepted; decide, ?_, ?_⟩
  · intro m a ev hm
    simp only [ordered, List.mem_cons, Prod.mk.injEq, reduceCtorEq, false_and, false_or, or_false, List.not_mem_nil] at hm
    rcases hm with ⟨-, rfl⟩ | ⟨-, rfl⟩ | ⟨-, rfl⟩
    · exact ⟨0, by simp⟩
    · exact ⟨1, by simp⟩
    · exact ⟨2, by simp⟩
  · have key : ∀ pre m a ev post, ordered = pre ++ (Op.call m a, ev) :: post → ∀ e, Trace.accepts pre m a e → a = e + 1 := by
      rintro pre m a ev post hp e ⟨-, d, hd, -, hpol⟩
      have hd' := decl_mono (tr' := (Op.call m a, ev) :: post) hd
      rw [← hp, ordered_decl] at hd'
      by_cases h0 : e = 0
      · subst h0
        simp only [if_true, Option.some.injEq] at hd'
        subst hd'
        simpa [wants] using hpol
      · by_cases h1 : e = 1
        · subst h1
          simp only [Nat.one_ne_zero, if_false, if_true, Option.some.injEq] at hd'
          subst hd'
          simpa [wants] using hpol
        · by_cases h2 : e = 2
          · subst h2
            simp only [h0, h1, if_false, if_true, Option.some.injEq] at hd'
            subst hd'
            simpa [wants] using hpol
          · simp [h0, h1, h2] at hd'
    intro pre m a ev post hp e e' h1 h2
    have := key pre m a ev post hp e h1
    have := key pre m a ev post hp e' h2
    omega

/-- In another order, the calls are refused with the sequences and accepted without. -/
def reordered : List (Op Nat) :=
  [.newMock, .newSequence .lazy, .expect 0 1 1 [0] [wants 1], .expect 0 1 1 [0] [wants 2], .call 0 2, .call 0 1]

example : ((runProgram reordered).toOption.map fun r => rest r.2) =
    some [.mockCreated 0, .created 0, .created 1, .inapplicable [1], .fullMatch 0] := by decide +kernel
example : ((runProgram (reordered.map (op fun _ => false))).toOption.map fun r => rest r.2) =
    some [.mockCreated 0, .created 0, .created 1, .fullMatch 1, .fullMatch 0] := by decide +kernel

end Mimic.Loosen
