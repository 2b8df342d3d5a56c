import Verif.Spec.Kinds
import Verif.Proofs.SpecRun

/-! # Tests with other kinds of sequences: lemmas -/

set_option autoImplicit false

namespace Mimic

variable {α : Type}

/-- What the reference semantics can do, the library does. -/
theorem Reach.step_of_spec {tr : Trace α} {w : World α} (h : Reach tr w) {op : Op α} {S' : Spec.State α} {ev : List Event}
    (hs : (abs w).step op = some (S', ev)) (hf : ¬ (abs w).full op) : ∃ w', w.step op = .ok (w', ev) ∧ abs w' = S' := by
  have := h.view.1.step op
  rw [hs] at this
  obtain ⟨w', h1, -, h2⟩ := this.2 hf
  exact ⟨w', h1, h2⟩

theorem Reach.not_full {tr : Trace α} {w w' : World α} (h : Reach tr w) {op : Op α} {ev : List Event}
    (hs : w.step op = .ok (w', ev)) : ¬ (abs w).full op := by
  intro hf
  have := h.view.1.step op
  rw [h.spec_step hs] at this
  obtain ⟨why, h1⟩ := this.1 hf
  rw [hs] at h1
  cases h1

namespace Kinds

/-- The sequences with other kinds. -/
def recast (f : Nat → Strategy) (S : Spec.State α) : Spec.State α :=
  { S with seqs := S.seqs.mapIdx (fun i q => { q with strategy := f i }) }

variable (f : Nat → Strategy) (S : Spec.State α)

theorem recast_handle : (recast f S).hasHandle = S.hasHandle := by
  funext s
  simp only [Spec.State.hasHandle, recast, List.getElem?_mapIdx]
  cases S.seqs[s]? <;> rfl

theorem recast_attached (s : Nat) : (recast f S).attached s = S.attached s := rfl

theorem recast_applicable : (recast f S).applicable = S.applicable := rfl

theorem recast_candidates (m : Nat) : (recast f S).candidates m = S.candidates m := rfl

theorem recast_owned (s : Nat) : (recast f S).owned s = S.owned s := by
  simp only [Spec.State.owned, recast, List.getElem?_mapIdx]
  cases S.seqs[s]? <;> rfl

theorem recast_release (ss : List Nat) : (recast f S).release ss = S.release ss := by
  unfold Spec.State.release
  simp only [recast_owned]
  rfl

/-- The result of a call, given the lists of expectations to consider. -/
def outcome (S : Spec.State α) (unhandled : List Event) (looked accepting : List (Spec.Exp α)) :
    List (Spec.Exp α) → Spec.State α × List Event × Option Nat
  | x :: older => (S.countMatch (S.select x older).id, unhandled ++ [.fullMatch (S.select x older).id], some (S.select x older).id)
  | [] =>
    if accepting.isEmpty then (S, unhandled ++ [.noMatch (looked.map (·.id))], none)
    else (S, unhandled ++ [.inapplicable (accepting.map (·.id))], none)

theorem call_outcome (m : Nat) (a : α) :
    S.call m a = outcome S (((S.candidates m).filter (·.throws a)).map (fun x => Event.unhandled x.id))
      ((S.candidates m).filter (fun x => !x.throws a)) ((S.candidates m).filter (·.accepts a))
      (((S.candidates m).filter (·.accepts a)).filter S.applicable) := by
  unfold Spec.State.call outcome
  rfl

theorem recast_outcome (u : List Event) (looked accepting l : List (Spec.Exp α)) (h : ∀ x y k, l ≠ x :: y :: k) :
    outcome (recast f S) u looked accepting l = (recast f (outcome S u looked accepting l).1, (outcome S u looked accepting l).2) := by
  match l with
  | [] =>
    by_cases he : accepting.isEmpty = true <;> simp [outcome, he]
  | [x] => rfl
  | x :: y :: k => exact absurd rfl (h x y k)

theorem recast_call (m : Nat) (a : α) (h : ∀ x y l, ((S.candidates m).filter (·.accepts a)).filter S.applicable ≠ x :: y :: l) :
    (recast f S).call m a = (recast f (S.call m a).1, (S.call m a).2) := by
  rw [call_outcome, call_outcome]
  exact recast_outcome f S _ _ _ _ h

/-- One step. -/
theorem recast_step {op : Op α} {T : Spec.State α} {ev : List Event} (hs : S.step op = some (T, ev))
    (h : ∀ m a, op = .call m a → ∀ x y l, ((S.candidates m).filter (·.accepts a)).filter S.applicable ≠ x :: y :: l) :
    (recast f S).step (step f (op, ev)).1 = some (recast f T, (step f (op, ev)).2) := by
  cases op with
  | newSequence st =>
    simp only [Spec.State.step, Option.some.injEq, Prod.mk.injEq] at hs
    obtain ⟨rfl, rfl⟩ := hs
    simp [step, Spec.State.step, recast, List.mapIdx_append]
  | newMock =>
    simp only [Spec.State.step, Option.some.injEq, Prod.mk.injEq] at hs
    obtain ⟨rfl, rfl⟩ := hs
    rfl
  | dropSequence s =>
    simp only [step]
    simp only [Spec.State.step, recast_handle] at hs ⊢
    split at hs
    · rename_i hc
      simp only [Option.some.injEq, Prod.mk.injEq] at hs
      obtain ⟨rfl, rfl⟩ := hs
      rw [if_pos hc]
      have : ({ recast f S with seqs := (recast f S).seqs.modify s (fun q => { q with handle := false }) } : Spec.State α) =
          recast f { S with seqs := S.seqs.modify s (fun q => { q with handle := false }) } := by
        simp only [recast, Spec.State.mk.injEq, and_true]
        apply List.ext_getElem?
        intro i
        simp only [List.getElem?_modify, List.getElem?_mapIdx]
        cases S.seqs[i]? with
        | none => simp
        | some q => by_cases hi : s = i <;> simp [hi]
      rw [this, recast_release]
    · cases hs
  | call m a =>
    simp only [step]
    simp only [Spec.State.step] at hs ⊢
    split at hs
    · rename_i hc
      simp only [Option.some.injEq, Prod.mk.injEq] at hs
      obtain ⟨rfl, rfl⟩ := hs
      rw [if_pos (show m < (recast f S).mocks from hc), recast_call f S m a (h m a rfl)]
    · cases hs
  | expect m min max tags ps =>
    simp only [step]
    simp only [Spec.State.step, recast_handle] at hs ⊢
    split at hs
    · rename_i hc
      rw [if_pos (show m < (recast f S).mocks ∧ _ from hc)]
      split at hs
      · rename_i hv
        rw [if_pos hv]
        simp only [Option.some.injEq, Prod.mk.injEq] at hs
        obtain ⟨rfl, rfl⟩ := hs
        rfl
      · rename_i hv
        rw [if_neg hv]
        simp only [Option.some.injEq, Prod.mk.injEq] at hs
        obtain ⟨rfl, rfl⟩ := hs
        rfl
    · cases hs
  | destroy e =>
    simp only [step]
    simp only [Spec.State.step] at hs ⊢
    have he : (recast f S).exps = S.exps := rfl
    rw [he]
    split at hs
    · cases hs
    · simp only [Option.some.injEq, Prod.mk.injEq] at hs
      obtain ⟨rfl, rfl⟩ := hs
      have : (recast f S).withdraw e = recast f (S.withdraw e) := rfl
      rw [this, recast_release]

theorem recast_full (op : Op α) (ev : List Event) (h : ¬ S.full op) : ¬ (recast f S).full (step f (op, ev)).1 := by
  cases op with
  | newSequence st =>
    unfold step
    split <;> simp_all [Spec.State.full]
  | _ => exact h

theorem unambiguous_prefix {tr : Trace α} {st : Op α × List Event} (h : Unambiguous (tr ++ [st])) : Unambiguous tr := by
  intro i m a ev hi e e' h1 h2
  have hlt : i < tr.length := (List.getElem?_eq_some_iff.mp hi).1
  refine h i m a ev (by rw [List.getElem?_append_left hlt]; exact hi) e e' ?_ ?_
  · rw [List.take_append_of_le_length (by omega)]; exact h1
  · rw [List.take_append_of_le_length (by omega)]; exact h2

theorem reach_kinds {tr : Trace α} {w : World α} (h : Reach tr w) (hu : Unambiguous tr) :
    ∃ w', Reach (withKinds f tr) w' ∧ abs w' = recast f (abs w) := by
  induction h with
  | init => exact ⟨_, .init, by rw [abs_init]; rfl⟩
  | @step tr w w1 op ev hr hs ih =>
    obtain ⟨w', h1, h2⟩ := ih (unambiguous_prefix hu)
    have hone : ∀ m a, op = .call m a → ∀ x y l, (((abs w).candidates m).filter (·.accepts a)).filter (abs w).applicable ≠ x :: y :: l := by
      rintro m a rfl x y l hl
      have hv := hr.view.2
      have hxy := hu tr.length m a ev (by simp) x.id y.id
        (by rw [List.take_left']; exact (hv.candidate_iff m a _).mpr ⟨x, by simp [hl], rfl⟩; rfl)
        (by rw [List.take_left']; exact (hv.candidate_iff m a _).mpr ⟨y, by simp [hl], rfl⟩; rfl)
      have hsort := ((hv.candidates_sorted m).filter (·.accepts a)).filter (abs w).applicable
      rw [hl] at hsort
      have := (List.pairwise_cons.mp hsort).1 y (by simp)
      omega
    have hst := recast_step f (abs w) (hr.spec_step hs) hone
    rw [← h2] at hst
    obtain ⟨w2, h3, h4⟩ := h1.step_of_spec hst (by rw [h2]; exact recast_full f _ op ev (hr.not_full hs))
    refine ⟨w2, ?_, h4⟩
    have := h1.step h3
    unfold withKinds at this ⊢
    rw [List.map_append]
    exact this

/-- Expectations that are pairwise apart do not compete. -/
theorem unambiguous_of_apart {tr : Trace α} (ha : ∀ e e', e < e' → Apart tr e e') : Unambiguous tr := by
  intro i m a ev hi e e' h1 h2
  have key : ∀ e e', e < e' → Trace.candidate (tr.take i) m a e → Trace.candidate (tr.take i) m a e' → False := by
    rintro e e' hlt ⟨⟨-, d, hd, hm, hp⟩, ⟨d2, hd2, hmax⟩, hturn⟩ ⟨⟨-, d', hd', hm', hp'⟩, ⟨d2', hd2', hmax'⟩, hturn'⟩
    have D : ∀ {x : Nat} {c : Decl α}, Trace.decl (tr.take i) x = some c → tr.decl x = some c := by
      intro x c hx
      have := decl_mono (tr' := tr.drop i) hx
      rwa [List.take_append_drop] at this
    rw [hd] at hd2
    cases hd2
    rcases ha e e' hlt d d' (D hd) (D hd') with h | ⟨hc, s, hs, hs'⟩ | h
    · exact h (by rw [hm, hm'])
    · refine (hturn' s ⟨d', hd', hs'⟩).1 e hlt ⟨d, hd, hs⟩ ⟨d, hd, ?_⟩
      rw [hc]; exact hmax
    · exact h a ⟨hp, hp'⟩
  rcases Nat.lt_trichotomy e e' with h | h | h
  · exact (key e e' h h1 h2).elim
  · exact h
  · exact (key e' e h h2 h1).elim

end Kinds
end Mimic
