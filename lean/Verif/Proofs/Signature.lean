import Verif.Spec.Overload

/-!
# Signatures, helper lemmas
-/

set_option autoImplicit false

namespace Mimic

variable {τ : Type}

theorem addNoexcept_eq (f : Sig τ) : f.addNoexcept = { f with noexc := true } := by
  rcases f with ⟨r, ps, v, c, q, n⟩
  cases v <;> cases c <;> cases q <;> cases n <;> rfl

theorem removeNoexcept_eq (f : Sig τ) : f.removeNoexcept = { f with noexc := false } := by
  rcases f with ⟨r, ps, v, c, q, n⟩
  cases v <;> cases c <;> cases q <;> cases n <;> rfl

theorem decay_eq (f : Sig τ) : f.decay = { f with isConst := false, ref := .none, noexc := false } := by
  rcases f with ⟨r, ps, v, c, q, n⟩
  cases v <;> cases c <;> cases q <;> cases n <;> rfl

theorem frontend_eq (f : Sig τ) : f.frontend =
    if f.variadic then none
    else some (match f.ref with | .none => .any | .lvalue => .lvalue | .rvalue => .rvalue,
      if f.isConst then .asConst else .nonConst) := by
  rcases f with ⟨r, ps, v, c, q, n⟩
  cases v <;> cases c <;> cases q <;> cases n <;> rfl

theorem overloadableWith_eq [DecidableEq τ] (f g : Sig τ) (hf : f.variadic = false) (hg : g.variadic = false) :
    ∃ b, overloadableWith f g = some b ∧ (b = true ↔ Overloadable f g) := by
  rcases f with ⟨r, ps, v, c, q, n⟩
  rcases g with ⟨r', ps', v', c', q', n'⟩
  simp only at hf hg
  subst hf hg
  unfold overloadableWith overloadableDetail
  simp only [removeNoexcept_eq, decay_eq, Sig.paramList, Bool.false_eq_true, if_false]
  by_cases hp : ps = ps'
  · subst hp
    simp only [ne_eq, not_true_eq_false, if_false, true_and, decide_true, Bool.true_and]
    refine ⟨overloadPair ⟨r, ps, false, c, q, false⟩ ⟨r', ps, false, c', q', false⟩ ||
      overloadPair ⟨r', ps, false, c', q', false⟩ ⟨r, ps, false, c, q, false⟩, ?_, ?_⟩
    · split
      · rename_i h; simp [h]
      · rename_i h; simp [h]
    · simp only [Overloadable, Sig.refQualified]
      cases c <;> cases c' <;> cases q <;> cases q' <;> simp [overloadPair]
  · exact ⟨true, by simp [hp], by simp [Overloadable, hp]⟩

theorem overloadable_symm {f g : Sig τ} (h : Overloadable f g) : Overloadable g f := by
  rcases h with h | ⟨h1, h2⟩
  · exact Or.inl (fun e => h e.symm)
  · refine Or.inr ⟨h1.symm, ?_⟩
    rcases h2 with h2 | h2
    · exact Or.inl (fun e => h2 e.symm)
    · exact Or.inr (fun e => h2 e.symm)

theorem isOverloadSetOf_eq [DecidableEq τ] (rest : List (Sig τ)) : ∀ (f : Sig τ),
    (∀ g ∈ f :: rest, g.variadic = false) →
    ∃ b, isOverloadSetOf f rest = some b ∧ (b = true ↔ (f :: rest).Pairwise Overloadable) := by
  induction rest with
  | nil => intro f _; exact ⟨true, by simp [isOverloadSetOf], by simp⟩
  | cons g rest ih =>
    intro f hv
    obtain ⟨b1, e1, i1⟩ := overloadableWith_eq f g (hv f (by simp)) (hv g (by simp))
    obtain ⟨b2, e2, i2⟩ := ih f (fun x hx => hv x (by simp at hx ⊢; rcases hx with h | h <;> simp [h]))
    obtain ⟨b3, e3, i3⟩ := ih g (fun x hx => hv x (by simp at hx ⊢; rcases hx with h | h <;> simp [h]))
    refine ⟨b1 && b2 && b3, ?_, ?_⟩
    · rw [isOverloadSetOf, e1, e2, e3]
      cases b1 <;> cases b2 <;> simp
    · simp only [Bool.and_eq_true, i1, i2, i3, List.pairwise_cons, List.mem_cons]
      constructor
      · rintro ⟨⟨h1, h2, h3⟩, h4, _⟩
        refine ⟨?_, h4, h3⟩
        rintro x (rfl | hx)
        · exact h1
        · exact h2 x hx
      · rintro ⟨h1, h2, h3⟩
        exact ⟨⟨h1 g (Or.inl rfl), fun x hx => h1 x (Or.inr hx), h3⟩, h2, h3⟩

theorem isOverloadSet_eq [DecidableEq τ] (l : List (Sig τ)) (hne : l ≠ []) (hv : ∀ f ∈ l, f.variadic = false) :
    ∃ b, isOverloadSet l = some b ∧ (b = true ↔ l.Pairwise Overloadable) := by
  cases l with
  | nil => exact absurd rfl hne
  | cons f rest => exact isOverloadSetOf_eq rest f hv

/-! ### `unique_list_t` -/

variable {σ : Type} [DecidableEq σ]

theorem uniqueLoop_spec (l : List σ) : ∀ (pre us : List σ), us.Nodup → (∀ x, x ∈ us ↔ x ∈ pre) →
    us.Pairwise (fun a b => pre.idxOf a < pre.idxOf b) →
    (uniqueLoop us l).Nodup ∧ (∀ x, x ∈ uniqueLoop us l ↔ x ∈ pre ++ l) ∧
    (uniqueLoop us l).Pairwise (fun a b => (pre ++ l).idxOf a < (pre ++ l).idxOf b) := by
  induction l with
  | nil =>
    intro pre us h1 h2 h3
    simpa [uniqueLoop] using ⟨h1, h2, h3⟩
  | cons x rest ih =>
    intro pre us h1 h2 h3
    have happ : pre ++ x :: rest = (pre ++ [x]) ++ rest := by simp
    rw [uniqueLoop, happ]
    have hidx : ∀ a, a ∈ pre → (pre ++ [x]).idxOf a = pre.idxOf a := by
      intro a ha
      rw [List.idxOf_append]; simp [ha]
    have hmono : us.Pairwise (fun a b => (pre ++ [x]).idxOf a < (pre ++ [x]).idxOf b) := by
      refine h3.imp_of_mem ?_
      intro a b ha hb hab
      rw [hidx a ((h2 a).mp ha), hidx b ((h2 b).mp hb)]; exact hab
    by_cases hx : x ∈ us
    · rw [if_pos (by simpa using hx)]
      apply ih (pre ++ [x]) us h1
      · intro y
        rw [h2 y, List.mem_append, List.mem_singleton]
        constructor
        · exact Or.inl
        · rintro (h | rfl)
          · exact h
          · exact (h2 _).mp hx
      · exact hmono
    · rw [if_neg (by simpa using hx)]
      have hxp : x ∉ pre := fun h => hx ((h2 x).mpr h)
      apply ih (pre ++ [x]) (us ++ [x])
      · rw [List.nodup_append]
        refine ⟨h1, by simp, ?_⟩
        intro a ha b hb
        simp at hb; subst hb
        exact fun e => hx (e ▸ ha)
      · intro y; simp [h2 y]
      · rw [List.pairwise_append]
        refine ⟨hmono, by simp, ?_⟩
        intro a ha b hb
        simp at hb; subst hb
        rw [hidx a ((h2 a).mp ha), List.idxOf_append]
        simp only [hxp, if_false]
        have := List.idxOf_lt_length_of_mem ((h2 a).mp ha)
        omega

end Mimic
