import Verif.Spec.MockReports
import Verif.Proofs.MockLife
import Verif.Proofs.Reports

/-!
# Lemmas about reports about calls of mocks
-/

set_option autoImplicit false

namespace Mimic

variable {τ β : Type}

theorem each_imp {γ δ : Type} {R S : γ → δ → Prop} {xs : List γ} {ys : List δ} (h : Each R xs ys)
    (hi : ∀ x ∈ xs, ∀ y, R x y → S x y) : Each S xs ys := by
  induction xs generalizing ys with
  | nil => cases ys with
    | nil => trivial
    | cons y ys => exact h.elim
  | cons x xs ih => cases ys with
    | nil => exact h.elim
    | cons y ys => exact ⟨hi x (by simp) y h.1, ih h.2 (fun z hz => hi z (by simp [hz]))⟩

theorem word_category (g : Sig τ) (a : β) : lit (g.info a).category.word = g.objectsText := by
  unfold Sig.info Sig.objectsText
  cases g.ref <;> rfl

theorem word_constness (g : Sig τ) (a : β) : lit (g.info a).constness.word = g.constText := by
  unfold Sig.info Sig.constText
  cases g.isConst <;> rfl

theorem category_description {γ : Type} (g : Sig τ) (a : γ) :
    (categoryPolicy (β := β) (g.info a).category).description.map (·.toList) = some g.categoryLine := by
  rw [Sig.categoryLine, ← word_category g a]
  simp [categoryPolicy, lit]

theorem constness_description {γ : Type} (g : Sig τ) (a : γ) :
    (constnessPolicy (β := β) (g.info a).constness).description.map (·.toList) = some g.constLine := by
  rw [Sig.constLine, ← word_constness g a]
  simp [constnessPolicy, lit]

theorem category_accepts (f g : Sig τ) (a a' : β) :
    (categoryPolicy (g.info a').category).accepts (f.info a) = some (f.objects.any (· ∈ g.objects)) := by
  unfold Sig.objects Sig.info
  cases f.ref <;> cases g.ref <;> simp [categoryPolicy, ValueCategory.isMatching, ValueCategory.toUnderlying]

theorem constness_accepts (f g : Sig τ) (a a' : β) :
    (constnessPolicy (g.info a').constness).accepts (f.info a) = some (f.isConst == g.isConst) := by
  unfold Sig.info
  cases f.isConst <;> cases g.isConst <;> simp [constnessPolicy, Constness.isMatching, Constness.toUnderlying]

theorem category_lines (b : Bool) (f g : Sig τ) (a a' : β) :
    linesOf b (f.info a) [categoryPolicy (g.info a').category, constnessPolicy (g.info a').constness] = overloadLines b f g := by
  unfold linesOf overloadLines
  simp only [List.filter_cons, category_accepts, constness_accepts, List.filter_nil]
  generalize (f.objects.any fun x => decide (x ∈ g.objects)) = x
  generalize (f.isConst == g.isConst) = y
  cases x <;> cases y <;> cases b <;> simp [category_description, constness_description]

theorem linesOf_append (b : Bool) (a : CallInfo β) (ps qs : List (Policy (CallInfo β))) :
    linesOf b a (ps ++ qs) = linesOf b a ps ++ linesOf b a qs := by simp [linesOf]

theorem SameCore.stateText {α α' : Type} {tr : Trace α} {tr' : Trace α'} (h : SameCore tr tr') {e : Nat} {t : Text}
    (hs : tr.stateText e t) : tr'.stateText e t := by
  obtain ⟨d, out, h1, h2, h3, h4, h5, h6, h7⟩ := hs
  obtain ⟨d', g1, g2, g3, g4⟩ := h.get h1
  refine ⟨d', out, g1, by rw [g2]; exact h2, by rw [g2, g3]; exact h3, by rw [g4]; exact h4, h5, ?_, ?_⟩
  · intro s
    rw [h6 s, g4, h.turn]
  · rw [h7, g2, g3, g4, h.matched]

variable [DecidableEq τ]

/-- The texts about expectations, from the flat history to the one with mocks. -/
theorem MInv.matchText {f : Nat → Nat × List (Sig τ)} {mtr : MTrace τ β} {mw : MWorld τ β} {tr : Trace (CallInfo β)}
    (h : MInv f mtr mw tr) {k j idx : Nat} {g : Sig τ} {a : β} (hk : k < mtr.vars.length) (hg : (f k).2[j]? = some g)
    (hf : g.frontend = some ((g.info a).category, (g.info a).constness)) (hx : storageIndex (storagesOf (f k).2) g = some idx)
    {loc : Nat → Text} {e : Nat} {t : Text} (hd : ∃ d, tr.decl e = some d ∧ d.mock = (f k).1 + idx)
    (ht : tr.matchText loc ((f k).1 + idx) (g.info a) e t) : mtr.matchText loc k j (f k).2 g a e t := by
  obtain ⟨d, state, header, t1, t2, t3, t4⟩ := ht
  obtain ⟨d', u1, u2⟩ := hd
  rw [t1] at u1
  simp only [Option.some.injEq] at u1
  subst u1
  have hm := h.decl e
  rw [t1] at hm
  obtain ⟨k', i, g', cat, con, idx', args, extra, a1, a2, a3, a4, a5, a6, a7, a8, a9, a10⟩ := hm
  have hkk : k' = k := h.sameMock a2 hk a5 hx (by omega)
  subst hkk
  have hinfo := info_of_frontend a4 a
  obtain ⟨rfl, rfl⟩ := hinfo
  refine ⟨i, g', args, extra, state, header, a1, a3, a10, h.core.stateText t2, ?_, ?_⟩
  · have hc := h.candidate_iff hk hg hf hx a e
    have ha := h.accepts_iff hk hg hf hx a e
    have hi : (⟨a, (g.info a).category, (g.info a).constness⟩ : CallInfo β) = g.info a := rfl
    rw [hi] at hc ha
    rw [← hc, ← ha, ← h.core.applicable]
    exact t3
  · rw [t4]
    have e1 : ∀ b, linesOf b (g.info a) d.policies =
        linesOf b (g.info a) args ++ overloadLines b g g' ++ linesOf b (g.info a) extra := by
      intro b
      rw [a8, linesOf_append, linesOf_append, category_lines]
    have e2 : d.failed (g.info a) = linesOf false (g.info a) d.policies := rfl
    have e3 : d.passed (g.info a) = linesOf true (g.info a) d.policies := rfl
    rw [e2, e3, e1, e1]

theorem MInv.expectationText {f : Nat → Nat × List (Sig τ)} {mtr : MTrace τ β} {mw : MWorld τ β} {tr : Trace (CallInfo β)}
    (h : MInv f mtr mw tr) {loc : Nat → Text} {e : Nat} {t : Text} (ht : tr.expectationText loc e t) :
    mtr.expectationText loc e t := by
  obtain ⟨d, state, t1, t2, t3⟩ := ht
  have hm := h.decl e
  rw [t1] at hm
  obtain ⟨k', i, g', cat, con, idx', args, extra, a1, a2, a3, a4, a5, a6, a7, a8, a9, a10⟩ := hm
  obtain ⟨rfl, rfl⟩ := info_of_frontend a4 ()
  refine ⟨k', i, _, g', args, extra, state, a1, a9, a3, a10, h.core.stateText t2, ?_⟩
  rw [t3, a8]
  simp [List.filterMap_append, category_description, constness_description]

/-- An expectation that was created through another overload is told apart by one of the two descriptions. -/
theorem MInv.lines_ne {f : Nat → Nat × List (Sig τ)} {mtr : MTrace τ β} {mw : MWorld τ β} {tr : Trace (CallInfo β)}
    (h : MInv f mtr mw tr) {k i j idx : Nat} {g g' : Sig τ} {a : β} (hk : k < mtr.vars.length) (hg : (f k).2[j]? = some g)
    (hf : g.frontend = some ((g.info a).category, (g.info a).constness)) (hx : storageIndex (storagesOf (f k).2) g = some idx)
    {e : Nat} (hd : ∃ d, tr.decl e = some d ∧ d.mock = (f k).1 + idx) (ho : mtr.origin e = some (k, i)) (hg' : (f k).2[i]? = some g')
    (hij : i ≠ j) : overloadLines false g g' ≠ [] := by
  obtain ⟨d, t1, u2⟩ := hd
  have hm := h.decl e
  rw [t1] at hm
  obtain ⟨k', i', g'', cat, con, idx', args, extra, a1, a2, a3, a4, a5, a6, a7, a8, a9, a10⟩ := hm
  rw [ho] at a1
  simp only [Option.some.injEq, Prod.mk.injEq] at a1
  obtain ⟨rfl, rfl⟩ := a1
  rw [hg'] at a3
  simp only [Option.some.injEq] at a3
  subst a3
  obtain ⟨rfl, rfl⟩ := info_of_frontend a4 a
  intro hnil
  have h1 := category_accepts g g' a a
  have h2 := constness_accepts g g' a a
  unfold overloadLines at hnil
  simp only [List.append_eq_nil_iff, ite_eq_right_iff, List.cons_ne_nil, imp_false, Bool.not_eq_false] at hnil
  rw [hnil.1] at h1
  rw [hnil.2] at h2
  simp only [categoryPolicy, constnessPolicy, Option.some.injEq] at h1 h2
  exact hij (h.separate a2 hk hg' hg a4 hf a5 hx (by omega) h1 h2).2

end Mimic
