import Verif.Spec.Build
import Verif.Props.Safety

/-!
# Lemmas about builders
-/

set_option autoImplicit false

namespace Mimic

variable {α φ : Type}

theorem typeChecks_iff (is : List (Item α φ)) : ∀ (t f : Bool), typeChecks t f is = true ↔
    t.toNat + (timesOf is).length ≤ 1 ∧ f.toNat + (finalizersOf is).length ≤ 1 := by
  induction is with
  | nil => intro t f; cases t <;> cases f <;> simp [typeChecks, timesOf, finalizersOf]
  | cons i is ih =>
    intro t f
    cases i with
    | policy p => simpa [typeChecks, timesOf, finalizersOf] using ih t f
    | sequences ss => simpa [typeChecks, timesOf, finalizersOf] using ih t f
    | finalizer x =>
      have h1 : timesOf (.finalizer x :: is : List (Item α φ)) = timesOf is := rfl
      have h2 : finalizersOf (.finalizer x :: is) = x :: finalizersOf is := rfl
      rw [h1, h2]
      simp only [typeChecks, Bool.and_eq_true, ih t true, List.length_cons]
      cases f <;> simp only [Bool.toNat_true, Bool.toNat_false, Bool.not_false, Bool.not_true,
        Bool.false_eq_true, true_and, false_and, false_iff] <;> omega
    | times a b =>
      have h1 : timesOf (.times a b :: is : List (Item α φ)) = (a, b) :: timesOf is := rfl
      have h2 : finalizersOf (.times a b :: is) = finalizersOf is := rfl
      rw [h1, h2]
      simp only [typeChecks, Bool.and_eq_true, ih true f, List.length_cons]
      cases t <;> simp only [Bool.toNat_true, Bool.toNat_false, Bool.not_false, Bool.not_true,
        Bool.false_eq_true, true_and, false_and, false_iff] <;> omega

/-- The limits a builder ends up with. -/
def finalTimes (t : TimesConfig) (is : List (Item α φ)) : TimesConfig :=
  match (timesOf is).head? with
  | some r => { min := r.1, max := r.2 }
  | none => t

theorem eval_eq (is : List (Item α φ)) : ∀ (b : Builder α φ),
    typeChecks b.timesConfigured b.finalizer.isSome is = true → b.seqs.Nodup →
    ((∀ t ∈ timesOf is, 0 ≤ t.1 ∧ t.1 ≤ t.2) ∧ (b.seqs ++ sequencesOf is).Nodup →
      ∃ b', b.eval is = some b' ∧ b'.coll = b.coll ∧ b'.returnsVoid = b.returnsVoid ∧
        b'.policies = b.policies ++ policiesOf is ∧ b'.seqs = b.seqs ++ sequencesOf is ∧
        b'.finalizer = b.finalizer.or (finalizersOf is).head? ∧ b'.times = finalTimes b.times is) ∧
    (¬ ((∀ t ∈ timesOf is, 0 ≤ t.1 ∧ t.1 ≤ t.2) ∧ (b.seqs ++ sequencesOf is).Nodup) →
      b.eval is = none) := by
  induction is with
  | nil =>
    intro b _ hn
    refine ⟨fun _ => ⟨b, rfl, rfl, rfl, ?_⟩, ?_⟩
    · simp [policiesOf, sequencesOf, finalizersOf, finalTimes, timesOf]
    · simp [timesOf, sequencesOf, hn]
  | cons i is ih =>
    intro b ht hn
    cases i with
    | policy p =>
      obtain ⟨h1, h2⟩ := ih { b with policies := b.policies ++ [p] } ht hn
      refine ⟨fun hh => ?_, fun hh => h2 hh⟩
      obtain ⟨b', e0, e1, e2, e3, e4, e5, e6⟩ := h1 hh
      refine ⟨b', e0, e1, e2, ?_, e4, e5, e6⟩
      rw [e3]; simp [policiesOf]
    | finalizer f =>
      simp only [typeChecks, Bool.and_eq_true, Bool.not_eq_true'] at ht
      have hf : b.finalizer = none := by
        cases hb : b.finalizer with
        | none => rfl
        | some _ => rw [hb] at ht; simp at ht
      obtain ⟨h1, h2⟩ := ih { b with finalizer := some f } ht.2 hn
      refine ⟨fun hh => ?_, fun hh => h2 hh⟩
      obtain ⟨b', e0, e1, e2, e3, e4, e5, e6⟩ := h1 hh
      refine ⟨b', e0, e1, e2, e3, e4, ?_, e6⟩
      rw [e5, hf]; simp [finalizersOf]
    | times a c =>
      simp only [typeChecks, Bool.and_eq_true, Bool.not_eq_true'] at ht
      have hnone : timesOf is = [] := by
        have := ((typeChecks_iff is _ _).mp ht.2).1
        cases hto : timesOf is with
        | nil => rfl
        | cons x l => rw [hto] at this; simp at this; omega
      have hto : timesOf (.times a c :: is : List (Item α φ)) = [(a, c)] := by
        show (a, c) :: timesOf is = _
        rw [hnone]
      have hft : ∀ t : TimesConfig, finalTimes t (.times a c :: is : List (Item α φ)) = ⟨a, c⟩ := by
        intro t; unfold finalTimes; rw [hto]; rfl
      rw [hto]
      by_cases hv : Spec.validTimes a c
      · have hand : b.and (.times a c) = some { b with timesConfigured := true, times := ⟨a, c⟩ } := by
          simp only [Builder.and, timesMake_eq, if_pos hv]
        obtain ⟨h1, h2⟩ := ih { b with timesConfigured := true, times := ⟨a, c⟩ } ht.2 hn
        simp only [Builder.eval, hand]
        constructor
        · rintro ⟨_, g2⟩
          obtain ⟨b', e0, e1, e2, e3, e4, e5, e6⟩ := h1 ⟨by simp [hnone], g2⟩
          refine ⟨b', e0, e1, e2, e3, e4, e5, ?_⟩
          rw [e6, hft]
          unfold finalTimes
          rw [hnone]; rfl
        · intro hh
          apply h2
          rintro ⟨g1, g2⟩
          exact hh ⟨by intro t ht; rw [List.mem_singleton.mp ht]; exact hv, g2⟩
      · have hand : b.and (.times a c) = none := by
          simp only [Builder.and, timesMake_eq, if_neg hv]
        simp only [Builder.eval, hand]
        refine ⟨fun hh => absurd (hh.1 (a, c) (by simp)) hv, fun _ => by simp⟩
    | sequences ss =>
      have hso : sequencesOf (.sequences ss :: is : List (Item α φ)) = ss ++ sequencesOf is := rfl
      rw [hso]
      by_cases hv : (b.seqs ++ ss).Nodup
      · have hss : ss.Nodup := (List.nodup_append.mp hv).2.1
        have hand : b.and (.sequences ss) = some { b with seqs := b.seqs ++ ss } := by
          simp only [Builder.and, seqConfigConcat, seqConfig_eq, if_pos hss, if_pos hv]
        obtain ⟨h1, h2⟩ := ih { b with seqs := b.seqs ++ ss } ht hv
        simp only [Builder.eval, hand]
        simp only [List.append_assoc] at h1 h2
        refine ⟨fun hh => ?_, fun hh => h2 hh⟩
        obtain ⟨b', e0, e1, e2, e3, e4, e5, e6⟩ := h1 hh
        exact ⟨b', e0, e1, e2, e3, e4, e5, e6⟩
      · have hand : b.and (.sequences ss) = none := by
          simp only [Builder.and, seqConfigConcat, seqConfig_eq]
          by_cases hss : ss.Nodup
          · simp only [if_pos hss, if_neg hv]
          · simp only [if_neg hss]
        simp only [Builder.eval, hand]
        refine ⟨fun hh => ?_, fun _ => by simp⟩
        rw [← List.append_assoc] at hh
        exact absurd (List.nodup_append.mp hh.2).1 hv

/-- The template parameter `timesConfigured` says whether limits were mentioned. -/
theorem eval_timesConfigured (is : List (Item α φ)) : ∀ (b b' : Builder α φ), b.eval is = some b' →
    (b'.timesConfigured = true ↔ b.timesConfigured = true ∨ 0 < (timesOf is).length) := by
  induction is with
  | nil => intro b b' h; simp only [Builder.eval, Option.some.injEq] at h; subst h; simp [timesOf]
  | cons i is ih =>
    intro b b' h
    simp only [Builder.eval] at h
    cases hi : b.and i with
    | none => simp [hi] at h
    | some b1 =>
      rw [hi] at h
      rw [ih b1 b' h]
      cases i with
      | policy p => simp only [Builder.and, Option.some.injEq] at hi; subst hi; simp [timesOf]
      | finalizer f => simp only [Builder.and, Option.some.injEq] at hi; subst hi; simp [timesOf]
      | times mn mx =>
        simp only [Builder.and] at hi
        split at hi
        · simp at hi
        · simp only [Option.some.injEq] at hi; subst hi; simp [timesOf]
      | sequences ss =>
        simp only [Builder.and] at hi
        split at hi
        · simp at hi
        · split at hi
          · simp at hi
          · simp only [Option.some.injEq] at hi; subst hi; simp [timesOf]

theorem build_timesConfigured {coll : Nat} {rv : Bool} {args : List (Policy α)} {is : List (Item α φ)}
    {x : Builder α φ} (h : (Builder.start coll rv args).build is = .ok x) :
    x.timesConfigured = true ↔ 0 < (timesOf is).length := by
  unfold Builder.build at h
  split at h
  · split at h
    · simp at h
    · next b' he =>
      simp only [Built.ok.injEq] at h
      subst h
      rw [eval_timesConfigured is _ _ he]
      simp [Builder.start]
  · simp at h

end Mimic
