import Verif.Spec.Matcher

/-!
# Lemmas about the algorithms used by matchers
-/

set_option autoImplicit false

namespace Mimic

section
variable {C D : Type} [DecidableEq D] {eq : C → C → M Bool} {g : C → D}

theorem mismatch_prefix : ∀ (as bs : List C), (∀ a ∈ as, ∀ b ∈ bs, eq a b = .ok (decide (g a = g b))) →
    ∃ r, rangesMismatch eq as bs = .ok r ∧ (r.2.isEmpty = true ↔ ∃ rest, as.map g = bs.map g ++ rest) := by
  intro as
  induction as with
  | nil =>
    intro bs _
    cases bs with
    | nil => exact ⟨([], []), rfl, by simp⟩
    | cons b bs => exact ⟨([], b :: bs), rfl, by simp⟩
  | cons a as ih =>
    intro bs h
    cases bs with
    | nil => exact ⟨(a :: as, []), rfl, by simp⟩
    | cons b bs =>
      have hab := h a (by simp) b (by simp)
      by_cases he : g a = g b
      · obtain ⟨r, h1, h2⟩ := ih bs (fun x hx y hy => h x (by simp [hx]) y (by simp [hy]))
        refine ⟨r, ?_, ?_⟩
        · simp [rangesMismatch, hab, he, bind, Except.bind, h1]
        · rw [h2]; simp [he]
      · refine ⟨(a :: as, b :: bs), ?_, ?_⟩
        · simp [rangesMismatch, hab, he, bind, Except.bind, pure, Except.pure]
        · simp [he]

theorem equalFrom_spec : ∀ (as bs : List C), (∀ a ∈ as, ∀ b ∈ bs, eq a b = .ok (decide (g a = g b))) →
    as.length = bs.length → rangesEqualFrom eq as bs = .ok (decide (as.map g = bs.map g)) := by
  intro as
  induction as with
  | nil =>
    intro bs _ hl
    cases bs with
    | nil => simp [rangesEqualFrom, pure, Except.pure]
    | cons b bs => simp at hl
  | cons a as ih =>
    intro bs h hl
    cases bs with
    | nil => simp at hl
    | cons b bs =>
      have hab := h a (by simp) b (by simp)
      by_cases he : g a = g b
      · have := ih bs (fun x hx y hy => h x (by simp [hx]) y (by simp [hy])) (by simpa using hl)
        simp [rangesEqualFrom, hab, he, bind, Except.bind, this]
      · simp [rangesEqualFrom, hab, he, bind, Except.bind, pure, Except.pure]

theorem equal_spec (as bs : List C) (h : ∀ a ∈ as, ∀ b ∈ bs, eq a b = .ok (decide (g a = g b))) :
    rangesEqual eq as bs = .ok (decide (as.map g = bs.map g)) := by
  unfold rangesEqual
  split
  · rename_i hl
    have : as.map g ≠ bs.map g := fun he => hl (by simpa using congrArg List.length he)
    simp [this, pure, Except.pure]
  · rename_i hl
    exact equalFrom_spec as bs h (by simpa using hl)

theorem search_spec : ∀ (as bs : List C), (∀ a ∈ as, ∀ b ∈ bs, eq a b = .ok (decide (g a = g b))) → bs ≠ [] →
    ∃ r, rangesSearch eq as bs = .ok r ∧ (r.isEmpty = false ↔ ∃ x y, as.map g = x ++ bs.map g ++ y) := by
  intro as
  induction as with
  | nil =>
    intro bs _ hne
    refine ⟨[], rfl, ?_⟩
    simp [hne]
  | cons a as ih =>
    intro bs h hne
    have hpos : 0 < bs.length := List.length_pos_iff.mpr hne
    by_cases hl : (a :: as).length < bs.length
    · refine ⟨[], by rw [rangesSearch, if_pos hl]; rfl, ?_⟩
      simp only [List.isEmpty_nil, Bool.true_eq_false, false_iff, not_exists]
      intro x y hxy
      have := congrArg List.length hxy
      simp at this hl
      omega
    · obtain ⟨r, h1, h2⟩ := mismatch_prefix (a :: as) bs h
      obtain ⟨r', h3, h4⟩ := ih bs (fun x hx y hy => h x (by simp [hx]) y hy) hne
      by_cases hr : r.2.isEmpty = true
      · refine ⟨(a :: as).take bs.length, ?_, ?_⟩
        · rw [rangesSearch, if_neg hl, h1]
          simp [bind, Except.bind, hr, pure, Except.pure]
        · obtain ⟨rest, hrest⟩ := h2.mp hr
          constructor
          · intro _; exact ⟨[], rest, by simpa using hrest⟩
          · intro _
            cases hb : bs with
            | nil => exact absurd hb hne
            | cons b bs => simp
      · refine ⟨r', ?_, ?_⟩
        · rw [rangesSearch, if_neg hl, h1]
          simp [bind, Except.bind, hr, h3]
        · rw [h4]
          constructor
          · rintro ⟨x, y, hxy⟩
            exact ⟨g a :: x, y, by simp [hxy]⟩
          · rintro ⟨x, y, hxy⟩
            cases x with
            | nil =>
              exact absurd (h2.mpr ⟨y, by simpa using hxy⟩) hr
            | cons z x =>
              simp only [List.map_cons, List.cons_append, List.cons.injEq] at hxy
              exact ⟨x, y, hxy.2⟩

theorem strMatch_spec (k : StrKind) (t p : List C) (h : ∀ a ∈ t, ∀ b ∈ p, eq a b = .ok (decide (g a = g b))) :
    ∃ b, strMatch k eq t p = .ok b ∧ (b = true ↔ k.rel (t.map g) (p.map g)) := by
  cases k with
  | eq => exact ⟨_, equal_spec t p h, by simp [StrKind.rel]⟩
  | startsWith =>
    obtain ⟨r, h1, h2⟩ := mismatch_prefix t p h
    exact ⟨r.2.isEmpty, by simp [strMatch, strStartsWith, h1, bind, Except.bind, pure, Except.pure], h2⟩
  | endsWith =>
    obtain ⟨r, h1, h2⟩ := mismatch_prefix t.reverse p.reverse (fun a ha b hb => h a (by simpa using ha) b (by simpa using hb))
    refine ⟨r.2.isEmpty, by simp [strMatch, strEndsWith, h1, bind, Except.bind, pure, Except.pure], ?_⟩
    rw [h2]
    simp only [StrKind.rel, List.map_reverse]
    constructor
    · rintro ⟨rest, hr⟩
      refine ⟨rest.reverse, ?_⟩
      have := congrArg List.reverse hr
      simpa using this
    · rintro ⟨rest, hr⟩
      exact ⟨rest.reverse, by rw [hr]; simp⟩
  | contains =>
    by_cases hp : p = []
    · subst hp
      exact ⟨true, by simp [strMatch, strContains, pure, Except.pure],
        by simp only [StrKind.rel, true_iff]; exact ⟨t.map g, [], by simp⟩⟩
    · obtain ⟨r, h1, h2⟩ := search_spec t p h hp
      refine ⟨!r.isEmpty, ?_, ?_⟩
      · have : p.isEmpty = false := by cases p <;> simp_all
        simp [strMatch, strContains, this, h1, bind, Except.bind, pure, Except.pure]
      · simp only [Bool.not_eq_true', StrKind.rel]
        exact h2

end

/-! ## Ranges -/

theorem rangesEqual_elementwise {A B : Type} (comp : A → B → Bool) (as : List A) (bs : List B) :
    (rangesEqual (G := Id) comp as bs : Bool) = true ↔ Elementwise comp as bs := by
  have key : ∀ (as : List A) (bs : List B), as.length = bs.length →
      ((rangesEqualFrom (G := Id) comp as bs : Bool) = true ↔
        ∀ (i : Nat) (a : A) (b : B), as[i]? = some a → bs[i]? = some b → comp a b = true) := by
    intro as
    induction as with
    | nil =>
      intro bs hl
      cases bs with
      | nil => simp [rangesEqualFrom, pure]
      | cons b bs => simp at hl
    | cons a as ih =>
      intro bs hl
      cases bs with
      | nil => simp at hl
      | cons b bs =>
        have h1 : (rangesEqualFrom (G := Id) comp (a :: as) (b :: bs) : Bool) =
            (if comp a b = true then (rangesEqualFrom (G := Id) comp as bs : Bool) else false) := rfl
        rw [h1]
        constructor
        · intro h
          split at h
          · rename_i hab
            intro i x y hx hy
            cases i with
            | zero => simp at hx hy; subst hx hy; exact hab
            | succ i => exact (ih bs (by simpa using hl)).mp h i x y (by simpa using hx) (by simpa using hy)
          · simp at h
        · intro h
          rw [if_pos (h 0 a b rfl rfl)]
          exact (ih bs (by simpa using hl)).mpr (fun i x y hx hy => h (i + 1) x y (by simpa using hx) (by simpa using hy))
  unfold rangesEqual Elementwise
  split
  · rename_i hl
    constructor
    · intro h; simp [pure] at h
    · intro h; exact absurd h.1 hl
  · rename_i hl
    have hl' : as.length = bs.length := by simpa using hl
    rw [key as bs hl']
    exact ⟨fun h => ⟨hl', h⟩, fun h => h.2⟩

section
variable {A Q : Type} [DecidableEq Q] (f : A → Q)

theorem countP_map_eq (q : Q) (l : List A) : l.countP (fun y => decide (q = f y)) = (l.map f).count q := by
  induction l with
  | nil => rfl
  | cons a l ih =>
    rw [List.countP_cons, List.map_cons, List.count_cons, ih]
    by_cases h : q = f a
    · simp [h]
    · simp [h, Ne.symm h]

theorem permLoop_spec (bs : List A) : ∀ (as seen : List A),
    permLoop (fun a b => decide (f a = f b)) bs seen as = true ↔
      ∀ a ∈ as, f a ∉ seen.map f → (as.map f).count (f a) = (bs.map f).count (f a) ∧ (bs.map f).count (f a) ≠ 0 := by
  intro as
  induction as with
  | nil => intro seen; simp [permLoop]
  | cons a as ih =>
    intro seen
    have hseen : (seen.any (fun b => decide (f a = f b)) = true) ↔ f a ∈ seen.map f := by
      simp only [List.any_eq_true, decide_eq_true_eq, List.mem_map]
      exact ⟨fun ⟨x, h1, h2⟩ => ⟨x, h1, h2.symm⟩, fun ⟨x, h1, h2⟩ => ⟨x, h1, h2.symm⟩⟩
    simp only [permLoop]
    by_cases h : f a ∈ seen.map f
    · rw [if_pos (hseen.mpr h), ih]
      constructor
      · intro hh x hx hns
        simp only [List.mem_cons] at hx
        rcases hx with rfl | hx
        · exact absurd h hns
        · have hne : f a ≠ f x := fun e => hns (e ▸ h)
          have := hh x hx (by simp only [List.map_append, List.mem_append, not_or]; exact ⟨hns, by simpa using Ne.symm hne⟩)
          simpa [List.count_cons, hne] using this
      · intro hh x hx hns
        simp only [List.map_append, List.mem_append, not_or, List.map_cons, List.map_nil, List.mem_singleton] at hns
        have := hh x (by simp [hx]) hns.1
        simpa [List.count_cons, Ne.symm hns.2] using this
    · rw [if_neg (by rw [hseen]; exact h)]
      simp only [countP_map_eq]
      constructor
      · intro hh
        split at hh
        · simp at hh
        · rename_i hc
          simp only [Bool.or_eq_true, decide_eq_true_eq, not_or, Classical.not_not] at hc
          intro x hx hns
          by_cases hxa : f x = f a
          · rw [hxa]; exact ⟨by simpa using hc.2, hc.1⟩
          · have hx' : x ∈ as := by
              simp only [List.mem_cons] at hx
              rcases hx with rfl | hx
              · exact absurd rfl hxa
              · exact hx
            have := (ih _).mp hh x hx' (by simp only [List.map_append, List.mem_append, not_or]; exact ⟨hns, by simpa using hxa⟩)
            simpa [List.count_cons, Ne.symm hxa] using this
      · intro hh
        have ha := hh a (by simp) h
        have hcond : ¬ ((decide (List.count (f a) (List.map f bs) = 0) ||
            decide (List.count (f a) (List.map f (a :: as)) ≠ List.count (f a) (List.map f bs))) = true) := by
          simp only [Bool.or_eq_true, decide_eq_true_eq, not_or, Classical.not_not]
          exact ⟨ha.2, ha.1⟩
        rw [if_neg hcond, ih]
        intro x hx hns
        simp only [List.map_append, List.mem_append, not_or, List.map_cons, List.map_nil, List.mem_singleton] at hns
        have := hh x (by simp [hx]) hns.1
        simpa [List.count_cons, Ne.symm hns.2] using this

omit f in
theorem perm_of_count_le : ∀ {l l' : List Q}, (∀ q, l.count q ≤ l'.count q) → l'.length ≤ l.length → l.Perm l' := by
  intro l
  induction l with
  | nil =>
    intro l' _ hl
    cases l' with
    | nil => exact List.Perm.refl _
    | cons x l' => simp at hl
  | cons x l ih =>
    intro l' h hl
    have hx : x ∈ l' := by
      have := h x
      rw [List.count_cons_self] at this
      exact List.count_pos_iff.mp (by omega)
    have hp := List.perm_cons_erase hx
    refine List.Perm.trans (List.Perm.cons x (ih (fun q => ?_) ?_)) hp.symm
    · have h1 := h q
      rw [hp.count_eq q, List.count_cons, List.count_cons] at h1
      omega
    · rw [hp.length_eq] at hl
      simpa using hl

theorem isPermutation_spec : ∀ (as bs : List A),
    isPermutation (fun a b => decide (f a = f b)) as bs = true ↔ (as.map f).Perm (bs.map f) := by
  intro as
  induction as with
  | nil =>
    intro bs
    cases bs <;> simp [isPermutation]
  | cons a as ih =>
    intro bs
    cases bs with
    | nil => simp [isPermutation]
    | cons b bs =>
      simp only [isPermutation]
      by_cases h : f a = f b
      · simp only [h, decide_true, if_true, List.map_cons, List.perm_cons]
        exact ih bs
      · simp only [decide_eq_true_eq, if_neg h]
        split
        · rename_i hl
          simp only [Bool.false_eq_true, false_iff]
          intro hp
          exact hl (by simpa using hp.length_eq)
        · rename_i hl
          rw [permLoop_spec]
          constructor
          · intro hh
            rw [List.perm_iff_count]
            have hle : ∀ q, ((a :: as).map f).count q ≤ ((b :: bs).map f).count q := by
              intro q
              by_cases hq : q ∈ (a :: as).map f
              · obtain ⟨x, hx, rfl⟩ := List.mem_map.mp hq
                exact Nat.le_of_eq (hh x hx (by simp)).1
              · rw [List.count_eq_zero.mpr hq]; exact Nat.zero_le _
            have := perm_of_count_le hle (by simp at hl ⊢; omega)
            exact fun q => this.count_eq q
          · intro hp x hx _
            have := hp.count_eq (f x)
            refine ⟨this, ?_⟩
            rw [← this]
            intro h0
            rw [List.count_eq_zero] at h0
            exact h0 (List.mem_map_of_mem hx)

end

end Mimic
