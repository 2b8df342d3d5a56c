import Verif.Spec.Select
import Verif.Spec.Overload

/-! # Proofs about overload resolution -/

set_option autoImplicit false

namespace Mimic.Select

variable {τ γ δ : Type}

theorem mem_viables {p : Sig τ → Bool} {sigs : List (Sig τ)} {x : Sig τ × Nat} :
    x ∈ viables p sigs ↔ sigs[x.2]? = some x.1 ∧ p x.1 = true := by
  obtain ⟨f, i⟩ := x
  simp [viables, List.mem_zipIdx_iff_getElem?]

theorem best_unique {p : Sig τ → Bool} {better : Sig τ → Sig τ → Bool} {sigs : List (Sig τ)} {i j : Nat}
    (ha : ∀ f g, better f g = true → better g f = false)
    (hi : Best (p · = true) (better · · = true) sigs i) (hj : Best (p · = true) (better · · = true) sigs j) : i = j := by
  obtain ⟨f, hf, pf, bf⟩ := hi
  obtain ⟨g, hg, pg, bg⟩ := hj
  by_cases h : i = j
  · exact h
  · have h1 := bf j g hg pg (fun e => h e.symm)
    have h2 : better g f = true := bg i f hf pf h
    rw [ha _ _ h1] at h2
    cases h2

theorem best_iff {p : Sig τ → Bool} {better : Sig τ → Sig τ → Bool} {sigs : List (Sig τ)} {x : Sig τ × Nat}
    (hx : x ∈ viables p sigs) :
    (viables p sigs).all (fun y => y.2 = x.2 || better x.1 y.1) = true ↔
      Best (p · = true) (better · · = true) sigs x.2 := by
  have hx' := mem_viables.mp hx
  simp only [List.all_eq_true, Bool.or_eq_true, decide_eq_true_eq]
  constructor
  · intro h
    refine ⟨x.1, hx'.1, hx'.2, fun j g hg pg hne => ?_⟩
    exact (h (g, j) (mem_viables.mpr ⟨hg, pg⟩)).resolve_left hne
  · rintro ⟨f, hf, pf, bf⟩ y hy
    have hy' := mem_viables.mp hy
    have hfx : f = x.1 := by
      have := hf.symm.trans hx'.1
      simpa using this
    subst hfx
    by_cases h : y.2 = x.2
    · exact Or.inl h
    · exact Or.inr (bf y.2 y.1 hy'.1 hy'.2 h)

theorem resolve_overload {p : Sig τ → Bool} {better : Sig τ → Sig τ → Bool} {sigs : List (Sig τ)} {i : Nat}
    (ha : ∀ f g, better f g = true → better g f = false) :
    resolve p better sigs = .overload i ↔ Best (p · = true) (better · · = true) sigs i := by
  have hb := fun x hx => best_iff (p := p) (better := better) (sigs := sigs) (x := x) hx
  have hm := fun x => mem_viables (p := p) (sigs := sigs) (x := x)
  unfold resolve
  generalize hv : viables p sigs = vs at hb hm
  cases vs with
  | nil =>
    simp only [reduceCtorEq, false_iff]
    rintro ⟨f, hf, pf, -⟩
    exact absurd ((hm (f, i)).mpr ⟨hf, pf⟩) (by simp)
  | cons v vs =>
    simp only
    generalize hl : v :: vs = l at hb hm
    split
    · rename_i x hx
      have hx1 := List.mem_of_find?_eq_some hx
      have hx3 : l.all (fun y => y.2 = x.2 || better x.1 y.1) = true :=
        List.find?_some (p := fun (x : Sig τ × Nat) => l.all (fun y => y.2 = x.2 || better x.1 y.1)) hx
      have hx2 := (hb x hx1).mp hx3
      simp only [Choice.overload.injEq]
      constructor
      · rintro rfl; exact hx2
      · intro h; exact best_unique ha hx2 h
    · rename_i hx
      simp only [reduceCtorEq, false_iff]
      intro h
      obtain ⟨f, hf, pf, bf⟩ := h
      have hmem := (hm (f, i)).mpr ⟨hf, pf⟩
      have := List.find?_eq_none.mp hx (f, i) hmem
      exact this ((hb (f, i) hmem).mpr ⟨f, hf, pf, bf⟩)

theorem resolve_none {p : Sig τ → Bool} {better : Sig τ → Sig τ → Bool} {sigs : List (Sig τ)} :
    resolve p better sigs = .none ↔ ∀ f ∈ sigs, p f = false := by
  have hm := fun x => mem_viables (p := p) (sigs := sigs) (x := x)
  unfold resolve
  generalize hv : viables p sigs = vs at hm
  cases vs with
  | nil =>
    simp only [true_iff]
    intro f hf
    obtain ⟨i, hi⟩ := List.getElem?_of_mem hf
    cases hp : p f
    · rfl
    · exact absurd ((hm (f, i)).mpr ⟨hi, hp⟩) (by simp)
  | cons v vs =>
    simp only
    have : ¬ ∀ f ∈ sigs, p f = false := by
      intro h
      have := (hm v).mp (by simp)
      rw [h v.1 (List.mem_of_getElem? this.1)] at this
      simp at this
    split <;> simp [this]

theorem closer_asymm (o : Object) (f g : Sig τ) (h : closer o f g = true) : closer o g f = false := by
  obtain ⟨oc, orv⟩ := o
  obtain ⟨_, _, _, fc, fr, _⟩ := f
  obtain ⟨_, _, _, gc, gr, _⟩ := g
  cases orv <;> cases fc <;> cases fr <;> cases gc <;> cases gr <;> simp_all [closer]

/-- Equal qualifiers suit equally well. -/
theorem closer_same {o : Object} {f g : Sig τ} (h : f.isConst = g.isConst ∧ f.ref = g.ref) : closer o f g = false := by
  obtain ⟨oc, orv⟩ := o
  obtain ⟨_, _, _, fc, fr, _⟩ := f
  obtain ⟨_, _, _, gc, gr, _⟩ := g
  obtain ⟨h1, h2⟩ := h
  simp only at h1 h2
  subst h1 h2
  cases fc <;> cases fr <;> simp [closer]

theorem zip_all {κ : Type} {q : γ × κ → Bool} {l : List γ} {r : List κ} :
    (l.zip r).all q = true ↔ ∀ (n : Nat) a t, l[n]? = some a → r[n]? = some t → q (a, t) = true := by
  rw [List.all_eq_true]
  constructor
  · intro h n a t ha ht
    exact h (a, t) (List.mem_of_getElem? (i := n) (by simp [List.getElem?_zip_eq_some, ha, ht]))
  · rintro h ⟨a, t⟩ hm
    obtain ⟨n, hn⟩ := List.getElem?_of_mem hm
    rw [List.getElem?_zip_eq_some] at hn
    exact h n a t hn.1 hn.2

theorem zip_any {κ : Type} {q : γ × κ → Bool} {l : List γ} {r : List κ} :
    (l.zip r).any q = true ↔ ∃ (n : Nat) (a : γ) (t : κ), l[n]? = some a ∧ r[n]? = some t ∧ q (a, t) = true := by
  rw [List.any_eq_true]
  constructor
  · rintro ⟨⟨a, t⟩, hm, hq⟩
    obtain ⟨n, hn⟩ := List.getElem?_of_mem hm
    rw [List.getElem?_zip_eq_some] at hn
    exact ⟨n, a, t, hn.1, hn.2, hq⟩
  · rintro ⟨n, a, t, ha, ht, hq⟩
    exact ⟨(a, t), List.mem_of_getElem? (i := n) (by simp [List.getElem?_zip_eq_some, ha, ht]), hq⟩

theorem callBetter_iff {C : Conv τ γ} {loc : τ} {o : Object} {args : List γ} {f g : Sig τ} :
    callBetter C loc o args f g = true ↔ Better C loc o args f g := by
  simp only [callBetter, Better, callParams, Bool.and_eq_true, Bool.or_eq_true, Bool.not_eq_true', zip_all, zip_any,
    List.getElem?_zip_eq_some, and_assoc]
  refine and_congr Iff.rfl (and_congr ?_ (or_congr Iff.rfl ?_))
  · constructor
    · intro h n a t u ha ht hu; exact h n a (t, u) ha ⟨ht, hu⟩
    · rintro h n a ⟨t, u⟩ ha ⟨ht, hu⟩; exact h n a t u ha ht hu
  · constructor
    · rintro ⟨n, a, ⟨t, u⟩, ha, ht, hu, hb⟩; exact ⟨n, a, t, u, ha, ht, hu, hb⟩
    · rintro ⟨n, a, t, u, ha, ht, hu, hb⟩; exact ⟨n, a, (t, u), ha, ht, hu, hb⟩

theorem better_asymm {C : Conv τ γ} {loc : τ} {o : Object} {args : List γ} {f g : Sig τ} (h : Better C loc o args f g) :
    ¬ Better C loc o args g f := by
  rintro ⟨h1, h2, -⟩
  rcases h.2.2 with h3 | ⟨n, a, t, u, ha, ht, hu, hb⟩
  · rw [h1] at h3; cases h3
  · rw [h2 n a u t ha hu ht] at hb; cases hb

theorem callBetter_asymm {C : Conv τ γ} {loc : τ} {o : Object} {args : List γ} (f g : Sig τ)
    (h : callBetter C loc o args f g = true) : callBetter C loc o args g f = false := by
  cases hb : callBetter C loc o args g f
  · rfl
  · exact (better_asymm (callBetter_iff.mp h) (callBetter_iff.mp hb)).elim

theorem callViable_iff {C : Conv τ γ} {loc : τ} {o : Object} {args : List γ} {f : Sig τ} :
    callViable C loc o args f = true ↔ Callable C loc o args f := by
  simp only [callViable, Callable, callParams, Bool.and_eq_true, Bool.or_eq_true, decide_eq_true_eq, zip_all, and_assoc]

theorem expectViable_iff {req : δ → τ → Bool} {o : Object} {args : List δ} {f : Sig τ} :
    expectViable req o args f = true ↔ Acceptable req o args f := by
  simp only [expectViable, Acceptable, Bool.and_eq_true, decide_eq_true_eq, zip_all, and_assoc]

theorem expectChoice_overload {req : δ → τ → Bool} {sigs : List (Sig τ)} {o : Object} {args : List δ} {i : Nat} :
    expectChoice req sigs o args = .overload i ↔ Best (Acceptable req o args) (closer o · · = true) sigs i := by
  unfold expectChoice
  rw [resolve_overload (closer_asymm o)]
  simp only [Best, expectViable_iff]

theorem callChoice_overload {C : Conv τ γ} {loc : τ} {sigs : List (Sig τ)} {o : Object} {args : List γ} {i : Nat} :
    callChoice C loc sigs o args = .overload i ↔ Best (Callable C loc o args) (Better C loc o args) sigs i := by
  unfold callChoice
  rw [resolve_overload callBetter_asymm]
  simp only [Best, callViable_iff, callBetter_iff]

theorem expectChoice_none {req : δ → τ → Bool} {sigs : List (Sig τ)} {o : Object} {args : List δ} :
    expectChoice req sigs o args = .none ↔ ∀ f ∈ sigs, ¬ Acceptable req o args f := by
  unfold expectChoice
  rw [resolve_none]
  simp only [← expectViable_iff, Bool.not_eq_true]

theorem callChoice_none {C : Conv τ γ} {loc : τ} {sigs : List (Sig τ)} {o : Object} {args : List γ} :
    callChoice C loc sigs o args = .none ↔ ∀ f ∈ sigs, ¬ Callable C loc o args f := by
  unfold callChoice
  rw [resolve_none]
  simp only [← callViable_iff, Bool.not_eq_true]

/-- Signatures with the same parameters that may be overloads of each other: for each object expression that both can be
called on, one of them is closer. -/
theorem closer_total {o : Object} {f g : Sig τ} (h : Overloadable f g) (hp : f.params = g.params) (hf : binds o f = true)
    (hg : binds o g = true) : closer o f g = true ∨ closer o g f = true := by
  obtain ⟨oc, orv⟩ := o
  obtain ⟨_, _, _, fc, fr, _⟩ := f
  obtain ⟨_, _, _, gc, gr, _⟩ := g
  cases oc <;> cases orv <;> cases fc <;> cases fr <;> cases gc <;> cases gr <;>
    simp_all [closer, binds, Overloadable, Sig.refQualified]

/-- The qualifiers in the list of preferences are those of functions that can be called. -/
theorem binds_iff {o : Object} {f : Sig τ} : binds o f = true ↔ (f.isConst, f.ref) ∈ preference o := by
  obtain ⟨oc, orv⟩ := o
  obtain ⟨_, _, _, fc, fr, _⟩ := f
  cases oc <;> cases orv <;> cases fc <;> cases fr <;> simp [binds, preference]

/-- The list of preferences is sorted. -/
theorem preference_closer {o : Object} {f g : Sig τ} (h : Overloadable f g) (hp : f.params = g.params)
    {before after : List (Bool × RefQual)} (he : preference o = before ++ (f.isConst, f.ref) :: after)
    (hg : binds o g = true) : closer o f g = true ↔ (g.isConst, g.ref) ∉ before := by
  have hf : (f.isConst, f.ref) ∈ preference o := by rw [he]; simp
  rw [← binds_iff] at hf
  have hidx : before = (preference o).takeWhile (· ≠ (f.isConst, f.ref)) := by
    have hnd : (f.isConst, f.ref) ∉ before := by
      have : (preference o).Nodup := by
        obtain ⟨oc, orv⟩ := o
        cases oc <;> cases orv <;> simp [preference]
      rw [he, List.nodup_append] at this
      intro hm
      exact this.2.2 _ hm _ (by simp) rfl
    rw [he, List.takeWhile_append_of_pos]
    · simp
    · intro x hx
      simp only [decide_eq_true_eq]
      rintro rfl
      exact hnd hx
  subst hidx
  obtain ⟨oc, orv⟩ := o
  obtain ⟨_, _, _, fc, fr, _⟩ := f
  obtain ⟨_, _, _, gc, gr, _⟩ := g
  clear he
  cases oc <;> cases orv <;> cases fc <;> cases fr <;> cases gc <;> cases gr <;>
    simp_all [closer, binds, Overloadable, Sig.refQualified, preference]

/-- Among overloads with the same parameters, the best one is the preferred one. -/
theorem best_preferred {o : Object} {p : Sig τ → Prop} {sigs : List (Sig τ)} {i : Nat}
    (hov : sigs.Pairwise Overloadable) (hb : ∀ f ∈ sigs, p f → binds o f = true)
    (hp : ∀ f ∈ sigs, ∀ g ∈ sigs, p f → p g → f.params = g.params) :
    Best p (closer o · · = true) sigs i ↔ Preferred o p sigs i := by
  have hsym : ∀ {f g : Sig τ}, Overloadable f g → Overloadable g f := by
    intro f g h
    rcases h with h | ⟨h1, h2⟩
    · exact Or.inl (fun e => h e.symm)
    · refine Or.inr ⟨h1.symm, h2.imp (fun h e => h e.symm) (fun h e => h e.symm)⟩
  have hpair : ∀ {i j : Nat} {f g : Sig τ}, sigs[i]? = some f → sigs[j]? = some g → j ≠ i → Overloadable f g := by
    intro i j f g hf hg hne
    obtain ⟨hi, rfl⟩ := List.getElem?_eq_some_iff.mp hf
    obtain ⟨hj, rfl⟩ := List.getElem?_eq_some_iff.mp hg
    rw [List.pairwise_iff_getElem] at hov
    rcases Nat.lt_or_gt_of_ne hne with h | h
    · exact hsym (hov j i hj hi h)
    · exact hov i j hi hj h
  constructor
  · rintro ⟨f, hf, pf, bf⟩
    have hfm := List.mem_of_getElem? hf
    obtain ⟨before, after, he⟩ := List.append_of_mem (binds_iff.mp (hb f hfm pf))
    refine ⟨f, before, after, hf, pf, he, fun g hg pg => ?_⟩
    obtain ⟨j, hj⟩ := List.getElem?_of_mem hg
    by_cases hji : j = i
    · subst hji
      rw [hf] at hj
      cases hj
      have : (preference o).Nodup := by
        obtain ⟨oc, orv⟩ := o
        cases oc <;> cases orv <;> simp [preference]
      rw [he, List.nodup_append] at this
      intro hm
      exact this.2.2 _ hm _ (by simp) rfl
    · exact (preference_closer (hpair hf hj hji) (hp f hfm g hg pf pg) he (hb g hg pg)).mp (bf j g hj pg hji)
  · rintro ⟨f, before, after, hf, pf, he, hn⟩
    have hfm := List.mem_of_getElem? hf
    refine ⟨f, hf, pf, fun j g hj pg hji => ?_⟩
    have hg := List.mem_of_getElem? hj
    exact (preference_closer (hpair hf hj hji) (hp f hfm g hg pf pg) he (hb g hg pg)).mpr (hn g hg pg)

/-- Some overload is the preferred one. -/
theorem exists_preferred {o : Object} {p : Sig τ → Prop} {sigs : List (Sig τ)} (hb : ∀ f ∈ sigs, p f → binds o f = true)
    (hex : ∃ f ∈ sigs, p f) : ∃ i, Preferred o p sigs i := by
  have key : ∀ (l before : List (Bool × RefQual)), preference o = before ++ l →
      (∀ g ∈ sigs, p g → (g.isConst, g.ref) ∉ before) → ∃ i, Preferred o p sigs i := by
    intro l
    induction l with
    | nil =>
      intro before he hn
      obtain ⟨f, hf, pf⟩ := hex
      have := binds_iff.mp (hb f hf pf)
      rw [he, List.append_nil] at this
      exact (hn f hf pf this).elim
    | cons q l ih =>
      intro before he hn
      by_cases h : ∃ f ∈ sigs, p f ∧ (f.isConst, f.ref) = q
      · obtain ⟨f, hf, pf, hq⟩ := h
        obtain ⟨i, hi⟩ := List.getElem?_of_mem hf
        exact ⟨i, f, before, l, hi, pf, by rw [he, hq], hn⟩
      · refine ih (before ++ [q]) (by simp [he]) (fun g hg pg hm => ?_)
        rcases List.mem_append.mp hm with hm | hm
        · exact hn g hg pg hm
        · exact h ⟨g, hg, pg, by simpa using hm⟩
  exact key (preference o) [] rfl (fun _ _ _ => by simp)

/-- With equal parameters only the object makes a difference for a call as well. -/
theorem better_closer {C : Conv τ γ} {loc : τ} {o : Object} {args : List γ} {f g : Sig τ} (hC : C.Strict)
    (hp : f.params = g.params) : Better C loc o args f g ↔ closer o f g = true := by
  have hirr : ∀ a t, C.better a t t = false := by
    intro a t
    cases h : C.better a t t
    · rfl
    · rw [hC a t t h] at h; cases h
  constructor
  · rintro ⟨_, _, h | ⟨n, a, t, u, ha, ht, hu, hb⟩⟩
    · exact h
    · rw [hp, hu] at ht
      cases ht
      rw [hirr] at hb
      cases hb
  · intro h
    refine ⟨closer_asymm o f g h, fun n a t u _ ht hu => ?_, Or.inl h⟩
    rw [hp, hu] at ht
    cases ht
    exact hirr _ _

end Mimic.Select
