import Verif.Spec.Merge
import Verif.Proofs.SpecRun
import Verif.Proofs.Language

/-! # One expectation instead of two: lemmas -/

set_option autoImplicit false

namespace Mimic.Merge

variable {α : Type}

/-- The same expectation with the number it has in the second test. -/
def down (u : Spec.Exp α) : Spec.Exp α := { u with id := u.id - 1 }

/-- What the two expectations, and the one that replaces them, have in common. -/
structure Shape (α : Type) where
  mock : Nat
  tags : List Nat
  ps : List (Policy α)

def Shape.mk' (h : Shape α) (i : Nat) (n : Int) (c : Nat) (al : Bool) : Spec.Exp α :=
  { id := i, mock := h.mock, min := n, max := n, seqs := h.tags, policies := h.ps, count := c, alive := al }

/-- The two states. -/
structure Rel (e : Nat) (a b : Int) (h : Shape α) (S S' : Spec.State α) (A B : List (Spec.Exp α)) (cx cy : Nat) (al : Bool) : Prop where
  fst : S.exps = A ++ h.mk' e a cx al :: h.mk' (e + 1) b cy al :: B
  snd : S'.exps = A ++ h.mk' e (a + b) (cx + cy) al :: B.map down
  len : A.length = e
  old : ∀ u ∈ A, u.id < e
  young : ∀ u ∈ B, e + 1 < u.id
  seqs : S'.seqs = S.seqs
  mocks : S'.mocks = S.mocks
  left : (cx : Int) ≤ a
  right : (cy : Int) ≤ b
  order : h.tags ≠ [] → cy = 0 ∨ (cx : Int) = a

variable {e : Nat} {a b : Int} {h : Shape α} {S S' : Spec.State α} {A B : List (Spec.Exp α)} {cx cy : Nat} {al : Bool}

theorem applicable_iff (S : Spec.State α) (u : Spec.Exp α) : S.applicable u = true ↔ (u.count : Int) < u.max ∧
    ∀ s ∈ u.seqs, ∀ v ∈ S.exps, s ∈ v.seqs → (v.id < u.id → v.min ≤ (v.count : Int)) ∧ (u.id < v.id → v.count = 0) := by
  unfold Spec.State.applicable Spec.State.attached
  simp only [Bool.and_eq_true, decide_eq_true_eq, List.all_eq_true, List.mem_filter, List.contains_eq_mem, Bool.or_eq_true,
    Bool.not_eq_true', decide_eq_false_iff_not, beq_iff_eq]
  grind

theorem Rel.applicable_old (r : Rel e a b h S S' A B cx cy al) {u : Spec.Exp α} (hu : u ∈ A) :
    S'.applicable u = S.applicable u := by
  rw [Bool.eq_iff_iff, applicable_iff, applicable_iff, r.fst, r.snd]
  have := r.old u hu
  have hy := r.young
  simp only [List.mem_append, List.mem_cons, List.mem_map]
  constructor
  · rintro ⟨h1, h2⟩
    refine ⟨h1, fun s hs v hv hv' => ?_⟩
    rcases hv with hv | rfl | rfl | hv
    · exact h2 s hs v (Or.inl hv) hv'
    · have := h2 s hs _ (Or.inr (Or.inl rfl)) hv'
      simp only [Shape.mk'] at this ⊢
      omega
    · have := h2 s hs _ (Or.inr (Or.inl rfl)) hv'
      simp only [Shape.mk'] at this ⊢
      omega
    · have h3 := h2 s hs (down v) (Or.inr (Or.inr ⟨v, hv, rfl⟩)) hv'
      have := hy v hv
      simp only [down] at h3
      omega
  · rintro ⟨h1, h2⟩
    refine ⟨h1, fun s hs v hv hv' => ?_⟩
    rcases hv with hv | rfl | ⟨v, hv, rfl⟩
    · exact h2 s hs v (Or.inl hv) hv'
    · have h3 := h2 s hs _ (Or.inr (Or.inl rfl)) hv'
      have h4 := h2 s hs _ (Or.inr (Or.inr (Or.inl rfl))) hv'
      simp only [Shape.mk'] at h3 h4 ⊢
      omega
    · have h3 := h2 s hs v (Or.inr (Or.inr (Or.inr hv))) hv'
      have := hy v hv
      simp only [down]
      omega

theorem Rel.applicable_young (r : Rel e a b h S S' A B cx cy al) {u : Spec.Exp α} (hu : u ∈ B) :
    S'.applicable (down u) = S.applicable u := by
  rw [Bool.eq_iff_iff, applicable_iff, applicable_iff, r.fst, r.snd]
  have hu1 := r.young u hu
  have hy := r.young
  have ho := r.old
  have hl := r.left
  have hr := r.right
  simp only [List.mem_append, List.mem_cons, List.mem_map]
  constructor
  · rintro ⟨h1, h2⟩
    refine ⟨h1, fun s hs v hv hv' => ?_⟩
    rcases hv with hv | rfl | rfl | hv
    · have h3 := h2 s hs v (Or.inl hv) hv'
      have := ho v hv
      simp only [down] at h3
      omega
    · have := h2 s hs _ (Or.inr (Or.inl rfl)) hv'
      simp only [Shape.mk', down] at this ⊢
      omega
    · have := h2 s hs _ (Or.inr (Or.inl rfl)) hv'
      simp only [Shape.mk', down] at this ⊢
      omega
    · have h3 := h2 s hs (down v) (Or.inr (Or.inr ⟨v, hv, rfl⟩)) hv'
      have := hy v hv
      simp only [down] at h3
      omega
  · rintro ⟨h1, h2⟩
    refine ⟨h1, fun s hs v hv hv' => ?_⟩
    rcases hv with hv | rfl | ⟨v, hv, rfl⟩
    · have h3 := h2 s hs v (Or.inl hv) hv'
      have := ho v hv
      simp only [down]
      omega
    · have h3 := h2 s hs _ (Or.inr (Or.inl rfl)) hv'
      have h4 := h2 s hs _ (Or.inr (Or.inr (Or.inl rfl))) hv'
      simp only [Shape.mk', down] at h3 h4 ⊢
      omega
    · have h3 := h2 s hs v (Or.inr (Or.inr (Or.inr hv))) hv'
      have := hy v hv
      simp only [down]
      omega

/-- The rest of the condition for `x`, `y` and `z`. -/
def Around (A B : List (Spec.Exp α)) (tags : List Nat) : Prop :=
  ∀ s ∈ tags, (∀ v ∈ A, s ∈ v.seqs → v.min ≤ (v.count : Int)) ∧ ∀ v ∈ B, s ∈ v.seqs → v.count = 0

theorem Rel.applicable_x (r : Rel e a b h S S' A B cx cy al) :
    S.applicable (h.mk' e a cx al) = true ↔ (cx : Int) < a ∧ Around A B h.tags ∧ (h.tags ≠ [] → cy = 0) := by
  rw [applicable_iff, r.fst]
  have hy := r.young
  have ho := r.old
  simp only [List.mem_append, List.mem_cons, Shape.mk', Around]
  constructor
  · rintro ⟨h1, h2⟩
    refine ⟨h1, fun s hs => ⟨fun v hv hv' => ?_, fun v hv hv' => ?_⟩, fun hne => ?_⟩
    · exact (h2 s hs v (Or.inl hv) hv').1 (ho v hv)
    · have := hy v hv
      exact (h2 s hs v (Or.inr (Or.inr (Or.inr hv))) hv').2 (by omega)
    · obtain ⟨s, hs⟩ := List.exists_mem_of_ne_nil _ hne
      exact (h2 s hs _ (Or.inr (Or.inr (Or.inl rfl))) hs).2 (by simp)
  · rintro ⟨h1, h2, h3⟩
    refine ⟨h1, fun s hs v hv hv' => ?_⟩
    rcases hv with hv | rfl | rfl | hv
    · have := ho v hv
      exact ⟨fun _ => (h2 s hs).1 v hv hv', fun hc => by omega⟩
    · simp
    · have := h3 (List.ne_nil_of_mem hs)
      simp only
      omega
    · have := hy v hv
      exact ⟨fun hc => by omega, fun _ => (h2 s hs).2 v hv hv'⟩

theorem Rel.applicable_y (r : Rel e a b h S S' A B cx cy al) :
    S.applicable (h.mk' (e + 1) b cy al) = true ↔ (cy : Int) < b ∧ Around A B h.tags ∧ (h.tags ≠ [] → (cx : Int) = a) := by
  rw [applicable_iff, r.fst]
  have hy := r.young
  have ho := r.old
  have hl := r.left
  simp only [List.mem_append, List.mem_cons, Shape.mk', Around]
  constructor
  · rintro ⟨h1, h2⟩
    refine ⟨h1, fun s hs => ⟨fun v hv hv' => ?_, fun v hv hv' => ?_⟩, fun hne => ?_⟩
    · have := ho v hv
      exact (h2 s hs v (Or.inl hv) hv').1 (by omega)
    · have := hy v hv
      exact (h2 s hs v (Or.inr (Or.inr (Or.inr hv))) hv').2 (by omega)
    · obtain ⟨s, hs⟩ := List.exists_mem_of_ne_nil _ hne
      have := (h2 s hs _ (Or.inr (Or.inl rfl)) hs).1 (by simp)
      simp only at this
      omega
  · rintro ⟨h1, h2, h3⟩
    refine ⟨h1, fun s hs v hv hv' => ?_⟩
    rcases hv with hv | rfl | rfl | hv
    · have := ho v hv
      exact ⟨fun _ => (h2 s hs).1 v hv hv', fun hc => by omega⟩
    · have := h3 (List.ne_nil_of_mem hs)
      simp only
      omega
    · simp
    · have := hy v hv
      exact ⟨fun hc => by omega, fun _ => (h2 s hs).2 v hv hv'⟩

theorem Rel.applicable_z (r : Rel e a b h S S' A B cx cy al) :
    S'.applicable (h.mk' e (a + b) (cx + cy) al) = true ↔ ((cx + cy : Nat) : Int) < a + b ∧ Around A B h.tags := by
  rw [applicable_iff, r.snd]
  have hy := r.young
  have ho := r.old
  simp only [List.mem_append, List.mem_cons, List.mem_map, Shape.mk', Around]
  constructor
  · rintro ⟨h1, h2⟩
    refine ⟨h1, fun s hs => ⟨fun v hv hv' => ?_, fun v hv hv' => ?_⟩⟩
    · exact (h2 s hs v (Or.inl hv) hv').1 (ho v hv)
    · have := hy v hv
      exact (h2 s hs (down v) (Or.inr (Or.inr ⟨v, hv, rfl⟩)) hv').2 (by simp only [down]; omega)
  · rintro ⟨h1, h2⟩
    refine ⟨h1, fun s hs v hv hv' => ?_⟩
    rcases hv with hv | rfl | ⟨v, hv, rfl⟩
    · have := ho v hv
      exact ⟨fun _ => (h2 s hs).1 v hv hv', fun hc => by omega⟩
    · simp
    · have := hy v hv
      exact ⟨fun hc => by simp only [down] at hc; omega, fun _ => (h2 s hs).2 v hv hv'⟩

theorem Rel.applicable_both (r : Rel e a b h S S' A B cx cy al) :
    S'.applicable (h.mk' e (a + b) (cx + cy) al) =
      (S.applicable (h.mk' e a cx al) || S.applicable (h.mk' (e + 1) b cy al)) := by
  rw [Bool.eq_iff_iff, Bool.or_eq_true, r.applicable_x, r.applicable_y, r.applicable_z]
  have hl := r.left
  have hr := r.right
  have ho := r.order
  constructor
  · rintro ⟨h1, h2⟩
    by_cases hx : (cx : Int) < a
    · refine Or.inl ⟨hx, h2, fun hne => ?_⟩
      rcases ho hne with h3 | h3
      · exact h3
      · omega
    · exact Or.inr ⟨by omega, h2, fun _ => by omega⟩
  · rintro (⟨h1, h2, _⟩ | ⟨h1, h2, _⟩)
    · exact ⟨by omega, h2⟩
    · exact ⟨by omega, h2⟩

/-! ## The choice -/

/-- Expectations with corresponding numbers and the same sequences. -/
def Alike (e : Nat) (u u' : Spec.Exp α) : Prop := u'.seqs = u.seqs ∧ u'.id = renumber e u.id

/-- Lists of such expectations; one of the second list may stand for two of the first. -/
inductive Coll (e : Nat) : List (Spec.Exp α) → List (Spec.Exp α) → Prop where
  | nil : Coll e [] []
  | one {u u' : Spec.Exp α} {l l' : List (Spec.Exp α)} : Alike e u u' → Coll e l l' → Coll e (u :: l) (u' :: l')
  | two {u v u' : Spec.Exp α} {l l' : List (Spec.Exp α)} : Alike e u u' → Alike e v u' → Coll e l l' → Coll e (u :: v :: l) (u' :: l')

theorem displaces_alike (hs : S'.seqs = S.seqs) {u u' v v' : Spec.Exp α} (h1 : Alike e u u') (h2 : Alike e v v') :
    S'.displaces v' u' = S.displaces v u := by
  unfold Spec.State.displaces Spec.State.kindCount
  rw [h1.1, h2.1, hs]

theorem select_alike (hs : S'.seqs = S.seqs) {l l' : List (Spec.Exp α)} (hl : Coll e l l') :
    ∀ {u u' : Spec.Exp α}, Alike e u u' → Alike e (S.select u l) (S'.select u' l') := by
  induction hl with
  | nil => intro u u' hu; exact hu
  | one h1 h2 ih =>
    intro u u' hu
    simp only [Spec.State.select, displaces_alike hs hu h1]
    split
    · exact ih h1
    · exact ih hu
  | @two v w v' l l' h1 h2 h3 ih =>
    intro u u' hu
    have e1 := displaces_alike hs hu h1
    have e2 := displaces_alike hs hu h2
    simp only [Spec.State.select, e1]
    split
    · split
      · exact ih h2
      · exact ih h1
    · rename_i hc
      rw [← e2, e1, if_neg hc]
      exact ih hu

theorem Coll.append {l l' r r' : List (Spec.Exp α)} (hl : Coll e l l') (hr : Coll e r r') : Coll e (l ++ r) (l' ++ r') := by
  induction hl with
  | nil => exact hr
  | one h1 h2 ih => exact .one h1 ih
  | two h1 h2 h3 ih => exact .two h1 h2 ih

theorem coll_old {l : List (Spec.Exp α)} (hl : ∀ u ∈ l, u.id < e) : Coll e l l := by
  induction l with
  | nil => exact .nil
  | cons u l ih =>
    have := hl u (by simp)
    exact .one ⟨rfl, by unfold renumber; rw [if_pos (by omega)]⟩ (ih fun v hv => hl v (by simp [hv]))

theorem coll_young {l : List (Spec.Exp α)} (hl : ∀ u ∈ l, e + 1 < u.id) : Coll e l (l.map down) := by
  induction l with
  | nil => exact .nil
  | cons u l ih =>
    have := hl u (by simp)
    exact .one ⟨rfl, by unfold renumber; rw [if_neg (by omega)]; rfl⟩ (ih fun v hv => hl v (by simp [hv]))

/-! ## Lists of candidates -/

theorem filter_down (p : Spec.Exp α → Bool) (hp : ∀ u, p (down u) = p u) (l : List (Spec.Exp α)) :
    (l.map down).filter p = (l.filter p).map down := by
  rw [List.filter_map]
  congr 1
  apply List.filter_congr
  intro u _
  simp [hp]

theorem renumber_old {k : Nat} (hk : k < e) : renumber e k = k := by unfold renumber; rw [if_pos (by omega)]

theorem renumber_young {k : Nat} (hk : e + 1 < k) : renumber e k = k - 1 := by unfold renumber; rw [if_neg (by omega)]

theorem renumber_self : renumber e e = e := by simp [renumber]

theorem renumber_next : renumber e (e + 1) = e := by simp [renumber]

theorem ids_all {C D : List (Spec.Exp α)} (hC : ∀ u ∈ C, e + 1 < u.id) (hD : ∀ u ∈ D, u.id < e) (k : Bool) (x y z : Spec.Exp α)
    (hx : x.id = e) (hy : y.id = e + 1) (hz : z.id = e) :
    renumberAll e ((C ++ (if k then [y, x] else []) ++ D).map (·.id)) =
      (C.map down ++ (if k then [z] else []) ++ D).map (·.id) := by
  have h1 : (C.map (·.id)).filter (fun k => decide (k ≠ e + 1)) = C.map (·.id) := by
    rw [List.filter_eq_self]
    intro k hk
    obtain ⟨u, hu, rfl⟩ := List.mem_map.mp hk
    have := hC u hu
    simp only [ne_eq, decide_not, Bool.not_eq_eq_eq_not, Bool.not_true, decide_eq_false_iff_not]
    omega
  have h2 : (D.map (·.id)).filter (fun k => decide (k ≠ e + 1)) = D.map (·.id) := by
    rw [List.filter_eq_self]
    intro k hk
    obtain ⟨u, hu, rfl⟩ := List.mem_map.mp hk
    have := hD u hu
    simp only [ne_eq, decide_not, Bool.not_eq_eq_eq_not, Bool.not_true, decide_eq_false_iff_not]
    omega
  have h3 : (C.map (·.id)).map (renumber e) = (C.map down).map (·.id) := by
    rw [List.map_map, List.map_map]
    apply List.map_congr_left
    intro u hu
    exact renumber_young (hC u hu)
  have h4 : (D.map (·.id)).map (renumber e) = D.map (·.id) := by
    rw [List.map_map]
    apply List.map_congr_left
    intro u hu
    exact renumber_old (hD u hu)
  unfold renumberAll
  simp only [List.map_append, List.filter_append, h1, h2, h3, h4]
  cases k <;> simp [hx, hy, hz, renumber_self]

theorem filterMap_same {β γ : Type} {f g : β → Option γ} {l : List β} (hl : ∀ u ∈ l, f u = g u) : l.filterMap f = l.filterMap g := by
  induction l with
  | nil => rfl
  | cons u l ih =>
    rw [List.filterMap_cons, List.filterMap_cons, hl u (by simp), ih fun v hv => hl v (by simp [hv])]

theorem unhandled_all {C D : List (Spec.Exp α)} (hC : ∀ u ∈ C, e + 1 < u.id) (hD : ∀ u ∈ D, u.id < e) (k : Bool) (x y z : Spec.Exp α)
    (hx : x.id = e) (hy : y.id = e + 1) (hz : z.id = e) :
    ((C ++ (if k then [y, x] else []) ++ D).map (fun u => Event.unhandled u.id)).filterMap (report e) =
      ((C.map down ++ (if k then [z] else []) ++ D).map (fun u => Event.unhandled u.id)).filterMap (merged e) := by
  have h3 : (C.map (fun u => Event.unhandled u.id)).filterMap (report e) =
      ((C.map down).map (fun u => Event.unhandled u.id)).filterMap (merged e) := by
    rw [List.map_map, List.filterMap_map, List.filterMap_map]
    apply filterMap_same
    intro u hu
    have := hC u hu
    simp only [Function.comp_apply, report, merged, down, renumber_young this]
    rw [if_neg (by omega)]
  have h4 : (D.map (fun u => Event.unhandled u.id)).filterMap (report e) =
      (D.map (fun u => Event.unhandled u.id)).filterMap (merged e) := by
    rw [List.filterMap_map, List.filterMap_map]
    apply filterMap_same
    intro u hu
    have := hD u hu
    simp only [Function.comp_apply, report, merged, renumber_old this]
    rw [if_neg (by omega)]
  simp only [List.map_append, List.filterMap_append, h3, h4]
  cases k <;> simp [hx, hy, hz, report, merged, renumber_self]

/-! ## Operations -/

theorem Rel.candidates (r : Rel e a b h S S' A B cx cy al) (m : Nat) : ∃ C D : List (Spec.Exp α), (∀ u ∈ C, u ∈ B) ∧ (∀ u ∈ D, u ∈ A) ∧
    S.candidates m = C ++ (if al && h.mock == m then [h.mk' (e + 1) b cy al, h.mk' e a cx al] else []) ++ D ∧
    S'.candidates m = C.map down ++ (if al && h.mock == m then [h.mk' e (a + b) (cx + cy) al] else []) ++ D := by
  refine ⟨(B.filter (fun x => x.alive && x.mock == m)).reverse, (A.filter (fun x => x.alive && x.mock == m)).reverse, ?_, ?_, ?_, ?_⟩
  · intro u hu
    exact (List.mem_filter.mp (List.mem_reverse.mp hu)).1
  · intro u hu
    exact (List.mem_filter.mp (List.mem_reverse.mp hu)).1
  · unfold Spec.State.candidates
    rw [r.fst]
    simp only [List.filter_append, List.filter_cons, List.reverse_append]
    by_cases hc : (al && h.mock == m) = true <;> simp [Shape.mk', hc]
  · unfold Spec.State.candidates
    rw [r.snd]
    simp only [List.filter_append, List.filter_cons, List.reverse_append]
    rw [filter_down _ (fun u => by rfl)]
    by_cases hc : (al && h.mock == m) = true <;> simp [Shape.mk', hc]

theorem filter_ps (p : List (Policy α) → Bool) (C D : List (Spec.Exp α)) (k : Bool) (i j l : Nat) (n₁ n₂ n₃ : Int) (c₁ c₂ c₃ : Nat) :
    (C ++ (if k then [h.mk' i n₁ c₁ al, h.mk' j n₂ c₂ al] else []) ++ D).filter (fun u => p u.policies) =
      C.filter (fun u => p u.policies) ++ (if k && p h.ps then [h.mk' i n₁ c₁ al, h.mk' j n₂ c₂ al] else []) ++
        D.filter (fun u => p u.policies) ∧
    (C.map down ++ (if k then [h.mk' l n₃ c₃ al] else []) ++ D).filter (fun u => p u.policies) =
      (C.filter (fun u => p u.policies)).map down ++ (if k && p h.ps then [h.mk' l n₃ c₃ al] else []) ++
        D.filter (fun u => p u.policies) := by
  simp only [List.filter_append]
  rw [filter_down _ (fun u => by rfl)]
  cases k <;> cases hp : p h.ps <;> simp [Shape.mk', hp]

/-- One expectation changes. -/
def upd (k : Nat) (g : Spec.Exp α → Spec.Exp α) (u : Spec.Exp α) : Spec.Exp α := if u.id = k then g u else u

/-- The same for a state. -/
def updAll (k : Nat) (g : Spec.Exp α → Spec.Exp α) (S : Spec.State α) : Spec.State α := { S with exps := S.exps.map (upd k g) }

def counted (u : Spec.Exp α) : Spec.Exp α := { u with count := u.count + 1 }

def ended (u : Spec.Exp α) : Spec.Exp α := { u with alive := false }

theorem countMatch_upd (S : Spec.State α) (k : Nat) : S.countMatch k = updAll k counted S := rfl

theorem withdraw_upd (S : Spec.State α) (k : Nat) : S.withdraw k = updAll k ended S := rfl

theorem upd_ne {k : Nat} {g : Spec.Exp α → Spec.Exp α} {u : Spec.Exp α} (hu : u.id ≠ k) : upd k g u = u := if_neg hu

theorem upd_eq {k : Nat} {g : Spec.Exp α → Spec.Exp α} {u : Spec.Exp α} (hu : u.id = k) : upd k g u = g u := if_pos hu

theorem map_upd_ne {k : Nat} {g : Spec.Exp α → Spec.Exp α} {l : List (Spec.Exp α)} (hl : ∀ u ∈ l, u.id ≠ k) : l.map (upd k g) = l := by
  conv => rhs; rw [← List.map_id l]
  apply List.map_congr_left
  intro u hu
  rw [upd_ne (hl u hu)]; rfl

theorem map_upd_down {k : Nat} {g : Spec.Exp α → Spec.Exp α} (hg : ∀ u, g (down u) = down (g u)) {l : List (Spec.Exp α)}
    (hl : ∀ u ∈ l, 0 < u.id) (hk : 0 < k) : (l.map down).map (upd (k - 1) g) = (l.map (upd k g)).map down := by
  rw [List.map_map, List.map_map]
  apply List.map_congr_left
  intro u hu
  have := hl u hu
  simp only [Function.comp_apply]
  by_cases hc : u.id = k
  · rw [upd_eq hc, upd_eq (by simp only [down]; omega), hg]
  · rw [upd_ne hc, upd_ne (by simp only [down]; omega)]

theorem Rel.upd_old (r : Rel e a b h S S' A B cx cy al) {k : Nat} (hk : k < e) {g : Spec.Exp α → Spec.Exp α} (hi : ∀ u, (g u).id = u.id) :
    Rel e a b h (updAll k g S) (updAll k g S') (A.map (upd k g)) B cx cy al := by
  have hB : B.map (upd k g) = B := map_upd_ne fun u hu => by have := r.young u hu; omega
  have hB' : (B.map down).map (upd k g) = B.map down := map_upd_ne fun u hu => by
    obtain ⟨v, hv, rfl⟩ := List.mem_map.mp hu
    have := r.young v hv
    simp only [down]
    omega
  refine ⟨?_, ?_, by simp [r.len], ?_, r.young, r.seqs, r.mocks, r.left, r.right, r.order⟩
  · simp only [updAll, r.fst, List.map_append, List.map_cons, hB]
    rw [upd_ne (u := h.mk' e a cx al) (by simp only [Shape.mk']; omega), upd_ne (by simp only [Shape.mk']; omega)]
  · simp only [updAll, r.snd, List.map_append, List.map_cons, hB']
    rw [upd_ne (u := h.mk' e _ _ al) (by simp only [Shape.mk']; omega)]
  · intro u hu
    obtain ⟨v, hv, rfl⟩ := List.mem_map.mp hu
    have := r.old v hv
    unfold upd
    split
    · rw [hi]; exact this
    · exact this

theorem Rel.upd_young (r : Rel e a b h S S' A B cx cy al) {k : Nat} (hk : e + 1 < k) {g : Spec.Exp α → Spec.Exp α}
    (hi : ∀ u, (g u).id = u.id) (hg : ∀ u, g (down u) = down (g u)) :
    Rel e a b h (updAll k g S) (updAll (k - 1) g S') A (B.map (upd k g)) cx cy al := by
  have hA : ∀ k, e ≤ k → A.map (upd k g) = A := fun k hk => map_upd_ne fun u hu => by have := r.old u hu; omega
  refine ⟨?_, ?_, r.len, r.old, ?_, r.seqs, r.mocks, r.left, r.right, r.order⟩
  · simp only [updAll, r.fst, List.map_append, List.map_cons, hA k (by omega)]
    rw [upd_ne (u := h.mk' e a cx al) (by simp only [Shape.mk']; omega), upd_ne (u := h.mk' (e + 1) _ _ al) (by simp only [Shape.mk']; omega)]
  · simp only [updAll, r.snd, List.map_append, List.map_cons, hA (k - 1) (by omega)]
    rw [upd_ne (u := h.mk' e _ _ al) (by simp only [Shape.mk']; omega),
      map_upd_down hg (fun u hu => by have := r.young u hu; omega) (by omega)]
  · intro u hu
    obtain ⟨v, hv, rfl⟩ := List.mem_map.mp hu
    have := r.young v hv
    unfold upd
    split
    · rw [hi]; exact this
    · exact this

/-- The two expectations and the one that replaces them. -/
theorem Rel.fst_upd (r : Rel e a b h S S' A B cx cy al) {g : Spec.Exp α → Spec.Exp α} :
    (updAll e g S).exps = A ++ g (h.mk' e a cx al) :: h.mk' (e + 1) b cy al :: B ∧
    (updAll (e + 1) g S).exps = A ++ h.mk' e a cx al :: g (h.mk' (e + 1) b cy al) :: B ∧
    (updAll e g S').exps = A ++ g (h.mk' e (a + b) (cx + cy) al) :: B.map down := by
  have hA : ∀ k, e ≤ k → A.map (upd k g) = A := fun k hk => map_upd_ne fun u hu => by have := r.old u hu; omega
  have hB : ∀ k, k ≤ e + 1 → B.map (upd k g) = B := fun k hk => map_upd_ne fun u hu => by have := r.young u hu; omega
  have hB' : (B.map down).map (upd e g) = B.map down := map_upd_ne fun u hu => by
    obtain ⟨v, hv, rfl⟩ := List.mem_map.mp hu
    have := r.young v hv
    simp only [down]
    omega
  refine ⟨?_, ?_, ?_⟩
  · simp only [updAll, r.fst, List.map_append, List.map_cons, hA e (by omega), hB e (by omega)]
    rw [upd_eq (k := e) (u := h.mk' e a cx al) rfl, upd_ne (u := h.mk' (e + 1) b cy al) (by simp only [Shape.mk']; omega)]
  · simp only [updAll, r.fst, List.map_append, List.map_cons, hA (e + 1) (by omega), hB (e + 1) (by omega)]
    rw [upd_eq (k := e + 1) (u := h.mk' (e + 1) b cy al) rfl, upd_ne (u := h.mk' e a cx al) (by simp only [Shape.mk']; omega)]
  · simp only [updAll, r.snd, List.map_append, List.map_cons, hA e (by omega), hB']
    rw [upd_eq (k := e) (u := h.mk' e _ _ al) rfl]

theorem Rel.count_x (r : Rel e a b h S S' A B cx cy al) (hx : S.applicable (h.mk' e a cx al) = true) :
    Rel e a b h (S.countMatch e) (S'.countMatch e) A B (cx + 1) cy al := by
  obtain ⟨h1, -, h3⟩ := r.applicable_x.mp hx
  obtain ⟨e1, -, e3⟩ := r.fst_upd (g := counted)
  refine ⟨e1, ?_, r.len, r.old, r.young, r.seqs, r.mocks, by omega, r.right, fun hne => Or.inl (h3 hne)⟩
  rw [countMatch_upd, e3, Nat.add_right_comm]; rfl

theorem Rel.count_y (r : Rel e a b h S S' A B cx cy al) (hy : S.applicable (h.mk' (e + 1) b cy al) = true) :
    Rel e a b h (S.countMatch (e + 1)) (S'.countMatch e) A B cx (cy + 1) al := by
  obtain ⟨h1, -, h3⟩ := r.applicable_y.mp hy
  obtain ⟨-, e2, e3⟩ := r.fst_upd (g := counted)
  exact ⟨e2, e3, r.len, r.old, r.young, r.seqs, r.mocks, r.left, by omega, fun hne => Or.inr (h3 hne)⟩

theorem Rel.call (r : Rel e a b h S S' A B cx cy al) (m : Nat) (v : α) :
    (∃ A' B' cx' cy', Rel e a b h (S.call m v).1 (S'.call m v).1 A' B' cx' cy' al) ∧
    (S.call m v).2.1.filterMap (report e) = (S'.call m v).2.1.filterMap (merged e) := by
  obtain ⟨C, D, hC, hD, h1, h2⟩ := r.candidates m
  have hCy : ∀ u ∈ C, e + 1 < u.id := fun u hu => r.young u (hC u hu)
  have hDo : ∀ u ∈ D, u.id < e := fun u hu => r.old u (hD u hu)
  generalize hk : (al && h.mock == m) = k at h1 h2
  obtain ⟨t1, t2⟩ := filter_ps (h := h) (al := al) (fun ps => ps.any (fun p => p.accepts v == none)) C D k (e + 1) e e b a (a + b) cy cx (cx + cy)
  obtain ⟨n1, n2⟩ := filter_ps (h := h) (al := al) (fun ps => !ps.any (fun p => p.accepts v == none)) C D k (e + 1) e e b a (a + b) cy cx (cx + cy)
  obtain ⟨a1, a2⟩ := filter_ps (h := h) (al := al) (fun ps => ps.all (fun p => p.accepts v == some true)) C D k (e + 1) e e b a (a + b) cy cx (cx + cy)
  rw [← h1] at t1 n1 a1
  rw [← h2] at t2 n2 a2
  have T1 : (S.candidates m).filter (·.throws v) = _ := t1
  have T2 : (S'.candidates m).filter (·.throws v) = _ := t2
  have N1 : (S.candidates m).filter (fun x => !x.throws v) = _ := n1
  have N2 : (S'.candidates m).filter (fun x => !x.throws v) = _ := n2
  have A1 : (S.candidates m).filter (·.accepts v) = _ := a1
  have A2 : (S'.candidates m).filter (·.accepts v) = _ := a2
  clear t1 t2 n1 n2 a1 a2
  -- the reports about exceptions
  have hun : (((S.candidates m).filter (·.throws v)).map (fun x => Event.unhandled x.id)).filterMap (report e) =
      (((S'.candidates m).filter (·.throws v)).map (fun x => Event.unhandled x.id)).filterMap (merged e) := by
    rw [T1, T2]
    exact unhandled_all (fun u hu => hCy u (List.mem_filter.mp hu).1) (fun u hu => hDo u (List.mem_filter.mp hu).1) _ _ _ _ rfl rfl rfl
  have hno : renumberAll e (((S.candidates m).filter (fun x => !x.throws v)).map (·.id)) =
      ((S'.candidates m).filter (fun x => !x.throws v)).map (·.id) := by
    rw [N1, N2]
    exact ids_all (fun u hu => hCy u (List.mem_filter.mp hu).1) (fun u hu => hDo u (List.mem_filter.mp hu).1) _ _ _ _ rfl rfl rfl
  have hin : renumberAll e (((S.candidates m).filter (·.accepts v)).map (·.id)) =
      ((S'.candidates m).filter (·.accepts v)).map (·.id) := by
    rw [A1, A2]
    exact ids_all (fun u hu => hCy u (List.mem_filter.mp hu).1) (fun u hu => hDo u (List.mem_filter.mp hu).1) _ _ _ _ rfl rfl rfl
  -- the applicable ones
  have hCc : ∀ u ∈ C.filter (fun u => u.policies.all fun p => p.accepts v == some true), u ∈ B := fun u hu => hC u (List.mem_filter.mp hu).1
  have hDd : ∀ u ∈ D.filter (fun u => u.policies.all fun p => p.accepts v == some true), u ∈ A := fun u hu => hD u (List.mem_filter.mp hu).1
  generalize C.filter (fun u => u.policies.all fun p => p.accepts v == some true) = C' at A1 A2 hCc
  generalize D.filter (fun u => u.policies.all fun p => p.accepts v == some true) = D' at A1 A2 hDd
  generalize (k && h.ps.all fun p => p.accepts v == some true) = k' at A1 A2
  have hempty : ((S.candidates m).filter (·.accepts v)).isEmpty = ((S'.candidates m).filter (·.accepts v)).isEmpty := by
    rw [A1, A2]
    cases C' <;> cases k' <;> simp
  have hfC : (C'.map down).filter S'.applicable = (C'.filter S.applicable).map down := by
    rw [List.filter_map]
    congr 1
    apply List.filter_congr
    intro u hu
    exact r.applicable_young (hCc u hu)
  have hfD : D'.filter S'.applicable = D'.filter S.applicable := by
    apply List.filter_congr
    intro u hu
    exact r.applicable_old (hDd u hu)
  have hcoll : Coll e (((S.candidates m).filter (·.accepts v)).filter S.applicable)
      (((S'.candidates m).filter (·.accepts v)).filter S'.applicable) := by
    rw [A1, A2]
    simp only [List.filter_append, hfC, hfD]
    refine Coll.append (Coll.append (coll_young fun u hu => r.young u (hCc u (List.mem_filter.mp hu).1)) ?_)
      (coll_old fun u hu => r.old u (hDd u (List.mem_filter.mp hu).1))
    have hx : Alike e (h.mk' e a cx al) (h.mk' e (a + b) (cx + cy) al) := ⟨rfl, renumber_self.symm⟩
    have hy : Alike e (h.mk' (e + 1) b cy al) (h.mk' e (a + b) (cx + cy) al) := ⟨rfl, renumber_next.symm⟩
    cases k' with
    | false => exact .nil
    | true =>
      simp only [if_true, List.filter_cons, List.filter_nil, r.applicable_both]
      cases S.applicable (h.mk' e a cx al) <;> cases S.applicable (h.mk' (e + 1) b cy al)
      · exact .nil
      · exact .one hy .nil
      · exact .one hx .nil
      · exact .two hy hx .nil
  have hmem : ∀ u ∈ ((S.candidates m).filter (·.accepts v)).filter S.applicable, S.applicable u = true ∧
      (u ∈ B ∨ u ∈ A ∨ u = h.mk' e a cx al ∨ u = h.mk' (e + 1) b cy al) := by
    intro u hu
    obtain ⟨hu1, hu2⟩ := List.mem_filter.mp hu
    refine ⟨hu2, ?_⟩
    rw [A1] at hu1
    rcases List.mem_append.mp hu1 with hu1 | hu1
    · rcases List.mem_append.mp hu1 with hu1 | hu1
      · exact Or.inl (hCc u hu1)
      · cases k' with
        | false => simp at hu1
        | true =>
          simp only [if_true, List.mem_cons, List.not_mem_nil, or_false] at hu1
          rcases hu1 with rfl | rfl
          · exact Or.inr (Or.inr (Or.inr rfl))
          · exact Or.inr (Or.inr (Or.inl rfl))
    · exact Or.inr (Or.inl (hDd u hu1))
  -- the outcome
  have resolved : ∀ {w w' : Spec.Exp α}, Alike e w w' → w ∈ ((S.candidates m).filter (·.accepts v)).filter S.applicable →
      (∃ A' B' cx' cy', Rel e a b h (S.countMatch w.id) (S'.countMatch w'.id) A' B' cx' cy' al) ∧
      report e (.fullMatch w.id) = merged e (.fullMatch w'.id) := by
    intro w w' hw hm
    obtain ⟨hw1, hw2⟩ := hmem w hm
    rw [hw.2]
    refine ⟨?_, rfl⟩
    rcases hw2 with hw2 | hw2 | rfl | rfl
    · have := r.young w hw2
      rw [renumber_young this]
      exact ⟨A, _, cx, cy, r.upd_young this (fun _ => rfl) (fun _ => rfl)⟩
    · have := r.old w hw2
      rw [renumber_old this]
      exact ⟨_, B, cx, cy, r.upd_old this (fun _ => rfl)⟩
    · change ∃ A' B' cx' cy', Rel e a b h (S.countMatch e) (S'.countMatch (renumber e e)) A' B' cx' cy' al
      rw [renumber_self]
      exact ⟨A, B, cx + 1, cy, r.count_x hw1⟩
    · change ∃ A' B' cx' cy', Rel e a b h (S.countMatch (e + 1)) (S'.countMatch (renumber e (e + 1))) A' B' cx' cy' al
      rw [renumber_next]
      exact ⟨A, B, cx, cy + 1, r.count_y hw1⟩
  clear T1 T2 N1 N2 A1 A2 hfC hfD
  simp only [Spec.State.call]
  generalize hF : ((S.candidates m).filter (·.accepts v)).filter S.applicable = F at hcoll resolved
  generalize hF' : ((S'.candidates m).filter (·.accepts v)).filter S'.applicable = F' at hcoll
  cases hcoll with
  | nil =>
    simp only [hempty]
    split
    · refine ⟨⟨A, B, cx, cy, r⟩, ?_⟩
      simp only [List.filterMap_append, hun]
      simp [report, merged, hno]
    · refine ⟨⟨A, B, cx, cy, r⟩, ?_⟩
      simp only [List.filterMap_append, hun]
      simp [report, merged, hin]
  | @one u u' l l' h1 h2 =>
    obtain ⟨h3, h4⟩ := resolved (select_alike r.seqs h2 h1) (select_mem' _ _ _)
    refine ⟨h3, ?_⟩
    simp only [List.filterMap_append, hun]
    simp [report, merged] at h4 ⊢
    exact h4
  | @two u w u' l l' h1 h2 h3 =>
    have hsel : Alike e (S.select u (w :: l)) (S'.select u' l') := by
      simp only [Spec.State.select]
      split
      · exact select_alike r.seqs h3 h2
      · exact select_alike r.seqs h3 h1
    obtain ⟨h3, h4⟩ := resolved hsel (select_mem' _ _ _)
    refine ⟨h3, ?_⟩
    simp only [List.filterMap_append, hun]
    simp [report, merged] at h4 ⊢
    exact h4

/-! ## Reports -/

theorem Corr.append {l l' r r' : List Event} (h1 : Corr e l l') (h2 : Corr e r r') : Corr e (l ++ r) (l' ++ r') := by
  refine ⟨by rw [List.filterMap_append, List.filterMap_append, h1.1, h2.1], ?_⟩
  simp only [List.mem_append, h1.2, h2.2]
  grind

theorem Corr.nil : Corr e [] [] := ⟨rfl, by simp⟩

/-- There is no report of an unfulfilled expectation. -/
def Quiet (l : List Event) : Prop := ∀ k, Event.unfulfilled k ∉ l

theorem Corr.quiet {l l' : List Event} (h1 : l.filterMap (report e) = l'.filterMap (merged e)) (hl : Quiet l) (hl' : Quiet l') :
    Corr e l l' := ⟨h1, by simp [hl e, hl (e + 1), hl' e]⟩

theorem call_quiet (S : Spec.State α) (m : Nat) (v : α) : Quiet (S.call m v).2.1 := by
  intro k
  simp only [Spec.State.call]
  split
  · simp
  · split <;> simp

theorem sequenceEnd_quiet (S : Spec.State α) (s : Nat) : Quiet (S.sequenceEnd s) := by
  intro k
  unfold Spec.State.sequenceEnd
  split <;> simp

theorem release_quiet (S : Spec.State α) (ss : List Nat) : Quiet (S.release ss) := by
  intro k hk
  obtain ⟨s, -, hs⟩ := List.mem_flatMap.mp hk
  split at hs
  · simp at hs
  · exact sequenceEnd_quiet S s k hs

theorem Rel.owned (r : Rel e a b h S S' A B cx cy al) (s : Nat) : S'.owned s = S.owned s := by
  unfold Spec.State.owned
  rw [r.seqs, r.fst, r.snd]
  simp only [List.any_append, List.any_cons, List.any_map]
  congr 2
  have : ((fun x : Spec.Exp α => x.alive && x.seqs.contains s) ∘ down) = fun x => x.alive && x.seqs.contains s := by
    funext u; rfl
  rw [this]
  simp only [Shape.mk']
  cases (al && h.tags.contains s) <;> simp

/-- What is reported when a sequence ends, without positions. -/
theorem sequenceEnd_report (S : Spec.State α) (s : Nat) {f : Event → Option Event}
    (h1 : ∀ k n, f (.sequenceError s k n) = some (.sequenceError s 0 0)) (h2 : f (.sequenceDestroyed s) = some (.sequenceDestroyed s)) :
    (S.sequenceEnd s).filterMap f =
      (if (S.attached s).any (·.unfulfilled) then [Event.sequenceError s 0 0] else []) ++ [.sequenceDestroyed s] := by
  unfold Spec.State.sequenceEnd
  have : (S.attached s).any (·.unfulfilled) = ((S.attached s).findIdx? (·.unfulfilled)).isSome := by
    rw [List.findIdx?_isSome]
  rw [this]
  split
  · rename_i k hk
    simp [hk, h1, h2]
  · rename_i hk
    simp [hk, h2]

theorem Rel.unfulfilled (r : Rel e a b h S S' A B cx cy al) (al' : Bool) : (h.mk' e (a + b) (cx + cy) al').unfulfilled =
    ((h.mk' e a cx al').unfulfilled || (h.mk' (e + 1) b cy al').unfulfilled) := by
  have hl := r.left
  have hr := r.right
  change decide (((cx + cy : Nat) : Int) < a + b) = (decide ((cx : Int) < a) || decide ((cy : Int) < b))
  rw [Bool.eq_iff_iff]
  simp only [Bool.or_eq_true, decide_eq_true_eq]
  omega

theorem Rel.sequenceEnd (r : Rel e a b h S S' A B cx cy al) (s : Nat) :
    (S.sequenceEnd s).filterMap (report e) = (S'.sequenceEnd s).filterMap (merged e) := by
  rw [sequenceEnd_report (f := report e) S s (fun _ _ => rfl) rfl, sequenceEnd_report (f := merged e) S' s (fun _ _ => rfl) rfl]
  have hl := r.left
  have hr := r.right
  have : (S.attached s).any (·.unfulfilled) = (S'.attached s).any (·.unfulfilled) := by
    unfold Spec.State.attached
    rw [List.any_filter, List.any_filter, r.fst, r.snd]
    simp only [List.any_append, List.any_cons, List.any_map]
    have h1 : ((fun x : Spec.Exp α => x.seqs.contains s && x.unfulfilled) ∘ down) = fun x => x.seqs.contains s && x.unfulfilled := by
      funext u; rfl
    have h2 : ∀ i n c, (h.mk' i n c al).seqs.contains s = h.tags.contains s := fun _ _ _ => rfl
    rw [h1]
    simp only [h2, r.unfulfilled]
    cases h.tags.contains s
    · simp
    · simp only [Bool.true_and, Bool.or_assoc]
  rw [this]

theorem Rel.release (r : Rel e a b h S S' A B cx cy al) (ss : List Nat) : Corr e (S.release ss) (S'.release ss) := by
  refine .quiet ?_ (release_quiet _ _) (release_quiet _ _)
  unfold Spec.State.release
  induction ss with
  | nil => rfl
  | cons s ss ih =>
    simp only [List.flatMap_cons, List.filterMap_append, ih, r.owned]
    congr 1
    split
    · rfl
    · exact r.sequenceEnd s

/-! ## Steps -/

theorem Rel.len_eq (r : Rel e a b h S S' A B cx cy al) : S.exps.length = S'.exps.length + 1 ∧ e + 1 < S.exps.length := by
  rw [r.fst, r.snd]
  have := r.len
  simp
  omega

/-- A new expectation. -/
def fresh (n m : Nat) (min max : Int) (tags : List Nat) (ps : List (Policy α)) : Spec.Exp α :=
  { id := n, mock := m, min := min, max := max, seqs := tags, policies := ps, count := 0, alive := true }

/-- The states correspond. -/
def Rels (e : Nat) (a b : Int) (h : Shape α) (S S' : Spec.State α) : Prop := ∃ A B cx cy al, Rel e a b h S S' A B cx cy al

theorem Rel.same (r : Rel e a b h S S' A B cx cy al) {op : Op α} (ho : ∀ k, op ≠ .destroy k) {T : Spec.State α} {ev : List Event}
    (hs : S.step op = some (T, ev)) : ∃ T' ev', S'.step op = some (T', ev') ∧ Rels e a b h T T' ∧ Corr e ev ev' := by
  have hh : S'.hasHandle = S.hasHandle := by funext s; simp [Spec.State.hasHandle, r.seqs]
  obtain ⟨hlen, hlen'⟩ := r.len_eq
  cases op with
  | newSequence st =>
    simp only [Spec.State.step, Option.some.injEq, Prod.mk.injEq] at hs
    obtain ⟨rfl, rfl⟩ := hs
    exact ⟨_, _, rfl, ⟨A, B, cx, cy, al, r.fst, r.snd, r.len, r.old, r.young, by simp [r.seqs], r.mocks, r.left, r.right, r.order⟩,
      by simp [r.seqs, Corr, report, merged]⟩
  | newMock =>
    simp only [Spec.State.step, Option.some.injEq, Prod.mk.injEq] at hs
    obtain ⟨rfl, rfl⟩ := hs
    exact ⟨_, _, rfl, ⟨A, B, cx, cy, al, r.fst, r.snd, r.len, r.old, r.young, r.seqs, by simp [r.mocks], r.left, r.right, r.order⟩,
      by simp [r.mocks, Corr, report, merged]⟩
  | dropSequence s =>
    simp only [Spec.State.step, hh] at hs ⊢
    split at hs
    · rename_i hc
      simp only [Option.some.injEq, Prod.mk.injEq] at hs
      obtain ⟨rfl, rfl⟩ := hs
      have hr : Rel e a b h { S with seqs := S.seqs.modify s (fun q => { q with handle := false }) }
          { S' with seqs := S'.seqs.modify s (fun q => { q with handle := false }) } A B cx cy al :=
        ⟨r.fst, r.snd, r.len, r.old, r.young, by simp [r.seqs], r.mocks, r.left, r.right, r.order⟩
      exact ⟨_, _, by rw [if_pos hc], ⟨A, B, cx, cy, al, hr⟩, hr.release [s]⟩
    · cases hs
  | call m v =>
    simp only [Spec.State.step, r.mocks] at hs ⊢
    split at hs
    · rename_i hc
      simp only [Option.some.injEq, Prod.mk.injEq] at hs
      obtain ⟨rfl, rfl⟩ := hs
      obtain ⟨⟨A', B', cx', cy', hr⟩, he⟩ := r.call m v
      exact ⟨_, _, by rw [if_pos hc], ⟨A', B', cx', cy', al, hr⟩, .quiet he (call_quiet _ _ _) (call_quiet _ _ _)⟩
    · cases hs
  | expect m min max tags ps =>
    simp only [Spec.State.step, r.mocks, hh] at hs ⊢
    split at hs
    · rename_i hc
      rw [if_pos hc]
      split at hs
      · rename_i hv
        rw [if_pos hv]
        simp only [Option.some.injEq, Prod.mk.injEq] at hs
        obtain ⟨rfl, rfl⟩ := hs
        refine ⟨_, _, rfl, ⟨A, B ++ [fresh S.exps.length m min max tags ps], cx, cy, al, ?_, ?_, r.len, r.old, ?_, r.seqs,
          rfl, r.left, r.right, r.order⟩, ?_⟩
        · simp [r.fst, fresh]
        · simp only [List.map_append, List.map_cons, List.map_nil, down, fresh, hlen, Nat.add_sub_cancel]
          conv => lhs; rw [show S'.exps = _ from r.snd]
          simp [down]
          rw [r.snd]
          simp
        · intro u hu
          rcases List.mem_append.mp hu with hu | hu
          · exact r.young u hu
          · simp only [List.mem_singleton] at hu
            subst hu
            exact hlen'
        · refine .quiet ?_ (by simp [Quiet]) (by simp [Quiet])
          simp only [List.filterMap_cons, List.filterMap_nil, report, merged]
          rw [if_neg (by omega), renumber_young hlen', hlen]
          rfl
      · rename_i hv
        rw [if_neg hv]
        simp only [Option.some.injEq, Prod.mk.injEq] at hs
        obtain ⟨rfl, rfl⟩ := hs
        exact ⟨_, _, rfl, ⟨A, B, cx, cy, al, r⟩, by simp [Corr, report, merged]⟩
    · cases hs
  | destroy k => exact absurd rfl (ho k)

/-- What is reported when an expectation ends. -/
theorem unfulfilled_report (c : Bool) (k : Nat) {f : Event → Option Event} :
    (if c = true then [Event.unfulfilled k] else []).filterMap f = if c then (f (.unfulfilled k)).toList else [] := by
  cases c
  · rfl
  · cases hf : f (.unfulfilled k) <;> simp [hf]

theorem find_none {l : List (Spec.Exp α)} {k : Nat} (hl : ∀ u ∈ l, u.id ≠ k) : l.find? (fun x => x.id == k && x.alive) = none := by
  rw [List.find?_eq_none]
  intro u hu
  simp [hl u hu]

theorem Rel.other (r : Rel e a b h S S' A B cx cy al) {k : Nat} (h1 : k ≠ e) (h2 : k ≠ e + 1) {T : Spec.State α} {ev : List Event}
    (hs : S.step (.destroy k) = some (T, ev)) :
    ∃ T' ev', S'.step (.destroy (renumber e k)) = some (T', ev') ∧ Rels e a b h T T' ∧ Corr e ev ev' := by
  simp only [Spec.State.step] at hs ⊢
  have key : ∀ {x x' : Spec.Exp α} {k' : Nat} {A' B' : List (Spec.Exp α)}, k' = renumber e k → k' ≠ e →
      S.exps.find? (fun x => x.id == k && x.alive) = some x →
      S'.exps.find? (fun x => x.id == k' && x.alive) = some x' → x'.seqs = x.seqs → x'.policies = x.policies →
      x'.unfulfilled = x.unfulfilled → Rel e a b h (S.withdraw k) (S'.withdraw k') A' B' cx cy al →
      ∃ T' ev', (match S'.exps.find? (fun x => x.id == renumber e k && x.alive) with
        | none => none
        | some x => some (S'.withdraw (renumber e k), .destroyed (renumber e k)
            :: (if x.unfulfilled || !(x.policies.all (·.isSatisfied)) then [Event.unfulfilled (renumber e k)] else [])
            ++ (S'.withdraw (renumber e k)).release x.seqs)) = some (T', ev') ∧ Rels e a b h T T' ∧ Corr e ev ev' := by
    intro x x' k' A' B' hk' hne hx hx' e1 e2 e3 hr
    subst hk'
    rw [hx] at hs
    simp only [Option.some.injEq, Prod.mk.injEq] at hs
    obtain ⟨rfl, rfl⟩ := hs
    rw [hx']
    refine ⟨_, _, rfl, ⟨A', B', cx, cy, al, hr⟩, ?_⟩
    rw [e1, e2, e3]
    refine Corr.append (l := _ :: _) (l' := _ :: _) ⟨?_, ?_⟩ (hr.release x.seqs)
    · simp only [List.filterMap_cons, report, merged, if_neg h2]
      have h3 : ¬ (k = e ∨ k = e + 1) := by omega
      simp only [unfulfilled_report, report, merged, if_neg hne, if_neg h3]
    · generalize (x.unfulfilled || !(x.policies.all (·.isSatisfied))) = c
      cases c
      · simp
      · simp
        omega
  rcases Nat.lt_or_ge k e with hk | hk
  · have hB : B.find? (fun x => x.id == k && x.alive) = none := find_none fun u hu => by have := r.young u hu; omega
    have hB' : (B.map down).find? (fun x => x.id == k && x.alive) = none := find_none fun u hu => by
      obtain ⟨v, hv, rfl⟩ := List.mem_map.mp hu
      have := r.young v hv
      simp only [down]
      omega
    have f1 : S.exps.find? (fun x => x.id == k && x.alive) = A.find? (fun x => x.id == k && x.alive) := by
      rw [r.fst, List.find?_append, List.find?_cons_of_neg (by simp [Shape.mk']; omega),
        List.find?_cons_of_neg (by simp [Shape.mk']; omega), hB, Option.or_none]
    have f2 : S'.exps.find? (fun x => x.id == k && x.alive) = A.find? (fun x => x.id == k && x.alive) := by
      rw [r.snd, List.find?_append, List.find?_cons_of_neg (by simp [Shape.mk']; omega), hB', Option.or_none]
    cases hx : A.find? (fun x => x.id == k && x.alive) with
    | none => rw [f1, hx] at hs; cases hs
    | some x =>
      exact key (renumber_old hk).symm (by omega) (f1.trans hx) (f2.trans hx) rfl rfl rfl (r.upd_old hk (g := ended) (fun _ => rfl))
  · have hk' : e + 1 < k := by omega
    have hA : ∀ k, e ≤ k → A.find? (fun x => x.id == k && x.alive) = none :=
      fun k hk => find_none fun u hu => by have := r.old u hu; omega
    have f1 : S.exps.find? (fun x => x.id == k && x.alive) = B.find? (fun x => x.id == k && x.alive) := by
      rw [r.fst, List.find?_append, hA k hk, List.find?_cons_of_neg (by simp [Shape.mk']; omega),
        List.find?_cons_of_neg (by simp [Shape.mk']; omega), Option.none_or]
    have f2 : S'.exps.find? (fun x => x.id == k - 1 && x.alive) = (B.find? (fun x => x.id == k && x.alive)).map down := by
      rw [r.snd, List.find?_append, hA (k - 1) (by omega), List.find?_cons_of_neg (by simp [Shape.mk']; omega), Option.none_or,
        List.find?_map]
      congr 1
      have : ∀ l : List (Spec.Exp α), (∀ u ∈ l, e + 1 < u.id) → l.find? ((fun x => x.id == k - 1 && x.alive) ∘ down) =
          l.find? (fun x => x.id == k && x.alive) := by
        intro l hl
        induction l with
        | nil => rfl
        | cons u l ih =>
          have hu := hl u (by simp)
          have : ((fun x : Spec.Exp α => x.id == k - 1 && x.alive) ∘ down) u = (u.id == k && u.alive) := by
            simp only [Function.comp_apply, down]
            congr 1
            rw [Bool.eq_iff_iff]
            simp only [beq_iff_eq]
            omega
          simp only [List.find?_cons, this, ih fun v hv => hl v (by simp [hv])]
      exact this B r.young
    cases hx : B.find? (fun x => x.id == k && x.alive) with
    | none => rw [f1, hx] at hs; cases hs
    | some x =>
      rw [hx] at f1 f2
      exact key (renumber_young hk').symm (by omega) f1 f2 rfl rfl rfl (r.upd_young hk' (g := ended) (fun _ => rfl) (fun _ => rfl))

theorem Rel.full (r : Rel e a b h S S' A B cx cy al) {op : Op α} (hf : ¬ S.full op) : ¬ S'.full op := by
  cases op with
  | expect m min max tags ps =>
    have hh : S'.hasHandle = S.hasHandle := by funext s; simp [Spec.State.hasHandle, r.seqs]
    have hlen : ∀ s, (S'.attached s).length ≤ (S.attached s).length := by
      intro s
      unfold Spec.State.attached
      rw [r.fst, r.snd]
      simp only [List.filter_append, List.filter_cons, List.length_append]
      rw [filter_down _ (fun u => by rfl)]
      have h2 : ∀ i n c, (h.mk' i n c al).seqs.contains s = h.tags.contains s := fun _ _ _ => rfl
      simp only [h2]
      split <;> simp
    unfold Spec.State.full at *
    grind
  | _ => simp [Spec.State.full]

theorem map_two (hA : ∀ u ∈ A, u.id < e) (hB : ∀ u ∈ B, e + 1 < u.id) {x y : Spec.Exp α} (hx : x.id = e) (hy : y.id = e + 1)
    (g : Spec.Exp α → Spec.Exp α) :
    (A ++ x :: y :: B).map (upd e g) = A ++ g x :: y :: B ∧ (A ++ x :: y :: B).map (upd (e + 1) g) = A ++ x :: g y :: B := by
  have hA' : ∀ k, e ≤ k → A.map (upd k g) = A := fun k hk => map_upd_ne fun u hu => by have := hA u hu; omega
  have hB' : ∀ k, k ≤ e + 1 → B.map (upd k g) = B := fun k hk => map_upd_ne fun u hu => by have := hB u hu; omega
  simp only [List.map_append, List.map_cons, hA' e (by omega), hA' (e + 1) (by omega), hB' e (by omega), hB' (e + 1) (by omega)]
  rw [upd_eq hx, upd_ne (u := y) (by omega), upd_ne (u := x) (by omega), upd_eq hy]
  exact ⟨rfl, rfl⟩

theorem find_two (hA : ∀ u ∈ A, u.id < e) (hB : ∀ u ∈ B, e + 1 < u.id) {x y : Spec.Exp α} (hx : x.id = e) (hy : y.id = e + 1) :
    (A ++ x :: y :: B).find? (fun x => x.id == e && x.alive) = (if x.alive then some x else none) ∧
    (A ++ x :: y :: B).find? (fun x => x.id == e + 1 && x.alive) = (if y.alive then some y else none) := by
  have hA' : ∀ k, e ≤ k → A.find? (fun x => x.id == k && x.alive) = none :=
    fun k hk => find_none fun u hu => by have := hA u hu; omega
  have hB' : ∀ k, k ≤ e + 1 → B.find? (fun x => x.id == k && x.alive) = none :=
    fun k hk => find_none fun u hu => by have := hB u hu; omega
  simp only [List.find?_append, hA' e (by omega), hA' (e + 1) (by omega), List.find?_cons, hB' e (by omega), hB' (e + 1) (by omega), hx, hy]
  have h1 : (e + 1 == e) = false := by simp
  have h2 : (e == e + 1) = false := by simp
  cases x.alive <;> cases y.alive <;> simp [h1, h2]

/-- Both expectations end. -/
theorem Rel.both (r : Rel e a b h S S' A B cx cy al) {k k' : Nat} (hk : (k = e ∧ k' = e + 1) ∨ (k = e + 1 ∧ k' = e))
    {T T₂ : Spec.State α} {ev ev₂ : List Event} (hs : S.step (.destroy k) = some (T, ev)) (hs₂ : T.step (.destroy k') = some (T₂, ev₂)) :
    ∃ T' ev', S'.step (.destroy e) = some (T', ev') ∧ Rels e a b h T₂ T' ∧ Corr e (ev ++ ev₂) ev' := by
  have hx : ∀ n c al, (h.mk' e n c al).id = e := fun _ _ _ => rfl
  have hy : ∀ n c al, (h.mk' (e + 1) n c al).id = e + 1 := fun _ _ _ => rfl
  have f1 := find_two r.old r.young (hx a cx al) (hy b cy al)
  rw [← r.fst] at f1
  have f3 : S'.exps.find? (fun x => x.id == e && x.alive) = if al then some (h.mk' e (a + b) (cx + cy) al) else none := by
    have hA' : A.find? (fun x => x.id == e && x.alive) = none := find_none fun u hu => by have := r.old u hu; omega
    have hB' : (B.map down).find? (fun x => x.id == e && x.alive) = none := find_none fun u hu => by
      obtain ⟨v, hv, rfl⟩ := List.mem_map.mp hu
      have := r.young v hv
      simp only [down]
      omega
    rw [r.snd, List.find?_append, hA', Option.none_or, List.find?_cons, hB']
    cases al <;> simp [Shape.mk']
  -- both exist
  have hal : al = true := by
    cases al with
    | true => rfl
    | false =>
      exfalso
      simp only [Spec.State.step] at hs
      rcases hk with ⟨rfl, rfl⟩ | ⟨rfl, rfl⟩
      · rw [f1.1] at hs; simp [Shape.mk'] at hs
      · rw [f1.2] at hs; simp [Shape.mk'] at hs
  subst hal
  -- after the first
  have hrel : ∀ {T : Spec.State α} {x y : Spec.Exp α}, T.exps = A ++ x :: y :: B → x.seqs = h.tags → y.seqs = h.tags →
      (x.alive || y.alive) = true → T.release h.tags = [] := by
    intro T x y hT h1 h2 h3
    unfold Spec.State.release
    rw [List.flatMap_eq_nil_iff]
    intro s hs
    rw [if_pos]
    unfold Spec.State.owned
    rw [hT]
    simp only [Bool.or_eq_true, List.any_append, List.any_cons, h1, h2, List.contains_eq_mem, hs, decide_true, Bool.and_true]
    rcases Bool.or_eq_true _ _ ▸ h3 with h3 | h3 <;> simp [h3]
  have hend : ∀ {T₂ : Spec.State α}, T₂.exps = A ++ h.mk' e a cx false :: h.mk' (e + 1) b cy false :: B → T₂.seqs = S.seqs →
      T₂.mocks = S.mocks → Rel e a b h T₂ (S'.withdraw e) A B cx cy false := by
    intro T₂ h1 h2 h3
    refine ⟨h1, ?_, r.len, r.old, r.young, ?_, ?_, r.left, r.right, r.order⟩
    · have := r.fst_upd (g := ended)
      rw [withdraw_upd, this.2.2]; rfl
    · rw [h2]; exact r.seqs
    · rw [h3]; exact r.mocks
  have hl := r.left
  have hr := r.right
  have hz := r.unfulfilled true
  simp only [Spec.State.step] at hs hs₂ ⊢
  rw [f3]
  simp only [if_true]
  refine ⟨_, _, rfl, ?_⟩
  have fin : ∀ {T₂ : Spec.State α} (c d : Bool) (k k' : Nat), ((k = e ∧ k' = e + 1) ∨ (k = e + 1 ∧ k' = e)) →
      Rel e a b h T₂ (S'.withdraw e) A B cx cy false →
      Corr e ((Event.destroyed k :: (if c then [Event.unfulfilled k] else []) ++ []) ++
          (Event.destroyed k' :: (if d then [Event.unfulfilled k'] else []) ++ T₂.release h.tags))
        (Event.destroyed e :: (if c || d then [Event.unfulfilled e] else []) ++ (S'.withdraw e).release h.tags) := by
    intro T₂ c d k k' hk hr2
    rw [← List.append_assoc]
    refine Corr.append ⟨?_, ?_⟩ (hr2.release h.tags)
    · rcases hk with ⟨rfl, rfl⟩ | ⟨rfl, rfl⟩ <;> cases c <;> cases d <;> simp [report, merged, renumber]
    · rcases hk with ⟨rfl, rfl⟩ | ⟨rfl, rfl⟩ <;> cases c <;> cases d <;> simp
  rcases hk with ⟨rfl, rfl⟩ | ⟨rfl, rfl⟩
  · rw [f1.1] at hs
    simp only [Shape.mk', if_true, Option.some.injEq, Prod.mk.injEq] at hs
    obtain ⟨rfl, rfl⟩ := hs
    have hT := (r.fst_upd (g := ended)).1
    have hT' := map_two r.old r.young (x := ended (h.mk' k a cx true)) (hx a cx true) (hy b cy true) ended
    have g1 := find_two r.old r.young (x := ended (h.mk' k a cx true)) (hx a cx true) (hy b cy true)
    rw [← hT] at g1 hT'
    rw [withdraw_upd, g1.2] at hs₂
    simp only [Shape.mk', if_true, Option.some.injEq, Prod.mk.injEq] at hs₂
    obtain ⟨rfl, rfl⟩ := hs₂
    have hr2 := hend (T₂ := (updAll k ended S).withdraw (k + 1)) hT'.2 rfl rfl
    refine ⟨⟨_, _, _, _, _, hr2⟩, ?_⟩
    rw [withdraw_upd S, hrel hT rfl rfl rfl]
    have := fin ((h.mk' k a cx true).unfulfilled || !(h.ps.all (·.isSatisfied)))
      ((h.mk' (k + 1) b cy true).unfulfilled || !(h.ps.all (·.isSatisfied))) k (k + 1) (by simp) hr2
    rw [show (((h.mk' k a cx true).unfulfilled || !(h.ps.all (·.isSatisfied))) ||
      ((h.mk' (k + 1) b cy true).unfulfilled || !(h.ps.all (·.isSatisfied)))) =
      ((h.mk' k (a + b) (cx + cy) true).unfulfilled || !(h.ps.all (·.isSatisfied))) by rw [hz]; grind] at this
    exact this
  · rw [f1.2] at hs
    simp only [Shape.mk', if_true, Option.some.injEq, Prod.mk.injEq] at hs
    obtain ⟨rfl, rfl⟩ := hs
    have hT := (r.fst_upd (g := ended)).2.1
    have hT' := map_two r.old r.young (hx a cx true) (y := ended (h.mk' (k' + 1) b cy true)) (hy b cy true) ended
    have g1 := find_two r.old r.young (hx a cx true) (y := ended (h.mk' (k' + 1) b cy true)) (hy b cy true)
    rw [← hT] at g1 hT'
    rw [withdraw_upd, g1.1] at hs₂
    simp only [Shape.mk', if_true, Option.some.injEq, Prod.mk.injEq] at hs₂
    obtain ⟨rfl, rfl⟩ := hs₂
    have hr2 := hend (T₂ := (updAll (k' + 1) ended S).withdraw k') hT'.1 rfl rfl
    refine ⟨⟨_, _, _, _, _, hr2⟩, ?_⟩
    rw [withdraw_upd S, hrel hT rfl rfl rfl]
    have := fin ((h.mk' (k' + 1) b cy true).unfulfilled || !(h.ps.all (·.isSatisfied)))
      ((h.mk' k' a cx true).unfulfilled || !(h.ps.all (·.isSatisfied))) (k' + 1) k' (by simp) hr2
    rw [show (((h.mk' (k' + 1) b cy true).unfulfilled || !(h.ps.all (·.isSatisfied))) ||
      ((h.mk' k' a cx true).unfulfilled || !(h.ps.all (·.isSatisfied)))) =
      ((h.mk' k' (a + b) (cx + cy) true).unfulfilled || !(h.ps.all (·.isSatisfied))) by rw [hz]; grind] at this
    exact this

/-- The expectations are numbered in the order of their creation. -/
theorem step_created {S T : Spec.State α} {op : Op α} {ev : List Event} (hs : S.step op = some (T, ev))
    (hi : ∀ u ∈ S.exps, u.id < S.exps.length) :
    T.exps.length = S.exps.length + creations ev ∧ ∀ u ∈ T.exps, u.id < T.exps.length := by
  have hrel : ∀ (S : Spec.State α) (ss : List Nat), creations (S.release ss) = 0 := by
    intro S ss
    unfold creations
    rw [List.countP_eq_zero]
    intro ev hev
    obtain ⟨s, -, hs⟩ := List.mem_flatMap.mp hev
    split at hs
    · simp at hs
    · unfold Spec.State.sequenceEnd at hs
      split at hs
      · simp at hs
        rcases hs with rfl | rfl <;> simp
      · simp at hs
        subst hs
        simp
  have hun : ∀ l : List (Spec.Exp α), creations (l.map fun x => Event.unhandled x.id) = 0 := by
    intro l
    unfold creations
    rw [List.countP_eq_zero]
    intro ev hev
    obtain ⟨u, -, rfl⟩ := List.mem_map.mp hev
    simp
  have happ : ∀ l l' : List Event, creations (l ++ l') = creations l + creations l' := fun l l' => List.countP_append
  have hupd : ∀ (k : Nat) (g : Spec.Exp α → Spec.Exp α), (∀ u, (g u).id = u.id) →
      (updAll k g S).exps.length = S.exps.length ∧ ∀ u ∈ (updAll k g S).exps, u.id < (updAll k g S).exps.length := by
    intro k g hg
    have hl : (updAll k g S).exps.length = S.exps.length := by simp [updAll]
    refine ⟨hl, ?_⟩
    rw [hl]
    intro u hu
    obtain ⟨v, hv, rfl⟩ := List.mem_map.mp hu
    unfold upd
    split
    · rw [hg]; exact hi v hv
    · exact hi v hv
  cases op with
  | newSequence st =>
    simp only [Spec.State.step, Option.some.injEq, Prod.mk.injEq] at hs
    obtain ⟨rfl, rfl⟩ := hs
    exact ⟨rfl, hi⟩
  | newMock =>
    simp only [Spec.State.step, Option.some.injEq, Prod.mk.injEq] at hs
    obtain ⟨rfl, rfl⟩ := hs
    exact ⟨rfl, hi⟩
  | dropSequence s =>
    simp only [Spec.State.step] at hs
    split at hs
    · simp only [Option.some.injEq, Prod.mk.injEq] at hs
      obtain ⟨rfl, rfl⟩ := hs
      rw [hrel]
      exact ⟨rfl, hi⟩
    · cases hs
  | expect m min max tags ps =>
    simp only [Spec.State.step] at hs
    split at hs
    · split at hs
      · simp only [Option.some.injEq, Prod.mk.injEq] at hs
        obtain ⟨rfl, rfl⟩ := hs
        refine ⟨by simp [creations], ?_⟩
        intro u hu
        simp only [List.length_append, List.length_cons, List.length_nil]
        rcases List.mem_append.mp hu with hu | hu
        · have := hi u hu; omega
        · simp only [List.mem_singleton] at hu
          subst hu
          simp
      · simp only [Option.some.injEq, Prod.mk.injEq] at hs
        obtain ⟨rfl, rfl⟩ := hs
        exact ⟨rfl, hi⟩
    · cases hs
  | call m v =>
    simp only [Spec.State.step] at hs
    split at hs
    · simp only [Option.some.injEq, Prod.mk.injEq] at hs
      obtain ⟨rfl, rfl⟩ := hs
      simp only [Spec.State.call]
      split
      · rw [happ, hun]
        exact hupd _ counted (fun _ => rfl)
      · split
        · rw [happ, hun]
          exact ⟨rfl, hi⟩
        · rw [happ, hun]
          exact ⟨rfl, hi⟩
    · cases hs
  | destroy k =>
    simp only [Spec.State.step] at hs
    split at hs
    · cases hs
    · simp only [Option.some.injEq, Prod.mk.injEq] at hs
      obtain ⟨rfl, rfl⟩ := hs
      rw [happ, hrel]
      have : ∀ (c : Bool), creations (Event.destroyed k :: if c then [Event.unfulfilled k] else []) = 0 := by
        intro c; cases c <;> rfl
      rw [this]
      exact hupd _ ended (fun _ => rfl)

theorem run_created {S T : Spec.State α} {ops : List (Op α)} {evs : List Event} (hs : S.run ops = some (T, evs))
    (hi : ∀ u ∈ S.exps, u.id < S.exps.length) :
    T.exps.length = S.exps.length + creations evs ∧ ∀ u ∈ T.exps, u.id < T.exps.length := by
  induction ops generalizing S evs with
  | nil =>
    simp only [Spec.State.run, Option.some.injEq, Prod.mk.injEq] at hs
    obtain ⟨rfl, rfl⟩ := hs
    exact ⟨rfl, hi⟩
  | cons op ops ih =>
    simp only [Spec.State.run] at hs
    split at hs
    · cases hs
    · rename_i S1 ev1 hs1
      split at hs
      · cases hs
      · rename_i S2 ev2 hs2
        simp only [Option.some.injEq, Prod.mk.injEq] at hs
        obtain ⟨rfl, rfl⟩ := hs
        obtain ⟨h1, h2⟩ := step_created hs1 hi
        obtain ⟨h3, h4⟩ := ih hs2 h2
        refine ⟨?_, h4⟩
        have : creations (ev1 ++ ev2) = creations ev1 + creations ev2 := List.countP_append
        omega

theorem fits_append {S T : Spec.State α} {ops ops' : List (Op α)} {evs : List Event} (hs : S.run ops = some (T, evs)) :
    S.fits (ops ++ ops') ↔ S.fits ops ∧ T.fits ops' := by
  induction ops generalizing S evs with
  | nil =>
    simp only [Spec.State.run, Option.some.injEq, Prod.mk.injEq] at hs
    obtain ⟨rfl, rfl⟩ := hs
    simp [Spec.State.fits]
  | cons op ops ih =>
    simp only [Spec.State.run] at hs
    split at hs
    · cases hs
    · rename_i S1 ev1 hs1
      split at hs
      · cases hs
      · rename_i S2 ev2 hs2
        simp only [Option.some.injEq, Prod.mk.injEq] at hs
        obtain ⟨rfl, rfl⟩ := hs
        have := ih hs2
        simp only [List.cons_append, Spec.State.fits, hs1, Option.some.injEq, Prod.mk.injEq]
        constructor
        · rintro ⟨h1, h2⟩
          have h3 := this.mp (h2 S1 ev1 ⟨rfl, rfl⟩)
          exact ⟨⟨h1, by rintro S' ev ⟨rfl, rfl⟩; exact h3.1⟩, h3.2⟩
        · rintro ⟨⟨h1, h2⟩, h3⟩
          exact ⟨h1, by rintro S' ev ⟨rfl, rfl⟩; exact this.mpr ⟨h2 _ _ ⟨rfl, rfl⟩, h3⟩⟩

theorem Rels.run {S S' : Spec.State α} (r : Rels e a b h S S') {ops ops' : List (Op α)} (ho : Rest e ops ops') {T : Spec.State α}
    {evs : List Event} (hs : S.run ops = some (T, evs)) (hf : S.fits ops) :
    (∃ T' evs', S'.run ops' = some (T', evs') ∧ Corr e evs evs') ∧ S'.fits ops' := by
  have step : ∀ {S : Spec.State α} {op : Op α} {ops : List (Op α)} {T : Spec.State α} {evs : List Event},
      S.run (op :: ops) = some (T, evs) →
      ∃ S1 ev1 ev2, S.step op = some (S1, ev1) ∧ S1.run ops = some (T, ev2) ∧ evs = ev1 ++ ev2 := by
    intro S op ops T evs hs
    simp only [Spec.State.run] at hs
    split at hs
    · cases hs
    · rename_i S1 ev1 hs1
      split at hs
      · cases hs
      · rename_i S2 ev2 hs2
        simp only [Option.some.injEq, Prod.mk.injEq] at hs
        obtain ⟨rfl, rfl⟩ := hs
        exact ⟨S1, ev1, ev2, hs1, hs2, rfl⟩
  have build : ∀ {S' S1' : Spec.State α} {op : Op α} {ops' : List (Op α)} {ev1 ev1' ev2 : List Event}, ¬ S'.full op →
      S'.step op = some (S1', ev1') → Corr e ev1 ev1' →
      ((∃ T' evs', S1'.run ops' = some (T', evs') ∧ Corr e ev2 evs') ∧ S1'.fits ops') →
      (∃ T' evs', S'.run (op :: ops') = some (T', evs') ∧ Corr e (ev1 ++ ev2) evs') ∧ S'.fits (op :: ops') := by
    rintro S' S1' op ops' ev1 ev1' ev2 h0 h1 h2 ⟨⟨T', evs', h3, h4⟩, h5⟩
    refine ⟨⟨T', ev1' ++ evs', by simp [Spec.State.run, h1, h3], h2.append h4⟩, h0, ?_⟩
    intro S3 ev3 h7
    rw [h1] at h7
    simp only [Option.some.injEq, Prod.mk.injEq] at h7
    rw [← h7.1]; exact h5
  induction ho generalizing S S' T evs with
  | nil =>
    simp only [Spec.State.run, Option.some.injEq, Prod.mk.injEq] at hs
    obtain ⟨rfl, rfl⟩ := hs
    exact ⟨⟨_, _, rfl, .nil⟩, trivial⟩
  | same hop _ ih =>
    obtain ⟨S1, ev1, ev2, h1, h2, rfl⟩ := step hs
    obtain ⟨A, B, cx, cy, al, r⟩ := r
    obtain ⟨T', ev', h3, h4, h5⟩ := r.same hop h1
    exact build (r.full hf.1) h3 h5 (ih h4 h2 (hf.2 _ _ h1))
  | other hk hk' _ ih =>
    obtain ⟨S1, ev1, ev2, h1, h2, rfl⟩ := step hs
    obtain ⟨A, B, cx, cy, al, r⟩ := r
    obtain ⟨T', ev', h3, h4, h5⟩ := r.other hk hk' h1
    exact build (by simp [Spec.State.full]) h3 h5 (ih h4 h2 (hf.2 _ _ h1))
  | older _ ih =>
    obtain ⟨S1, ev1, ev2, h1, h2, rfl⟩ := step hs
    obtain ⟨S2, ev3, ev4, h3, h4, rfl⟩ := step h2
    obtain ⟨A, B, cx, cy, al, r⟩ := r
    obtain ⟨T', ev', h5, h6, h7⟩ := r.both (Or.inl ⟨rfl, rfl⟩) h1 h3
    rw [← List.append_assoc]
    exact build (by simp [Spec.State.full]) h5 h7 (ih h6 h4 ((hf.2 _ _ h1).2 _ _ h3))
  | younger _ ih =>
    obtain ⟨S1, ev1, ev2, h1, h2, rfl⟩ := step hs
    obtain ⟨S2, ev3, ev4, h3, h4, rfl⟩ := step h2
    obtain ⟨A, B, cx, cy, al, r⟩ := r
    obtain ⟨T', ev', h5, h6, h7⟩ := r.both (Or.inr ⟨rfl, rfl⟩) h1 h3
    rw [← List.append_assoc]
    exact build (by simp [Spec.State.full]) h5 h7 (ih h6 h4 ((hf.2 _ _ h1).2 _ _ h3))

end Mimic.Merge
