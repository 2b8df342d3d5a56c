import Verif.Spec.Reorder
import Verif.Proofs.Parts
import Verif.Proofs.Lifetime

/-!
# Lemmas about the order in which the sequences of an expectation are named
-/

set_option autoImplicit false

namespace Mimic.Reorder

open Mimic.Parts

variable {α : Type}

/-! ## Loops over the sequences of one expectation -/

theorem nodup_perm {es es' : List (Nat × Int)} (h : es.Perm es') (hn : (es.map (·.1)).Nodup) : (es'.map (·.1)).Nodup :=
  (h.map _).nodup_iff.mp hn

theorem deref_store_ne {h : Seqs} {s t : Nat} (hne : s ≠ t) (q : Sequence) : (h.store s q).deref t = h.deref t := by
  have : (h.store s q)[t]? = h[t]? := by
    unfold Seqs.store
    simp [hne]
  unfold Seqs.deref
  rw [this]

theorem store_comm {h : Seqs} {s t : Nat} (hne : s ≠ t) (q r : Sequence) : (h.store s q).store t r = (h.store t r).store s q := by
  unfold Seqs.store
  apply List.ext_getElem?
  intro i
  simp only [List.getElem?_modify]
  grind

theorem bind_ok {A B : Type} {x : M A} {f : A → M B} {b : B} : (x >>= f) = .ok b ↔ ∃ a, x = .ok a ∧ f a = .ok b := by
  cases x <;> simp [bind, Except.bind]

theorem forEntries_perm (f : Sequence → Int → M Sequence) {es es' : List (Nat × Int)} (h : es.Perm es') (hn : (es.map (·.1)).Nodup)
    {g g' : Seqs} (hr : forEntries f es g = .ok g') : forEntries f es' g = .ok g' := by
  induction h generalizing g with
  | nil => exact hr
  | cons x _ ih =>
    obtain ⟨s, id⟩ := x
    unfold forEntries at hr ⊢
    rw [bind_ok] at hr ⊢
    obtain ⟨g1, h1, h2⟩ := hr
    exact ⟨g1, h1, ih (by simp at hn; exact hn.2) h2⟩
  | swap x y l =>
    obtain ⟨s, i⟩ := x
    obtain ⟨t, j⟩ := y
    have hne : t ≠ s := by simp at hn; grind
    simp only [forEntries, Seqs.apply, bind_ok, pure, Except.pure, Except.ok.injEq] at hr ⊢
    obtain ⟨_, ⟨q, h1, q', h2, rfl⟩, _, ⟨r, h3, r', h4, rfl⟩, h5⟩ := hr
    rw [deref_store_ne hne] at h3
    refine ⟨_, ⟨r, h3, r', h4, rfl⟩, _, ⟨q, ?_, q', h2, rfl⟩, ?_⟩
    · rw [deref_store_ne hne.symm]; exact h1
    · rw [store_comm hne.symm]; exact h5
  | trans h1 _ ih1 ih2 => exact ih2 (nodup_perm h1 hn) (ih1 hn hr)

theorem makeSequenceEntries_perm {ts ts' : List Nat} (h : ts.Perm ts') (hn : ts.Nodup) {g g' : Seqs} {es : List (Nat × Int)}
    (hr : makeSequenceEntries g ts = .ok (g', es)) : ∃ es', makeSequenceEntries g ts' = .ok (g', es') ∧ es.Perm es' := by
  induction h generalizing g es with
  | nil => exact ⟨es, hr, .refl _⟩
  | @cons s l₁ l₂ _ ih =>
    unfold makeSequenceEntries at hr ⊢
    rw [bind_ok] at hr
    obtain ⟨q, h1, h2⟩ := hr
    simp only [h1, bind, Except.bind] at h2 ⊢
    rcases ha : q.add with _ | ⟨q', id⟩
    · simp [ha] at h2
    · simp only [ha] at h2 ⊢
      rcases hm : makeSequenceEntries (g.store s q') l₁ with _ | ⟨g1, es1⟩
      · rw [hm] at h2; cases h2
      · rw [hm] at h2
        simp only [pure, Except.pure, Except.ok.injEq, Prod.mk.injEq] at h2
        obtain ⟨rfl, rfl⟩ := h2
        obtain ⟨es', h3, h4⟩ := ih (by simp at hn; exact hn.2) hm
        exact ⟨(s, id) :: es', by rw [h3]; rfl, h4.cons _⟩
  | swap s t l =>
    have hne : t ≠ s := by simp at hn; grind
    unfold makeSequenceEntries at hr
    rw [bind_ok] at hr
    obtain ⟨q, h1, h2⟩ := hr
    rcases ha : q.add with _ | ⟨q', id⟩
    · simp [ha] at h2
    simp only [ha] at h2
    unfold makeSequenceEntries at h2
    simp only [bind_ok] at h2
    obtain ⟨⟨g1, es1⟩, ⟨r, h3, h4⟩, h5⟩ := h2
    rcases hb : r.add with _ | ⟨r', jd⟩
    · simp [hb] at h4
    simp only [hb, bind_ok] at h4
    obtain ⟨⟨g2, es2⟩, h6, h7⟩ := h4
    simp only [pure, Except.pure, Except.ok.injEq, Prod.mk.injEq] at h5 h7
    obtain ⟨rfl, rfl⟩ := h7
    obtain ⟨rfl, rfl⟩ := h5
    rw [deref_store_ne hne] at h3
    refine ⟨(s, jd) :: (t, id) :: es2, ?_, .swap ..⟩
    rw [store_comm hne] at h6
    simp only [makeSequenceEntries, h3, hb, bind, Except.bind, deref_store_ne hne.symm, h1, ha, h6]
    rfl
  | trans h1 _ ih1 ih2 =>
    obtain ⟨es1, h3, h4⟩ := ih1 hn hr
    obtain ⟨es2, h5, h6⟩ := ih2 (h1.nodup_iff.mp hn) h3
    exact ⟨es2, h5, h4.trans h6⟩

theorem makeSequenceEntries_tags {ts : List Nat} {g g' : Seqs} {es : List (Nat × Int)}
    (hr : makeSequenceEntries g ts = .ok (g', es)) : es.map (·.1) = ts := by
  induction ts generalizing g es with
  | nil => simp only [makeSequenceEntries, Except.ok.injEq, Prod.mk.injEq] at hr; rw [← hr.2]; rfl
  | cons s ts ih =>
    unfold makeSequenceEntries at hr
    rw [bind_ok] at hr
    obtain ⟨q, h1, h2⟩ := hr
    rcases ha : q.add with _ | ⟨q', id⟩
    · simp [ha] at h2
    simp only [ha, bind_ok] at h2
    obtain ⟨⟨g2, es2⟩, h6, h7⟩ := h2
    simp only [pure, Except.pure, Except.ok.injEq, Prod.mk.injEq] at h7
    obtain ⟨rfl, rfl⟩ := h7
    simp [ih h6]

theorem allConsumable_true {g : Seqs} {es : List (Nat × Int)} :
    allConsumable g es = .ok true ↔ ∀ x ∈ es, ∃ q, g.deref x.1 = .ok q ∧ q.isConsumable x.2 = .ok true := by
  induction es with
  | nil => simp [allConsumable]
  | cons x es ih =>
    obtain ⟨s, id⟩ := x
    unfold allConsumable
    simp only [bind_ok, List.mem_cons, forall_eq_or_imp, ← ih]
    constructor
    · rintro ⟨q, h1, b, h2, h3⟩
      cases b with
      | false => simp [pure, Except.pure] at h3
      | true => exact ⟨⟨q, h1, h2⟩, h3⟩
    · rintro ⟨⟨q, h1, h2⟩, h3⟩
      exact ⟨q, h1, true, h2, h3⟩

/-- What `collectRatings` finds at one sequence. -/
theorem collectRatings_perm {g : Seqs} {es es' : List (Nat × Int)} (h : es.Perm es') {rs : List Rating} {is : List Nat}
    (hr : collectRatings g es = .ok (rs, is)) : ∃ rs' is', collectRatings g es' = .ok (rs', is') ∧ rs.Perm rs' ∧ is.Perm is' := by
  induction h generalizing rs is with
  | nil => exact ⟨rs, is, hr, .refl _, .refl _⟩
  | cons x _ ih =>
    obtain ⟨s, id⟩ := x
    unfold collectRatings at hr ⊢
    simp only [bind_ok] at hr
    obtain ⟨q, h1, o, h2, h3⟩ := hr
    cases o with
    | some p =>
      simp only [bind_ok] at h3
      obtain ⟨⟨rs1, is1⟩, h4, h5⟩ := h3
      simp only [pure, Except.pure, Except.ok.injEq, Prod.mk.injEq] at h5
      obtain ⟨rfl, rfl⟩ := h5
      obtain ⟨rs', is', h6, h7, h8⟩ := ih h4
      exact ⟨_ :: rs', is', by simp only [h1, h2, h6, bind, Except.bind]; rfl, h7.cons _, h8⟩
    | none =>
      simp only [bind_ok] at h3
      obtain ⟨⟨rs1, is1⟩, h4, h5⟩ := h3
      simp only [pure, Except.pure, Except.ok.injEq, Prod.mk.injEq] at h5
      obtain ⟨rfl, rfl⟩ := h5
      obtain ⟨rs', is', h6, h7, h8⟩ := ih h4
      exact ⟨rs', s :: is', by simp only [h1, h2, h6, bind, Except.bind]; rfl, h7, h8.cons _⟩
  | swap x y l =>
    obtain ⟨s, i⟩ := x
    obtain ⟨t, j⟩ := y
    simp only [collectRatings, bind_ok] at hr
    obtain ⟨q, h1, o, h2, h3⟩ := hr
    have key : ∀ (o : Option Int) (X : M (List Rating × List Nat)), (match o with
        | some p => do let (rs, is) ← X; return ({ priority := p, tag := t } :: rs, is)
        | none => do let (rs, is) ← X; return (rs, t :: is)) = Except.ok (rs, is) →
        ∃ rs1 is1, X = .ok (rs1, is1) ∧ (rs, is) = (match o with
          | some p => ({ priority := p, tag := t } :: rs1, is1)
          | none => (rs1, t :: is1)) := by
      intro o X hX
      cases X with
      | error e => cases o <;> cases hX
      | ok v => obtain ⟨rs1, is1⟩ := v; refine ⟨rs1, is1, rfl, ?_⟩; cases o <;> (cases hX; rfl)
    obtain ⟨rs1, is1, h4, h5⟩ := key o _ h3
    simp only [bind_ok] at h4
    obtain ⟨r, h6, o', h7, h8⟩ := h4
    simp only [collectRatings, h6, h7, bind, Except.bind]
    cases hl : collectRatings g l with
    | error e => rw [hl] at h8; cases o' <;> cases h8
    | ok v =>
      obtain ⟨rs2, is2⟩ := v
      rw [hl] at h8
      cases o with
      | some p =>
        cases h5
        cases o' with
        | some p' => cases h8; simp only [h1, h2]; exact ⟨_, _, rfl, .swap .., .refl _⟩
        | none => cases h8; simp only [h1, h2]; exact ⟨_, _, rfl, .refl _, .refl _⟩
      | none =>
        cases h5
        cases o' with
        | some p' => cases h8; simp only [h1, h2]; exact ⟨_, _, rfl, .refl _, .refl _⟩
        | none => cases h8; simp only [h1, h2]; exact ⟨_, _, rfl, .refl _, .swap ..⟩
  | trans _ _ ih1 ih2 =>
    obtain ⟨rs1, is1, h3, h4, h5⟩ := ih1 hr
    obtain ⟨rs2, is2, h6, h7, h8⟩ := ih2 h3
    exact ⟨rs2, is2, h6, h4.trans h7, h5.trans h8⟩

theorem collectRatings_tags {g : Seqs} {es : List (Nat × Int)} {rs : List Rating} {is : List Nat}
    (hr : collectRatings g es = .ok (rs, is)) : (rs.map (·.tag)).Sublist (es.map (·.1)) := by
  induction es generalizing rs is with
  | nil => cases hr; exact .refl _
  | cons x es ih =>
    obtain ⟨s, id⟩ := x
    unfold collectRatings at hr
    simp only [bind_ok] at hr
    obtain ⟨q, h1, o, h2, h3⟩ := hr
    cases o with
    | some p =>
      simp only [bind_ok] at h3
      obtain ⟨⟨rs1, is1⟩, h4, h5⟩ := h3
      cases h5
      exact (ih h4).cons₂ _
    | none =>
      simp only [bind_ok] at h3
      obtain ⟨⟨rs1, is1⟩, h4, h5⟩ := h3
      cases h5
      exact (ih h4).cons _

theorem derefTags_perm {g : Seqs} {es es' : List (Nat × Int)} (h : es.Perm es') {ts : List Nat} (hr : derefTags g es = .ok ts) :
    ∃ ts', derefTags g es' = .ok ts' := by
  have key : ∀ es : List (Nat × Int), (∃ ts, derefTags g es = .ok ts) ↔ ∀ x ∈ es, ∃ q, g.deref x.1 = .ok q := by
    intro es
    induction es with
    | nil => simp [derefTags]
    | cons x es ih =>
      obtain ⟨s, id⟩ := x
      simp only [derefTags, bind_ok, List.mem_cons, forall_eq_or_imp, ← ih]
      constructor
      · rintro ⟨ts, q, h1, ts1, h2, _⟩; exact ⟨⟨q, h1⟩, ts1, h2⟩
      · rintro ⟨⟨q, h1⟩, ts1, h2⟩; exact ⟨_, q, h1, ts1, h2, rfl⟩
  rw [key]
  intro x hx
  exact (key es).mp ⟨ts, hr⟩ x (h.mem_iff.mpr hx)

/-! ## Ratings -/

theorem find_perm {rs rs' : List Rating} (h : rs.Perm rs') (hn : (rs.map (·.tag)).Nodup) (t : Nat) :
    rs.find? (fun r => r.tag == t) = rs'.find? (fun r => r.tag == t) := by
  induction h with
  | nil => rfl
  | cons x _ ih =>
    simp only [List.find?_cons]
    split
    · rfl
    · exact ih (by simp at hn; exact hn.2)
  | swap x y l =>
    have hne : x.tag ≠ y.tag := by simp at hn; grind
    simp only [List.find?_cons]
    by_cases h1 : x.tag = t <;> by_cases h2 : y.tag = t <;> grind
  | trans h1 _ ih1 ih2 => rw [ih1 hn, ih2 ((h1.map _).nodup_iff.mp hn)]

/-- The verdict of the loop of `has_better_rating`, as a condition without order. -/
theorem betterLoop_eq (rhs ls : List Rating) (n : Int) : hasBetterRatingLoop rhs ls n =
    (ls.any (fun l => (rhs.find? (fun r => r.tag == l.tag)).isNone) ||
      decide (0 ≤ n + (ls.map (fun l => match rhs.find? (fun r => r.tag == l.tag) with
        | some r => if l.priority < r.priority then (-1 : Int) else 1
        | none => 0)).sum)) := by
  induction ls generalizing n with
  | nil => simp [hasBetterRatingLoop]
  | cons l ls ih =>
    unfold hasBetterRatingLoop
    rcases hf : rhs.find? (fun r => r.tag == l.tag) with _ | r
    · simp [hf]
    · simp only [hf, ih, List.any_cons, Option.isNone_some, Bool.false_or, List.map_cons, List.sum_cons, Int.add_assoc]

theorem better_perm {l l' r r' : List Rating} (hl : l.Perm l') (hr : r.Perm r') (hn : (r.map (·.tag)).Nodup) :
    hasBetterRating l r = hasBetterRating l' r' := by
  unfold hasBetterRating
  rw [betterLoop_eq, betterLoop_eq]
  simp only [← find_perm hr hn]
  congr 1
  · rw [Bool.eq_iff_iff]
    simp only [List.any_eq_true]
    exact ⟨fun ⟨x, h1, h2⟩ => ⟨x, hl.mem_iff.mp h1, h2⟩, fun ⟨x, h1, h2⟩ => ⟨x, hl.mem_iff.mpr h1, h2⟩⟩
  · have : ∀ f : Rating → Int, (l.map f).sum = (l'.map f).sum := by
      intro f
      induction hl with
      | nil => rfl
      | cons x _ ih => simp [ih]
      | swap x y l => simp; omega
      | trans _ _ ih1 ih2 => rw [ih1, ih2]
    rw [this]

/-! ## Expectations -/

structure CtrlRel (c c' : Control) : Prop where
  min : c.min = c'.min
  max : c.max = c'.max
  count : c.count = c'.count
  entries : c.entries.Perm c'.entries
  nodup : (c.entries.map (·.1)).Nodup

structure ExpRel (x x' : Exp α) : Prop where
  coll : x.coll = x'.coll
  alive : x.alive = x'.alive
  policies : x.policies = x'.policies
  control : CtrlRel x.control x'.control

structure WorldRel (w w' : World α) : Prop where
  seqs : w.seqs = w'.seqs
  colls : w.colls = w'.colls
  exps : All2 ExpRel w.exps w'.exps

theorem update_perm {c c' : Control} (hc : CtrlRel c c') {g g' : Seqs} (hr : c.updateSequenceStates g = .ok g') :
    c'.updateSequenceStates g = .ok g' := by
  unfold Control.updateSequenceStates at hr ⊢
  rw [← hc.count, ← hc.min, ← hc.max]
  split
  · rename_i h; rw [if_pos h] at hr; exact forEntries_perm _ hc.entries hc.nodup hr
  · rename_i h
    rw [if_neg h] at hr
    split
    · rename_i h; rw [if_pos h] at hr; exact forEntries_perm _ hc.entries hc.nodup hr
    · rename_i h; rw [if_neg h] at hr; exact hr

theorem make_perm {t : TimesConfig} {ts ts' : List Nat} (h : ts.Perm ts') (hn : ts.Nodup) {g g' : Seqs} {c : Control}
    (hr : Control.make t ts g = .ok (g', c)) : ∃ c', Control.make t ts' g = .ok (g', c') ∧ CtrlRel c c' := by
  unfold Control.make at hr
  simp only [bind_ok] at hr
  obtain ⟨⟨g1, es⟩, h1, g2, h2, h3⟩ := hr
  simp only [pure, Except.pure, Except.ok.injEq, Prod.mk.injEq] at h3
  obtain ⟨rfl, rfl⟩ := h3
  obtain ⟨es', h4, h5⟩ := makeSequenceEntries_perm h hn h1
  have hc : CtrlRel { min := t.min, max := t.max, count := 0, entries := es } { min := t.min, max := t.max, count := 0, entries := es' } :=
    ⟨rfl, rfl, rfl, h5, by simp only [makeSequenceEntries_tags h1]; exact hn⟩
  refine ⟨_, ?_, hc⟩
  simp only [Control.make, h4, bind, Except.bind, update_perm hc h2]
  rfl

theorem consume_perm {c c' : Control} (hc : CtrlRel c c') {g g' : Seqs} {d : Control} (hr : c.consume g = .ok (g', d)) :
    ∃ d', c'.consume g = .ok (g', d') ∧ CtrlRel d d' := by
  unfold Control.consume at hr
  simp only [bind_ok] at hr
  obtain ⟨b, h1, u, h2, g1, h3, n, h4, g2, h5, h6⟩ := hr
  simp only [pure, Except.pure, Except.ok.injEq, Prod.mk.injEq] at h6
  obtain ⟨rfl, rfl⟩ := h6
  have hd : CtrlRel { c with count := n } { c' with count := n } := ⟨hc.min, hc.max, rfl, hc.entries, hc.nodup⟩
  refine ⟨_, ?_, hd⟩
  cases b with
  | false => simp [check] at h2
  | true =>
    have h1' : c'.isApplicable g = .ok true := by
      unfold Control.isApplicable at h1 ⊢
      rw [← hc.count, ← hc.max]
      split
      · rename_i h
        rw [if_pos h, allConsumable_true] at h1
        rw [allConsumable_true]
        exact fun x hx => h1 x (hc.entries.mem_iff.mpr hx)
      · rename_i h; rw [if_neg h] at h1; exact h1
    unfold Control.consume
    simp only [h1', bind, Except.bind, h2, forEntries_perm _ hc.entries hc.nodup h3, ← hc.count, h4, update_perm hd h5]
    rfl

inductive StateRel : ControlState → ControlState → Prop where
  | inapplicable (a b c : Int) (rs rs' : List Rating) (is is' : List Nat) :
    StateRel (.inapplicable a b c rs is) (.inapplicable a b c rs' is')
  | applicable (a b c : Int) {rs rs' : List Rating} : rs.Perm rs' → (rs.map (·.tag)).Nodup →
    StateRel (.applicable a b c rs) (.applicable a b c rs')
  | saturated (a b c : Int) (ts ts' : List Nat) : StateRel (.saturated a b c ts) (.saturated a b c ts')

theorem state_perm {c c' : Control} (hc : CtrlRel c c') {g : Seqs} {st : ControlState} (hr : c.state g = .ok st) :
    ∃ st', c'.state g = .ok st' ∧ StateRel st st' := by
  unfold Control.state at hr ⊢
  rw [← hc.count, ← hc.max, ← hc.min]
  split
  · rename_i h
    rw [if_pos h] at hr
    rw [bind_ok] at hr
    obtain ⟨ts, h1, h2⟩ := hr
    cases h2
    obtain ⟨ts', h3⟩ := derefTags_perm hc.entries h1
    exact ⟨_, by rw [h3]; rfl, .saturated ..⟩
  · rename_i h
    rw [if_neg h] at hr
    rw [bind_ok] at hr
    obtain ⟨⟨rs, is⟩, h1, h2⟩ := hr
    obtain ⟨rs', is', h3, h4, h5⟩ := collectRatings_perm hc.entries h1
    simp only [h3, bind, Except.bind]
    simp only at h2
    have he : is.isEmpty = is'.isEmpty := by
      rw [Bool.eq_iff_iff, List.isEmpty_iff_length_eq_zero, List.isEmpty_iff_length_eq_zero, h5.length_eq]
    rw [← he]
    split
    · rename_i h'
      rw [if_pos h'] at h2
      cases h2
      exact ⟨_, rfl, .applicable _ _ _ h4 ((collectRatings_tags h1).nodup hc.nodup)⟩
    · rename_i h'
      rw [if_neg h'] at h2
      cases h2
      exact ⟨_, rfl, .inapplicable ..⟩

structure RepRel (r r' : MatchReport) : Prop where
  exp : r.exp = r'.exp
  results : r.results = r'.results
  control : StateRel r.control r'.control

theorem RepRel.evaluate {r r' : MatchReport} (h : RepRel r r') : evaluateMatchReport r = evaluateMatchReport r' := by
  unfold evaluateMatchReport
  have : r.control.isApplicable = r'.control.isApplicable := by
    have := h.control
    generalize r.control = a at *
    generalize r'.control = b at *
    cases this <;> rfl
  rw [h.results, this]

theorem RepRel.ratings {r r' : MatchReport} (h : RepRel r r') {rs : List Rating} (hr : r.ratings = .ok rs) :
    ∃ rs', r'.ratings = .ok rs' ∧ rs.Perm rs' ∧ (rs.map (·.tag)).Nodup := by
  have := h.control
  unfold MatchReport.ratings at hr ⊢
  generalize r.control = a at *
  generalize r'.control = b at *
  cases this with
  | applicable a b c hp hn => cases hr; exact ⟨_, rfl, hp, hn⟩
  | _ => cases hr

theorem pickLoop_perm {rs rs' : List MatchReport} (h : All2 RepRel rs rs') {b b' : MatchReport} (hb : RepRel b b') {v : MatchReport}
    (hr : pickLoop b rs = .ok v) : ∃ v', pickLoop b' rs' = .ok v' ∧ RepRel v v' := by
  induction h generalizing b b' with
  | nil => cases hr; exact ⟨b', rfl, hb⟩
  | @cons r r' rs rs' h1 _ ih =>
    unfold pickLoop at hr ⊢
    simp only [bind_ok] at hr
    obtain ⟨x, hx, y, hy, h2⟩ := hr
    obtain ⟨x', hx', px, _⟩ := hb.ratings hx
    obtain ⟨y', hy', py, ny⟩ := h1.ratings hy
    simp only [hx', hy', bind, Except.bind, ← better_perm px py ny]
    split
    · rename_i h; rw [if_pos h] at h2; exact ih hb h2
    · rename_i h; rw [if_neg h] at h2; exact ih h1 h2

theorem pickBest_perm {rs rs' : List MatchReport} (h : All2 RepRel rs rs') {v : MatchReport} (hr : pickBestMatch rs = .ok v) :
    ∃ v', pickBestMatch rs' = .ok v' ∧ RepRel v v' := by
  cases h with
  | nil => cases hr
  | cons h1 h2 => exact pickLoop_perm h2 h1 hr

/-! ## The storage -/

theorem all2_get {A B : Type} {R : A → B → Prop} {as : List A} {bs : List B} (h : All2 R as bs) (n : Nat) :
    (as[n]? = none ∧ bs[n]? = none) ∨ ∃ a b, as[n]? = some a ∧ bs[n]? = some b ∧ R a b := by
  induction h generalizing n with
  | nil => left; simp
  | cons hr _ ih =>
    cases n with
    | zero => exact .inr ⟨_, _, rfl, rfl, hr⟩
    | succ n => simpa using ih n

theorem all2_set {A B : Type} {R : A → B → Prop} {as : List A} {bs : List B} (h : All2 R as bs) (n : Nat) {a : A} {b : B} (hr : R a b) :
    All2 R (as.set n a) (bs.set n b) := by
  induction h generalizing n with
  | nil => simpa using .nil
  | cons h1 h2 ih =>
    cases n with
    | zero => exact .cons hr h2
    | succ n => exact .cons h1 (ih n)

theorem all2_length {A B : Type} {R : A → B → Prop} {as : List A} {bs : List B} (h : All2 R as bs) : as.length = bs.length := by
  induction h with
  | nil => rfl
  | cons _ _ ih => simp [ih]

theorem deref_perm {w w' : World α} (hw : WorldRel w w') {e : Nat} {x : Exp α} (hr : w.deref e = .ok x) :
    ∃ x', w'.deref e = .ok x' ∧ ExpRel x x' := by
  unfold World.deref at hr ⊢
  rcases all2_get hw.exps e with ⟨h1, _⟩ | ⟨a, b, h1, h2, h3⟩
  · rw [h1] at hr; cases hr
  · rw [h1] at hr
    simp only [h2, ← h3.alive] at hr ⊢
    split
    · rename_i h; rw [if_pos h] at hr; cases hr; exact ⟨b, rfl, h3⟩
    · rename_i h; rw [if_neg h] at hr; cases hr

structure ScanRel (s s' : Scan) : Prop where
  full : All2 RepRel s.full s'.full
  inapplicable : All2 RepRel s.inapplicable s'.inapplicable
  none : All2 RepRel s.none s'.none
  thrown : s.thrown = s'.thrown

theorem scan_perm {w w' : World α} (hw : WorldRel w w') (a : α) {es : List Nat} {s : Scan} (hr : scan w a es = .ok s) :
    ∃ s', scan w' a es = .ok s' ∧ ScanRel s s' := by
  induction es generalizing s with
  | nil => cases hr; exact ⟨_, rfl, ⟨.nil, .nil, .nil, rfl⟩⟩
  | cons e es ih =>
    unfold scan at hr ⊢
    simp only [bind_ok] at hr
    obtain ⟨x, h1, o, h2, r, h3, h4⟩ := hr
    obtain ⟨x', h1', hx⟩ := deref_perm hw h1
    obtain ⟨r', h3', hs⟩ := ih h3
    unfold Exp.matchReport at h2
    rw [bind_ok] at h2
    obtain ⟨st, h5, h6⟩ := h2
    obtain ⟨st', h5', hst⟩ := state_perm hx.control h5
    rw [hw.seqs] at h5'
    simp only [h1', bind, Except.bind, Exp.matchReport, h5', ← hx.policies, h3']
    rcases hp : evalPolicies a x.policies with _ | rs
    · rw [hp] at h6; cases h6; cases h4
      exact ⟨_, rfl, ⟨hs.full, hs.inapplicable, hs.none, by simp [hs.thrown]⟩⟩
    · rw [hp] at h6
      cases h6
      have hrr : RepRel { exp := e, control := st, results := rs } { exp := e, control := st', results := rs } := ⟨rfl, rfl, hst⟩
      simp only [pure, Except.pure, hrr.evaluate] at h4 ⊢
      generalize evaluateMatchReport { exp := e, control := st', results := rs } = ev at h4 ⊢
      cases ev <;> cases h4
      · exact ⟨_, rfl, ⟨hs.full, hs.inapplicable, .cons hrr hs.none, hs.thrown⟩⟩
      · exact ⟨_, rfl, ⟨hs.full, .cons hrr hs.inapplicable, hs.none, hs.thrown⟩⟩
      · exact ⟨_, rfl, ⟨.cons hrr hs.full, hs.inapplicable, hs.none, hs.thrown⟩⟩

theorem worldConsume_perm {w w' : World α} (hw : WorldRel w w') {e : Nat} {v : World α} (hr : w.consume e = .ok v) :
    ∃ v', w'.consume e = .ok v' ∧ WorldRel v v' := by
  unfold World.consume at hr
  simp only [bind_ok] at hr
  obtain ⟨x, h1, ⟨g, d⟩, h2, h3⟩ := hr
  cases h3
  obtain ⟨x', h1', hx⟩ := deref_perm hw h1
  obtain ⟨d', h2', hd⟩ := consume_perm hx.control h2
  rw [hw.seqs] at h2'
  refine ⟨{ w' with seqs := g, exps := w'.exps.set e { x' with control := d' } },
    by simp only [World.consume, h1', h2', bind, Except.bind]; rfl, ⟨rfl, hw.colls, all2_set hw.exps _ ?_⟩⟩
  exact ⟨hx.coll, hx.alive, hx.policies, hd⟩

theorem exps_map {rs rs' : List MatchReport} (h : All2 RepRel rs rs') : rs.map (·.exp) = rs'.map (·.exp) := by
  induction h with
  | nil => rfl
  | cons h1 _ ih => simp [h1.exp, ih]

theorem handleCall_perm {w w' : World α} (hw : WorldRel w w') {m : Nat} {a : α} {v : World α} {ev : List Event} {o : Option Nat}
    (hr : w.handleCall m a = .ok (v, ev, o)) : ∃ v', w'.handleCall m a = .ok (v', ev, o) ∧ WorldRel v v' := by
  unfold World.handleCall at hr ⊢
  rw [← hw.colls]
  rcases hc : w.colls[m]? with _ | es
  · rw [hc] at hr; cases hr
  · rw [hc] at hr
    simp only at hr ⊢
    rw [bind_ok] at hr
    obtain ⟨s, h1, h2⟩ := hr
    obtain ⟨s', h1', hs⟩ := scan_perm hw a h1
    simp only [h1', bind, Except.bind, ← hs.full.isEmpty, ← hs.inapplicable.isEmpty, ← hs.thrown, ← exps_map hs.inapplicable,
      ← exps_map hs.none]
    split
    · rename_i h
      rw [if_pos h] at h2
      simp only [bind_ok] at h2
      obtain ⟨b, h3, v1, h4, h5⟩ := h2
      cases h5
      obtain ⟨b', h3', hb⟩ := pickBest_perm hs.full h3
      obtain ⟨v', h4', hv⟩ := worldConsume_perm hw h4
      simp only [h3', ← hb.exp, h4']
      exact ⟨v', rfl, hv⟩
    · rename_i h
      rw [if_neg h] at h2
      split
      · rename_i h; rw [if_pos h] at h2; cases h2; exact ⟨_, rfl, hw⟩
      · rename_i h; rw [if_neg h] at h2; cases h2; exact ⟨_, rfl, hw⟩

/-! ## Ends of life -/

theorem owned_rel {w w' : World α} (hw : WorldRel w w') (s : Nat) : w.owned s = w'.owned s := by
  unfold World.owned
  rw [hw.seqs]
  congr 1
  have := hw.exps
  generalize w.exps = es at *
  generalize w'.exps = es' at *
  induction this with
  | nil => rfl
  | @cons a b _ _ h1 _ ih =>
    simp only [List.any_cons, ih, h1.alive]
    congr 2
    rw [Bool.eq_iff_iff]
    simp only [Exp.holds, List.any_eq_true]
    exact ⟨fun ⟨x, h2, h3⟩ => ⟨x, h1.control.entries.mem_iff.mp h2, h3⟩, fun ⟨x, h2, h3⟩ => ⟨x, h1.control.entries.mem_iff.mpr h2, h3⟩⟩

theorem release_rel {w w' : World α} (hw : WorldRel w w') {s : Nat} {v : World α} {ev : List Event} (hr : w.release s = .ok (v, ev)) :
    ∃ v', w'.release s = .ok (v', ev) ∧ WorldRel v v' := by
  unfold World.release at hr ⊢
  rw [← owned_rel hw, ← hw.seqs]
  split
  · rename_i h; rw [if_pos h] at hr; cases hr; exact ⟨_, rfl, hw⟩
  · rename_i h
    rw [if_neg h] at hr
    simp only [bind_ok] at hr
    obtain ⟨q, h1, o, h2, h3⟩ := hr
    simp only [h1, bind, Except.bind, h2]
    rcases o with _ | ⟨k, n⟩ <;> cases h3 <;> exact ⟨_, rfl, ⟨rfl, hw.colls, hw.exps⟩⟩

theorem releaseAll_rel {w w' : World α} (hw : WorldRel w w') {ss : List Nat} {v : World α} {ev : List Event}
    (hr : w.releaseAll ss = .ok (v, ev)) : ∃ v', w'.releaseAll ss = .ok (v', ev) ∧ WorldRel v v' := by
  induction ss generalizing w w' v ev with
  | nil => cases hr; exact ⟨_, rfl, hw⟩
  | cons s ss ih =>
    unfold World.releaseAll at hr
    simp only [bind_ok] at hr
    obtain ⟨⟨w1, ev1⟩, h1, ⟨w2, ev2⟩, h2, h3⟩ := hr
    cases h3
    obtain ⟨w1', h1', hw1⟩ := release_rel hw h1
    obtain ⟨w2', h2', hw2⟩ := ih hw1 h2
    exact ⟨w2', by simp only [World.releaseAll, h1', h2', bind, Except.bind]; rfl, hw2⟩

/-- What is seen of the release of sequence `s`. -/
def endsOf (w : World α) (s : Nat) : List Event :=
  match w.release s with
  | .ok (_, ev) => ev
  | .error _ => []

/-- The world after the release of sequence `s`. -/
def after (w : World α) (s : Nat) : World α :=
  if w.owned s then w else { w with seqs := w.seqs.modify s (fun c => { c with alive := false }) }

theorem release_ok {w v : World α} {s : Nat} {ev : List Event} (hr : w.release s = .ok (v, ev)) : v = after w s ∧ ev = endsOf w s := by
  refine ⟨?_, by unfold endsOf; rw [hr]⟩
  unfold World.release at hr
  unfold after
  split
  · rename_i h; rw [if_pos h] at hr; cases hr; rfl
  · rename_i h
    rw [if_neg h] at hr
    simp only [bind_ok] at hr
    obtain ⟨q, h1, o, h2, h3⟩ := hr
    rcases o with _ | ⟨k, n⟩ <;> cases h3 <;> rfl

theorem owned_after (w : World α) (s t : Nat) : (after w s).owned t = w.owned t := by
  unfold after
  split
  · rfl
  · simp only [World.owned, List.getElem?_modify]
    congr 1
    by_cases h : s = t
    · subst h; cases w.seqs[s]? <;> simp
    · cases w.seqs[t]? <;> simp [h]

theorem release_after {w : World α} {s t : Nat} (hne : s ≠ t) :
    (after w s).release t = (w.release t).map (fun r => (after r.1 s, r.2)) := by
  unfold World.release
  rw [owned_after]
  split
  · rfl
  · rename_i ht
    have hd : (after w s).seqs.deref t = w.seqs.deref t := by
      unfold after
      split
      · rfl
      · have : (w.seqs.modify s (fun c => { c with alive := false }))[t]? = w.seqs[t]? := by simp [hne]
        unfold Seqs.deref
        simp only [this]
    rw [hd]
    cases hq : w.seqs.deref t with
    | error e => rfl
    | ok q =>
      simp only [bind, Except.bind]
      cases hdq : q.destruct with
      | error e => rfl
      | ok o =>
        have ho : ∀ f : SeqCell → SeqCell, (∀ c, (f c).handle = c.handle) →
            ({ w with seqs := w.seqs.modify t f } : World α).owned s = w.owned s := by
          intro f hf
          simp only [World.owned, List.getElem?_modify]
          congr 1
          by_cases h : t = s
          · subst h; cases w.seqs[t]? <;> simp [hf]
          · cases w.seqs[s]? <;> simp [h]
        have hw : ({ after w s with seqs := (after w s).seqs.modify t (fun c => { c with alive := false }) } : World α) =
            after { w with seqs := w.seqs.modify t (fun c => { c with alive := false }) } s := by
          unfold after
          rw [ho (fun c => { c with alive := false }) (fun _ => rfl)]
          split
          · rfl
          · simp only
            congr 1
            apply List.ext_getElem?
            intro i
            simp only [List.getElem?_modify]
            grind
        rcases o with _ | ⟨k, n⟩ <;> simp only [hw] <;> rfl

theorem endsOf_after {w : World α} {s t : Nat} (hne : s ≠ t) : endsOf (after w s) t = endsOf w t := by
  unfold endsOf
  rw [release_after hne]
  cases w.release t <;> rfl

theorem releaseAll_ok {w : World α} {ss : List Nat} (hn : ss.Nodup) {v : World α} {ev : List Event}
    (hr : w.releaseAll ss = .ok (v, ev)) : ev = ss.flatMap (endsOf w) := by
  induction ss generalizing w ev with
  | nil => cases hr; rfl
  | cons s ss ih =>
    unfold World.releaseAll at hr
    simp only [bind_ok] at hr
    obtain ⟨⟨w1, ev1⟩, h1, ⟨w2, ev2⟩, h2, h3⟩ := hr
    cases h3
    obtain ⟨rfl, rfl⟩ := release_ok h1
    simp only [List.nodup_cons] at hn
    simp only [List.flatMap_cons, ih hn.2 h2]
    congr 1
    have : ss.map (endsOf (after w s)) = ss.map (endsOf w) :=
      List.map_congr_left fun t ht => endsOf_after (fun h : s = t => hn.1 (h ▸ ht))
    rw [List.flatMap_def, List.flatMap_def, this]

theorem releaseAll_perm {w : World α} {ss ss' : List Nat} (h : ss.Perm ss') (hn : ss.Nodup) {v : World α} {ev : List Event}
    (hr : w.releaseAll ss = .ok (v, ev)) : ∃ ev', w.releaseAll ss' = .ok (v, ev') := by
  induction h generalizing w ev with
  | nil => exact ⟨_, hr⟩
  | cons s _ ih =>
    unfold World.releaseAll at hr
    simp only [bind_ok] at hr
    obtain ⟨⟨w1, ev1⟩, h1, ⟨w2, ev2⟩, h2, h3⟩ := hr
    cases h3
    obtain ⟨ev', h4⟩ := ih (by simp at hn; exact hn.2) h2
    exact ⟨_, by simp only [World.releaseAll, h1, h4, bind, Except.bind]; rfl⟩
  | swap s t l =>
    have hne : t ≠ s := by simp at hn; grind
    simp only [World.releaseAll, bind_ok] at hr
    obtain ⟨⟨w1, ev1⟩, h1, ⟨w2, ev2⟩, ⟨⟨w3, ev3⟩, h3, ⟨w4, ev4⟩, h4, h5⟩, h6⟩ := hr
    cases h5
    cases h6
    obtain ⟨rfl, rfl⟩ := release_ok h1
    simp only [release_after hne] at h3
    rcases hs : w.release s with _ | ⟨ws, evs⟩
    · rw [hs] at h3; cases h3
    · rw [hs] at h3
      cases h3
      obtain ⟨rfl, rfl⟩ := release_ok hs
      have h7 : (after w s).release t = .ok (after (after w t) s, endsOf w t) := by
        rw [release_after hne.symm, h1]; rfl
      have h8 : after (after w s) t = after (after w t) s := (release_ok h7).1.symm
      rw [h8] at h4
      exact ⟨_, by simp only [World.releaseAll, hs, h7, h4, bind, Except.bind]; rfl⟩
  | trans h1 _ ih1 ih2 =>
    obtain ⟨ev1, h3⟩ := ih1 hn hr
    exact ih2 (h1.nodup_iff.mp hn) h3

theorem endsOf_end (w : World α) (s : Nat) : ∀ x ∈ endsOf w s, EndOf s x := by
  intro x hx
  unfold endsOf at hx
  rcases hr : w.release s with _ | ⟨v, ev⟩
  · rw [hr] at hx; simp at hx
  · rw [hr] at hx
    simp only at hx
    unfold World.release at hr
    split at hr
    · cases hr; simp at hx
    · simp only [bind_ok] at hr
      obtain ⟨q, h1, o, h2, h3⟩ := hr
      rcases o with _ | ⟨k, n⟩ <;> cases h3 <;> simp at hx
      · exact .inl hx
      · rcases hx with hx | hx
        · exact .inr ⟨k, n, hx⟩
        · exact .inl hx

theorem satisfied_rel {x x' : Exp α} (h : ExpRel x x') : x.isSatisfied = x'.isSatisfied := by
  unfold Exp.isSatisfied Control.isSatisfied
  rw [h.policies, h.control.min, h.control.max, h.control.count]

theorem destroy_perm {w w' : World α} (hw : WorldRel w w') {e : Nat} {v : World α} {ev : List Event}
    (hr : w.destroyExp e = .ok (v, ev)) :
    ∃ v' ev', w'.destroyExp e = .ok (v', ev') ∧ WorldRel v v' ∧ SameEvents (α := α) (.destroy e) ev ev' := by
  unfold World.destroyExp at hr ⊢
  rcases all2_get hw.exps e with ⟨h1, _⟩ | ⟨x, x', h1, h2, hx⟩
  · rw [h1] at hr; cases hr
  · rw [h1] at hr
    simp only [h2, ← hx.alive, ← hx.coll, ← hw.colls] at hr ⊢
    split at hr
    · cases hr
    · rename_i h
      rcases hc : w.colls[x.coll]? with _ | es
      · rw [hc] at hr; cases hr
      · rw [hc] at hr
        simp only [bind_ok] at hr
        obtain ⟨u, h3, ⟨w2, ev2⟩, h4, h5⟩ := hr
        cases h5
        have hrel : WorldRel { w with colls := w.colls.set x.coll (es.erase e), exps := w.exps.set e { x with alive := false } }
            { w' with colls := w.colls.set x.coll (es.erase e), exps := w'.exps.set e { x' with alive := false } } :=
          ⟨hw.seqs, rfl, all2_set hw.exps _ ⟨hx.coll, rfl, hx.policies, hx.control⟩⟩
        have hp := hx.control.entries.map (·.1)
        obtain ⟨ev3, h6⟩ := releaseAll_perm hp hx.control.nodup h4
        obtain ⟨v', h7, hv⟩ := releaseAll_rel hrel h6
        refine ⟨v', .destroyed e :: (if x.isSatisfied then [] else [Event.unfulfilled e]) ++ ev3, ?_, hv, ?_⟩
        · simp only [h, h3, bind, Except.bind, ← satisfied_rel hx, hx.coll] at h7 ⊢
          rw [hx.coll] at *
          simp only [h7]
          rfl
        · rw [releaseAll_ok hx.control.nodup h4, releaseAll_ok (hp.nodup_iff.mp hx.control.nodup) h6]
          exact .destroy e _ _ hp (endsOf_end _)

/-! ## Whole histories -/

theorem step_perm {w w' : World α} (hw : WorldRel w w') {op op' : Op α} (ho : SameOp op op') {v : World α} {ev : List Event}
    (hr : w.step op = .ok (v, ev)) : ∃ v' ev', w'.step op' = .ok (v', ev') ∧ WorldRel v v' ∧ SameEvents op ev ev' := by
  have hexpect : ∀ m min max ps {tags tags' : List Nat}, tags.Perm tags' → w.expect m min max tags ps = .ok (v, ev) →
      ∃ v' ev', w'.expect m min max tags' ps = .ok (v', ev') ∧ WorldRel v v' ∧
        SameEvents (.expect m min max tags ps) ev ev' := by
    intro m min max ps tags tags' hp hr
    unfold World.expect at hr ⊢
    rw [← hw.colls]
    rcases hc : w.colls[m]? with _ | es
    · rw [hc] at hr; cases hr
    · rw [hc] at hr
      have hh : tags.all w.hasHandle = tags'.all w'.hasHandle := by
        rw [Bool.eq_iff_iff]
        simp only [List.all_eq_true, World.hasHandle, hw.seqs]
        exact ⟨fun h x hx => h x (hp.mem_iff.mpr hx), fun h x hx => h x (hp.mem_iff.mp hx)⟩
      simp only [← hh, seqConfig_eq, ← hp.nodup_iff] at hr ⊢
      split at hr
      · rename_i h
        rw [if_pos h]
        by_cases hn : tags.Nodup
        · simp only [if_pos hn] at hr ⊢
          rcases ht : TimesConfig.make min max with _ | t <;> simp only [ht] at hr
          · cases hr; exact ⟨_, _, rfl, hw, .same _ _⟩
          · simp only [bind_ok] at hr
            obtain ⟨⟨g, c⟩, h1, u, h2, h3⟩ := hr
            cases h3
            obtain ⟨c', h4, hcr⟩ := make_perm hp hn h1
            rw [hw.seqs] at h4
            have hlen := all2_length hw.exps
            simp only [h4, bind, Except.bind, ← hlen, h2]
            exact ⟨_, _, rfl, ⟨rfl, rfl, hw.exps.append (.cons ⟨rfl, rfl, rfl, hcr⟩ .nil)⟩, .same _ _⟩
        · simp only [if_neg hn] at hr ⊢
          cases ht : TimesConfig.make min max <;> simp only [ht] at hr <;> cases hr <;> exact ⟨_, _, rfl, hw, .same _ _⟩
      · cases hr
  cases ho with
  | expect m min max ps hp => exact hexpect m min max ps hp hr
  | same =>
    cases op with
    | newSequence st =>
      cases hr
      refine ⟨_, _, rfl, ⟨by simp [hw.seqs], hw.colls, hw.exps⟩, ?_⟩
      rw [hw.seqs]
      exact .same _ _
    | dropSequence s =>
      unfold World.step at hr ⊢
      have hh : w'.hasHandle s = w.hasHandle s := by unfold World.hasHandle; rw [hw.seqs]
      simp only [hh, ← hw.seqs] at hr ⊢
      by_cases h : w.hasHandle s = true
      · rw [if_pos h] at hr
        have h' : WorldRel { w with seqs := w.seqs.modify s (fun c => { c with handle := false }) }
            { w' with seqs := w.seqs.modify s (fun c => { c with handle := false }) } := ⟨rfl, hw.colls, hw.exps⟩
        obtain ⟨v', h1, h2⟩ := release_rel h' hr
        exact ⟨v', ev, by rw [if_pos h]; exact h1, h2, .same _ _⟩
      · rw [if_neg h] at hr; cases hr
    | newMock =>
      cases hr
      refine ⟨_, _, rfl, ⟨hw.seqs, by simp [hw.colls], hw.exps⟩, ?_⟩
      rw [hw.colls]
      exact .same _ _
    | expect m min max tags ps => exact hexpect m min max ps (.refl _) hr
    | call m a =>
      unfold World.step at hr ⊢
      rw [bind_ok] at hr
      obtain ⟨⟨v1, ev1, o⟩, h1, h2⟩ := hr
      cases h2
      obtain ⟨v', h3, h4⟩ := handleCall_perm hw h1
      exact ⟨v', ev, by simp only [h3, bind, Except.bind]; rfl, h4, .same _ _⟩
    | destroy e => exact destroy_perm hw hr

theorem SameOp.symm {op op' : Op α} (h : SameOp op op') : SameOp op' op := by
  cases h with
  | same => exact .same _
  | expect m min max ps hp => exact .expect m min max ps hp.symm

theorem SameEvents.symm {op : Op α} {ev ev' : List Event} (h : SameEvents op ev ev') : SameEvents op ev' ev := by
  cases h with
  | same => exact .same _ _
  | destroy e head ends hp he => exact .destroy e head ends hp.symm he

end Mimic.Reorder
