import Verif.Spec.Exchange
import Verif.Proofs.SpecRun
import Verif.Props.SequenceEnd

/-! # Sequences that are used again: lemmas -/

set_option autoImplicit false

namespace Mimic.Exchange

variable {α : Type}

/-- An expectation with the other sequences, if it is one of the part (its number is at least `n`). -/
def ren (n : Nat) (f : Nat → Nat) (x : Spec.Exp α) : Spec.Exp α := if x.id < n then x else { x with seqs := x.seqs.map f }

@[simp] theorem ren_id (n : Nat) (f : Nat → Nat) (x : Spec.Exp α) : (ren n f x).id = x.id := by unfold ren; split <;> rfl
@[simp] theorem ren_mock (n : Nat) (f : Nat → Nat) (x : Spec.Exp α) : (ren n f x).mock = x.mock := by unfold ren; split <;> rfl
@[simp] theorem ren_min (n : Nat) (f : Nat → Nat) (x : Spec.Exp α) : (ren n f x).min = x.min := by unfold ren; split <;> rfl
@[simp] theorem ren_max (n : Nat) (f : Nat → Nat) (x : Spec.Exp α) : (ren n f x).max = x.max := by unfold ren; split <;> rfl
@[simp] theorem ren_count (n : Nat) (f : Nat → Nat) (x : Spec.Exp α) : (ren n f x).count = x.count := by unfold ren; split <;> rfl
@[simp] theorem ren_alive (n : Nat) (f : Nat → Nat) (x : Spec.Exp α) : (ren n f x).alive = x.alive := by unfold ren; split <;> rfl
@[simp] theorem ren_policies (n : Nat) (f : Nat → Nat) (x : Spec.Exp α) : (ren n f x).policies = x.policies := by unfold ren; split <;> rfl
@[simp] theorem ren_throws (n : Nat) (f : Nat → Nat) (x : Spec.Exp α) (a : α) : (ren n f x).throws a = x.throws a := by
  simp [Spec.Exp.throws]
@[simp] theorem ren_accepts (n : Nat) (f : Nat → Nat) (x : Spec.Exp α) (a : α) : (ren n f x).accepts a = x.accepts a := by
  simp [Spec.Exp.accepts]
@[simp] theorem ren_unfulfilled (n : Nat) (f : Nat → Nat) (x : Spec.Exp α) : (ren n f x).unfulfilled = x.unfulfilled := by
  simp [Spec.Exp.unfulfilled]

theorem ren_old {n : Nat} {f : Nat → Nat} {x : Spec.Exp α} (h : x.id < n) : ren n f x = x := by simp [ren, h]
theorem ren_new {n : Nat} {f : Nat → Nat} {x : Spec.Exp α} (h : ¬ x.id < n) : (ren n f x).seqs = x.seqs.map f := by simp [ren, h]

/-- The part with the other sequences is in state `S'` when the part is in state `S`. -/
structure Rel (n : Nat) (f p : Nat → Nat) (S S' : Spec.State α) : Prop where
  inj : ∀ t u, f t = f u → t = u
  mocks : S'.mocks = S.mocks
  exps : S'.exps = S.exps.map (ren n f)
  length : S'.seqs.length = S.seqs.length
  seqs : ∀ t : Nat, S'.seqs[f t]? = S.seqs[t]?
  fixed : ∀ t, S.seqs.length ≤ t → f t = t
  le : n ≤ S.exps.length
  ids : ∀ (i : Nat) x, S.exps[i]? = some x → x.id = i
  settled : ∀ x ∈ S.exps, x.id < n → ∀ t ∈ x.seqs, f t ≠ t → x.alive = false ∧ x.min ≤ (x.count : Int)
  past : ∀ t, ((S.exps.take n).filter (fun x => x.seqs.contains t)).length = p t

variable {n : Nat} {f p : Nat → Nat} {S S' : Spec.State α}

theorem Rel.moved (h : Rel n f p S S') {t : Nat} (ht : f t ≠ t) : f (f t) ≠ f t := fun hh => ht (h.inj _ _ hh)

theorem contains_map (h : Rel n f p S S') (l : List Nat) (t : Nat) : (l.map f).contains (f t) = l.contains t := by
  rw [Bool.eq_iff_iff]
  simp only [List.contains_iff_mem, List.mem_map]
  constructor
  · rintro ⟨u, hu, hf⟩
    rw [← h.inj _ _ hf]; exact hu
  · exact fun hm => ⟨t, hm, rfl⟩

/-- Expectations which are alive are attached to the corresponding sequences. -/
theorem Rel.contains (h : Rel n f p S S') {x : Spec.Exp α} (hx : x ∈ S.exps) (t : Nat) (ha : x.alive = true ∨ ¬ x.id < n ∨ f t = t) :
    (ren n f x).seqs.contains (f t) = x.seqs.contains t := by
  by_cases hn : x.id < n
  · rw [ren_old hn]
    by_cases ht : f t = t
    · rw [ht]
    · rcases ha with ha | ha | ha
      · have h1 : t ∉ x.seqs := fun hm => by have := (h.settled x hx hn t hm ht).1; rw [ha] at this; cases this
        have h2 : f t ∉ x.seqs := fun hm => by have := (h.settled x hx hn _ hm (h.moved ht)).1; rw [ha] at this; cases this
        simp [h1, h2]
      · exact absurd hn ha
      · exact absurd ha ht
  · rw [ren_new hn]; exact contains_map h _ t

/-- Sequences of an expectation that is alive. -/
theorem Rel.seqsOf (h : Rel n f p S S') {x : Spec.Exp α} (hx : x ∈ S.exps) (ha : x.alive = true) :
    (ren n f x).seqs = x.seqs.map f := by
  by_cases hn : x.id < n
  · rw [ren_old hn]
    have : x.seqs.map f = x.seqs.map id := List.map_congr_left fun t ht => by
      by_cases hf : f t = t
      · exact hf
      · have := (h.settled x hx hn t ht hf).1; rw [ha] at this; cases this
    rw [this, List.map_id]
  · exact ren_new hn

theorem Rel.applicable (h : Rel n f p S S') {x : Spec.Exp α} (hx : x ∈ S.exps) (ha : x.alive = true) :
    S'.applicable (ren n f x) = S.applicable x := by
  unfold Spec.State.applicable
  rw [h.seqsOf hx ha, ren_count, ren_max, List.all_map]
  congr 1
  rw [Bool.eq_iff_iff]
  simp only [List.all_eq_true, Function.comp_apply, Spec.State.attached, h.exps, List.mem_filter, List.mem_map, ren_id]
  have key : ∀ t ∈ x.seqs, ∀ y ∈ S.exps, ¬ ((ren n f y).seqs.contains (f t) = y.seqs.contains t) →
      y.id < x.id ∧ y.min ≤ (y.count : Int) := by
    intro t ht y hy hne
    have hf : f t ≠ t := fun hf => hne (h.contains hy t (.inr (.inr hf)))
    have hyn : y.id < n := Classical.byContradiction fun hn => hne (h.contains hy t (.inr (.inl hn)))
    have hxn : ¬ x.id < n := fun hn => by
      have := (h.settled x hx hn t ht hf).1; rw [ha] at this; cases this
    refine ⟨by omega, ?_⟩
    rw [ren_old hyn] at hne
    by_cases h1 : t ∈ y.seqs
    · exact (h.settled y hy hyn t h1 hf).2
    · by_cases h2 : f t ∈ y.seqs
      · exact (h.settled y hy hyn _ h2 (h.moved hf)).2
      · simp [h1, h2] at hne
  constructor
  · intro hall t ht y ⟨hy, hc⟩
    by_cases hcc : (ren n f y).seqs.contains (f t) = y.seqs.contains t
    · have := hall t ht (ren n f y) ⟨⟨y, hy, rfl⟩, by rw [hcc]; exact hc⟩
      simpa using this
    · obtain ⟨h1, h2⟩ := key t ht y hy hcc
      have : ¬ x.id < y.id := by omega
      simp [h2, this]
  · rintro hall t ht _ ⟨⟨y, hy, rfl⟩, hc⟩
    simp only [ren_id, ren_min, ren_count]
    by_cases hcc : (ren n f y).seqs.contains (f t) = y.seqs.contains t
    · exact hall t ht y ⟨hy, by rw [← hcc]; exact hc⟩
    · obtain ⟨h1, h2⟩ := key t ht y hy hcc
      have : ¬ x.id < y.id := by omega
      simp [h2, this]

theorem Rel.kindCount (h : Rel n f p S S') {x : Spec.Exp α} (hx : x ∈ S.exps) (ha : x.alive = true) (st : Strategy) :
    S'.kindCount (ren n f x) st = S.kindCount x st := by
  unfold Spec.State.kindCount
  rw [h.seqsOf hx ha, List.filter_map, List.length_map]
  congr 1
  apply List.filter_congr
  intro t _
  simp only [Function.comp_apply, h.seqs]

theorem Rel.displaces (h : Rel n f p S S') {x y : Spec.Exp α} (hx : x ∈ S.exps) (hax : x.alive = true) (hy : y ∈ S.exps)
    (hay : y.alive = true) : S'.displaces (ren n f y) (ren n f x) = S.displaces y x := by
  unfold Spec.State.displaces
  rw [h.kindCount hx hax, h.kindCount hx hax, h.seqsOf hx hax, List.all_map]
  congr 1
  rw [Bool.eq_iff_iff]
  simp only [List.all_eq_true, Function.comp_apply, h.contains hy _ (.inl hay)]

theorem Rel.select (h : Rel n f p S S') (l : List (Spec.Exp α)) : ∀ {x : Spec.Exp α}, x ∈ S.exps → x.alive = true →
    (∀ y ∈ l, y ∈ S.exps ∧ y.alive = true) → S'.select (ren n f x) (l.map (ren n f)) = ren n f (S.select x l) := by
  induction l with
  | nil => intro x _ _ _; rfl
  | cons y l ih =>
    intro x hx hax hl
    obtain ⟨hy, hay⟩ := hl y (by simp)
    simp only [List.map_cons, Spec.State.select, h.displaces hx hax hy hay]
    split
    · exact ih hy hay (fun z hz => hl z (by simp [hz]))
    · exact ih hx hax (fun z hz => hl z (by simp [hz]))

theorem Rel.candidates (h : Rel n f p S S') (m : Nat) : S'.candidates m = (S.candidates m).map (ren n f) := by
  unfold Spec.State.candidates
  rw [h.exps, List.filter_map, List.map_reverse]
  congr 3
  funext x
  simp

theorem candidates_mem {m : Nat} {x : Spec.Exp α} (hx : x ∈ S.candidates m) : x ∈ S.exps ∧ x.alive = true := by
  simp only [Spec.State.candidates, List.mem_reverse, List.mem_filter, Bool.and_eq_true] at hx
  exact ⟨hx.1, hx.2.1⟩

theorem filter_ren (l : List (Spec.Exp α)) (P Q : Spec.Exp α → Bool) (h : ∀ x ∈ l, P (ren n f x) = Q x) :
    (l.map (ren n f)).filter P = (l.filter Q).map (ren n f) := by
  rw [List.filter_map]
  congr 1
  exact List.filter_congr h

/-- What is said about expectations only is the same. -/
theorem event_quiet {ev : Event} (h : aboutSequence ev = false) : event f p ev = ev := by
  cases ev <;> simp_all [aboutSequence, event]

theorem map_quiet {l : List Event} (h : ∀ ev ∈ l, aboutSequence ev = false) : l.map (event f p) = l := by
  have : l.map (event f p) = l.map id := List.map_congr_left fun ev he => event_quiet (h ev he)
  rw [this, List.map_id]

theorem Rel.mapExps (h : Rel n f p S S') (g : Spec.Exp α → Spec.Exp α) (hid : ∀ x, (g x).id = x.id) (hseqs : ∀ x, (g x).seqs = x.seqs)
    (hmin : ∀ x, (g x).min = x.min) (hcount : ∀ x, x.count ≤ (g x).count) (halive : ∀ x, x.alive = false → (g x).alive = false)
    (hcomm : ∀ x, g (ren n f x) = ren n f (g x)) :
    Rel n f p { S with exps := S.exps.map g } { S' with exps := S'.exps.map g } where
  inj := h.inj
  mocks := h.mocks
  exps := by
    show S'.exps.map g = (S.exps.map g).map (ren n f)
    rw [h.exps, List.map_map, List.map_map]
    exact List.map_congr_left fun x _ => hcomm x
  length := h.length
  seqs := h.seqs
  fixed := h.fixed
  le := by simpa using h.le
  ids := by
    intro i x hx
    simp only [List.getElem?_map, Option.map_eq_some_iff] at hx
    obtain ⟨y, hy, rfl⟩ := hx
    rw [hid]; exact h.ids i y hy
  settled := by
    intro x hx hn t ht hf
    obtain ⟨y, hy, rfl⟩ := List.mem_map.mp hx
    rw [hid] at hn
    rw [hseqs] at ht
    obtain ⟨h1, h2⟩ := h.settled y hy hn t ht hf
    refine ⟨halive y h1, ?_⟩
    rw [hmin]
    have := hcount y
    omega
  past := by
    intro t
    rw [← h.past t, ← List.map_take, List.filter_map, List.length_map]
    congr 2
    funext x
    simp [hseqs]

theorem Rel.countMatch (h : Rel n f p S S') (e : Nat) : Rel n f p (S.countMatch e) (S'.countMatch e) := by
  refine h.mapExps (fun x => if x.id = e then { x with count := x.count + 1 } else x) ?_ ?_ ?_ ?_ ?_ ?_ <;> intro x
  · split <;> rfl
  · split <;> rfl
  · split <;> rfl
  · split <;> simp
  · split <;> exact id
  · unfold ren; by_cases h1 : x.id < n <;> by_cases h2 : x.id = e <;> simp [h1, h2]
    all_goals (subst h2; simp [h1])

theorem Rel.withdraw (h : Rel n f p S S') (e : Nat) : Rel n f p (S.withdraw e) (S'.withdraw e) := by
  refine h.mapExps (fun x => if x.id = e then { x with alive := false } else x) ?_ ?_ ?_ ?_ ?_ ?_ <;> intro x
  · split <;> rfl
  · split <;> rfl
  · split <;> rfl
  · split <;> simp
  · split
    · simp
    · exact id
  · unfold ren; by_cases h1 : x.id < n <;> by_cases h2 : x.id = e <;> simp [h1, h2]
    all_goals (subst h2; simp [h1])

theorem call_quiet (m : Nat) (a : α) : ∀ ev ∈ (S.call m a).2.1, aboutSequence ev = false := by
  unfold Spec.State.call
  dsimp only
  intro ev
  split
  · simp only [List.mem_append, List.mem_map, List.mem_singleton]
    rintro (⟨x, -, rfl⟩ | rfl) <;> rfl
  · split
    · simp only [List.mem_append, List.mem_map, List.mem_singleton]
      rintro (⟨x, -, rfl⟩ | rfl) <;> rfl
    · simp only [List.mem_append, List.mem_map, List.mem_singleton]
      rintro (⟨x, -, rfl⟩ | rfl) <;> rfl

theorem Rel.call (h : Rel n f p S S') (m : Nat) (a : α) :
    (S'.call m a).2.1 = (S.call m a).2.1 ∧ Rel n f p (S.call m a).1 (S'.call m a).1 := by
  have hids : ∀ l : List (Spec.Exp α), (l.map (ren n f)).map (·.id) = l.map (·.id) := fun l => by
    rw [List.map_map]; exact List.map_congr_left fun x _ => ren_id n f x
  have hun : ∀ l : List (Spec.Exp α), (l.map (ren n f)).map (fun x => Event.unhandled x.id) = l.map (fun x => Event.unhandled x.id) :=
    fun l => by rw [List.map_map]; exact List.map_congr_left fun x _ => by simp
  have e1 : (S'.candidates m).filter (·.throws a) = ((S.candidates m).filter (·.throws a)).map (ren n f) := by
    rw [h.candidates]; exact filter_ren _ _ _ fun x _ => by simp
  have e2 : (S'.candidates m).filter (·.accepts a) = ((S.candidates m).filter (·.accepts a)).map (ren n f) := by
    rw [h.candidates]; exact filter_ren _ _ _ fun x _ => by simp
  have e3 : (S'.candidates m).filter (fun x => !x.throws a) = ((S.candidates m).filter (fun x => !x.throws a)).map (ren n f) := by
    rw [h.candidates]; exact filter_ren _ _ _ fun x _ => by simp
  have e4 : ((S'.candidates m).filter (·.accepts a)).filter S'.applicable =
      (((S.candidates m).filter (·.accepts a)).filter S.applicable).map (ren n f) := by
    rw [e2]
    refine filter_ren _ _ _ fun x hx => ?_
    obtain ⟨h1, h2⟩ := candidates_mem (List.mem_filter.mp hx).1
    exact h.applicable h1 h2
  have hmem : ∀ x ∈ ((S.candidates m).filter (·.accepts a)).filter S.applicable, x ∈ S.exps ∧ x.alive = true := fun x hx =>
    candidates_mem (List.mem_filter.mp (List.mem_filter.mp hx).1).1
  unfold Spec.State.call
  dsimp only
  rw [e4, e1, e2, e3, hun, hids, hids]
  generalize ((S.candidates m).filter (·.accepts a)).filter S.applicable = l at hmem
  cases l with
  | nil =>
    simp only [List.map_nil, List.isEmpty_map]
    split
    · exact ⟨rfl, h⟩
    · exact ⟨rfl, h⟩
  | cons x older =>
    obtain ⟨hx, hax⟩ := hmem x (by simp)
    simp only [List.map_cons]
    rw [h.select older hx hax (fun y hy => hmem y (by simp [hy])), ren_id]
    exact ⟨rfl, h.countMatch _⟩

theorem Rel.hasHandle (h : Rel n f p S S') (t : Nat) : S'.hasHandle (f t) = S.hasHandle t := by
  simp [Spec.State.hasHandle, h.seqs]

theorem Rel.owned (h : Rel n f p S S') (t : Nat) : S'.owned (f t) = S.owned t := by
  unfold Spec.State.owned
  rw [h.seqs, h.exps, List.any_map]
  congr 1
  rw [Bool.eq_iff_iff]
  simp only [List.any_eq_true, Function.comp_apply, ren_alive, Bool.and_eq_true]
  constructor
  · rintro ⟨x, hx, h1, h2⟩
    exact ⟨x, hx, h1, by rw [← h.contains hx t (.inl h1)]; exact h2⟩
  · rintro ⟨x, hx, h1, h2⟩
    exact ⟨x, hx, h1, by rw [h.contains hx t (.inl h1)]; exact h2⟩

theorem Rel.take_ids (h : Rel n f p S S') {x : Spec.Exp α} (hx : x ∈ S.exps.take n) : x ∈ S.exps ∧ x.id < n := by
  obtain ⟨i, hi, rfl⟩ := List.mem_iff_getElem.mp hx
  rw [List.length_take] at hi
  have hl : i < S.exps.length := by omega
  rw [List.getElem_take]
  refine ⟨List.getElem_mem hl, ?_⟩
  rw [h.ids i _ (List.getElem?_eq_getElem hl)]; omega

theorem Rel.drop_ids (h : Rel n f p S S') {x : Spec.Exp α} (hx : x ∈ S.exps.drop n) : x ∈ S.exps ∧ ¬ x.id < n := by
  obtain ⟨i, hi, rfl⟩ := List.mem_iff_getElem.mp hx
  rw [List.length_drop] at hi
  have hl : n + i < S.exps.length := by omega
  rw [List.getElem_drop]
  refine ⟨List.getElem_mem hl, ?_⟩
  rw [h.ids (n + i) _ (List.getElem?_eq_getElem hl)]; omega

theorem attached_split (n : Nat) (S : Spec.State α) (t : Nat) : S.attached t =
    (S.exps.take n).filter (fun x => x.seqs.contains t) ++ (S.exps.drop n).filter (fun x => x.seqs.contains t) := by
  rw [← List.filter_append, List.take_append_drop]; rfl

theorem Rel.attached (h : Rel n f p S S') (t : Nat) : S'.attached (f t) =
    (S.exps.take n).filter (fun x => x.seqs.contains (f t)) ++
      ((S.exps.drop n).filter (fun x => x.seqs.contains t)).map (ren n f) := by
  rw [attached_split n, h.exps, ← List.map_take, ← List.map_drop]
  congr 1
  · have : (S.exps.take n).map (ren n f) = (S.exps.take n).map id :=
      List.map_congr_left fun x hx => ren_old (h.take_ids hx).2
    rw [this, List.map_id]
  · exact filter_ren _ _ _ fun x hx => h.contains (h.drop_ids hx).1 t (.inr (.inl (h.drop_ids hx).2))

theorem Rel.past_fulfilled (h : Rel n f p S S') {t : Nat} (ht : f t ≠ t) :
    ((S.exps.take n).filter (fun x => x.seqs.contains t)).findIdx? (·.unfulfilled) = none := by
  rw [List.findIdx?_eq_none_iff]
  intro x hx
  obtain ⟨h1, h2⟩ := List.mem_filter.mp hx
  have := (h.settled x (h.take_ids h1).1 (h.take_ids h1).2 t (by simpa using h2) ht).2
  simp only [Spec.Exp.unfulfilled, decide_eq_false_iff_not]
  omega

theorem findIdx_ren (l : List (Spec.Exp α)) : (l.map (ren n f)).findIdx? (·.unfulfilled) = l.findIdx? (·.unfulfilled) := by
  rw [List.findIdx?_map]
  congr 1
  funext x
  simp

theorem Rel.sequenceEnd (h : Rel n f p S S') (t : Nat) : S'.sequenceEnd (f t) = (S.sequenceEnd t).map (event f p) := by
  unfold Spec.State.sequenceEnd
  rw [List.map_append]
  congr 1
  rw [h.attached, attached_split n S t, List.findIdx?_append, List.findIdx?_append, findIdx_ren]
  simp only [List.length_append, List.length_map, h.past]
  by_cases ht : f t = t
  · rw [ht]
    split
    · rename_i k hk
      simp only [List.map_cons, List.map_nil, event, ht]
      congr 2 <;> omega
    · rfl
  · rw [h.past_fulfilled ht, h.past_fulfilled (h.moved ht)]
    cases hk : ((S.exps.drop n).filter (fun x => x.seqs.contains t)).findIdx? (·.unfulfilled) with
    | none => rfl
    | some k =>
      simp only [Option.map_some, Option.none_or, List.map_cons, List.map_nil, event]
      congr 2 <;> omega

theorem Rel.release (h : Rel n f p S S') (ss : List Nat) : S'.release (ss.map f) = (S.release ss).map (event f p) := by
  unfold Spec.State.release
  rw [List.flatMap_map, List.map_flatMap]
  congr 1
  funext t
  rw [h.owned, h.sequenceEnd]
  split <;> rfl

/-- The states after corresponding steps correspond. -/
def Follows (n : Nat) (f p : Nat → Nat) (r r' : Option (Spec.State α × List Event)) : Prop :=
  (r = none ∧ r' = none) ∨ ∃ T T' ev, r = some (T, ev) ∧ r' = some (T', ev.map (event f p)) ∧ Rel n f p T T'

theorem Rel.newSequence (h : Rel n f p S S') (st : Strategy) :
    Rel n f p { S with seqs := S.seqs ++ [{ strategy := st, handle := true }] }
      { S' with seqs := S'.seqs ++ [{ strategy := st, handle := true }] } where
  inj := h.inj
  mocks := h.mocks
  exps := h.exps
  length := by simp [h.length]
  seqs := by
    intro t
    dsimp only
    rcases Nat.lt_or_ge t S.seqs.length with hl | hl
    · have h1 := h.seqs t
      rw [List.getElem?_eq_getElem hl] at h1
      obtain ⟨h2, -⟩ := List.getElem?_eq_some_iff.mp h1
      rw [List.getElem?_append_left h2, List.getElem?_append_left hl]
      exact h.seqs t
    · rw [h.fixed t hl, List.getElem?_append_right hl, List.getElem?_append_right (by rw [h.length]; exact hl), h.length]
  fixed := fun t ht => h.fixed t (by simp at ht; omega)
  le := h.le
  ids := h.ids
  settled := h.settled
  past := h.past

theorem Rel.dropSequence (h : Rel n f p S S') (s : Nat) :
    Rel n f p { S with seqs := S.seqs.modify s (fun q => { q with handle := false }) }
      { S' with seqs := S'.seqs.modify (f s) (fun q => { q with handle := false }) } where
  inj := h.inj
  mocks := h.mocks
  exps := h.exps
  length := by simp [h.length]
  seqs := by
    intro t
    simp only [List.getElem?_modify, h.seqs]
    by_cases hst : s = t
    · simp [hst]
    · have : f s ≠ f t := fun hh => hst (h.inj _ _ hh)
      simp [hst, this]
  fixed := fun t ht => h.fixed t (by simpa using ht)
  le := h.le
  ids := h.ids
  settled := h.settled
  past := h.past

theorem Rel.newMock (h : Rel n f p S S') : Rel n f p { S with mocks := S.mocks + 1 } { S' with mocks := S'.mocks + 1 } where
  inj := h.inj
  mocks := by simp [h.mocks]
  exps := h.exps
  length := h.length
  seqs := h.seqs
  fixed := h.fixed
  le := h.le
  ids := h.ids
  settled := h.settled
  past := h.past

theorem Rel.expect (h : Rel n f p S S') (x : Spec.Exp α) (hx : x.id = S.exps.length) :
    Rel n f p { S with exps := S.exps ++ [x] } { S' with exps := S'.exps ++ [{ x with seqs := x.seqs.map f }] } where
  inj := h.inj
  mocks := h.mocks
  exps := by
    have hn : ¬ x.id < n := by have := h.le; omega
    simp [h.exps, ren, hn]
  length := h.length
  seqs := h.seqs
  fixed := h.fixed
  le := by have := h.le; simp; omega
  ids := by
    intro i y hy
    rcases Nat.lt_or_ge i S.exps.length with hl | hl
    · rw [List.getElem?_append_left hl] at hy
      exact h.ids i y hy
    · rw [List.getElem?_append_right hl] at hy
      have h0 : i - S.exps.length = 0 := by
        obtain ⟨h1, -⟩ := List.getElem?_eq_some_iff.mp hy
        simp at h1; omega
      rw [h0] at hy
      simp only [List.getElem?_cons_zero, Option.some.injEq] at hy
      subst hy
      omega
  settled := by
    intro y hy hn
    rcases List.mem_append.mp hy with hy | hy
    · exact h.settled y hy hn
    · rw [List.mem_singleton] at hy
      subst hy
      have := h.le; omega
  past := by
    intro t
    rw [List.take_append_of_le_length h.le]
    exact h.past t

theorem Rel.nodup (h : Rel n f p S S') (l : List Nat) : (l.map f).Nodup ↔ l.Nodup := by
  unfold List.Nodup
  rw [List.pairwise_map]
  constructor
  · exact fun hp => hp.imp fun hne he => hne (by rw [he])
  · exact fun hp => hp.imp fun hne he => hne (h.inj _ _ he)

theorem Rel.find (h : Rel n f p S S') (e : Nat) :
    S'.exps.find? (fun x => x.id == e && x.alive) = (S.exps.find? (fun x => x.id == e && x.alive)).map (ren n f) := by
  rw [h.exps, List.find?_map]
  congr 2
  funext x
  simp

theorem Rel.step (h : Rel n f p S S') (o : Op α) : Follows n f p (S.step o) (S'.step (op f o)) := by
  cases o with
  | newSequence st =>
    refine .inr ⟨_, _, _, rfl, ?_, h.newSequence st⟩
    simp [op, Spec.State.step, event, h.length, h.fixed S.seqs.length (Nat.le_refl _)]
  | newMock =>
    refine .inr ⟨_, _, _, rfl, ?_, h.newMock⟩
    simp [op, Spec.State.step, event, h.mocks]
  | dropSequence s =>
    simp only [op, Spec.State.step, h.hasHandle]
    cases S.hasHandle s with
    | false => exact .inl ⟨rfl, rfl⟩
    | true =>
      refine .inr ⟨_, _, _, rfl, ?_, h.dropSequence s⟩
      have := (h.dropSequence s).release [s]
      simp only [List.map_cons, List.map_nil] at this
      simp [this]
  | call m a =>
    simp only [op, Spec.State.step, h.mocks]
    by_cases hm : m < S.mocks
    · simp only [hm, if_true]
      refine .inr ⟨_, _, _, rfl, ?_, (h.call m a).2⟩
      rw [map_quiet (call_quiet m a), (h.call m a).1]
    · simp only [hm, if_false]; exact .inl ⟨rfl, rfl⟩
  | expect m min max tags ps =>
    have ht : (tags.map f).all S'.hasHandle = tags.all S.hasHandle := by
      rw [List.all_map]; congr 1; funext t; exact h.hasHandle t
    have hl : S'.exps.length = S.exps.length := by simp [h.exps]
    simp only [op, Spec.State.step, h.mocks, ht, h.nodup, hl]
    by_cases hc : m < S.mocks ∧ tags.all S.hasHandle = true ∧ isInt min ∧ isInt max
    · simp only [hc, and_self, if_true]
      by_cases hv : Spec.validTimes min max ∧ tags.Nodup
      · simp only [hv, and_self, if_true]
        have he := h.expect { id := S.exps.length, mock := m, min := min, max := max, seqs := tags, policies := ps, count := 0, alive := true } rfl
        simp only [h.mocks] at he
        exact .inr ⟨_, _, _, rfl, rfl, he⟩
      · rw [if_neg hv, if_neg hv]
        exact .inr ⟨_, _, _, rfl, rfl, h⟩
    · rw [if_neg hc, if_neg hc]; exact .inl ⟨rfl, rfl⟩
  | destroy e =>
    simp only [op, Spec.State.step, h.find]
    cases hf : S.exps.find? (fun x => x.id == e && x.alive) with
    | none => exact .inl ⟨rfl, rfl⟩
    | some x =>
      have hx := List.mem_of_find?_eq_some hf
      have ha : x.alive = true := by have := List.find?_some hf; simp at this; exact this.2
      refine .inr ⟨_, _, _, rfl, ?_, h.withdraw e⟩
      simp only [Option.map_some, ren_unfulfilled, ren_policies, h.seqsOf hx ha, (h.withdraw e).release]
      congr 2
      simp only [List.map_append, List.map_cons, event]
      congr 2
      split <;> rfl

theorem Rel.run (h : Rel n f p S S') (ops : List (Op α)) : Follows n f p (S.run ops) (S'.run (ops.map (op f))) := by
  induction ops generalizing S S' with
  | nil => exact .inr ⟨_, _, _, rfl, rfl, h⟩
  | cons o ops ih =>
    simp only [List.map_cons, Spec.State.run]
    rcases h.step o with ⟨h1, h2⟩ | ⟨T, T', ev, h1, h2, h3⟩
    · rw [h1, h2]; exact .inl ⟨rfl, rfl⟩
    · rw [h1, h2]
      dsimp only
      rcases ih h3 with ⟨g1, g2⟩ | ⟨U, U', ev', g1, g2, g3⟩
      · rw [g1, g2]; exact .inl ⟨rfl, rfl⟩
      · rw [g1, g2]
        exact .inr ⟨_, _, _, rfl, by simp, g3⟩

/-! ### Room for more expectations -/

theorem attached_step {S T : Spec.State α} {o : Op α} {ev : List Event} (h : S.step o = some (T, ev)) (t : Nat) :
    (T.attached t).length ≤ (S.attached t).length + 1 := by
  have hmap : ∀ (g : Spec.Exp α → Spec.Exp α), (∀ x, (g x).seqs = x.seqs) →
      ((S.exps.map g).filter (fun x => x.seqs.contains t)).length = (S.attached t).length := by
    intro g hg
    rw [List.filter_map, List.length_map]
    unfold Spec.State.attached
    congr 2
    funext x
    simp [hg]
  cases o with
  | newSequence st =>
    simp only [Spec.State.step, Option.some.injEq, Prod.mk.injEq] at h
    rw [← h.1]; exact Nat.le_succ _
  | newMock =>
    simp only [Spec.State.step, Option.some.injEq, Prod.mk.injEq] at h
    rw [← h.1]; exact Nat.le_succ _
  | dropSequence s =>
    simp only [Spec.State.step] at h
    split at h
    · simp only [Option.some.injEq, Prod.mk.injEq] at h
      rw [← h.1]; exact Nat.le_succ _
    · cases h
  | call m a =>
    simp only [Spec.State.step] at h
    split at h
    · simp only [Option.some.injEq, Prod.mk.injEq] at h
      rw [← h.1]
      unfold Spec.State.call
      dsimp only
      split
      · refine Nat.le_succ_of_le (Nat.le_of_eq (hmap _ fun x => ?_))
        split <;> rfl
      · split <;> exact Nat.le_succ _
    · cases h
  | expect m min max tags ps =>
    simp only [Spec.State.step] at h
    split at h
    · split at h
      · simp only [Option.some.injEq, Prod.mk.injEq] at h
        rw [← h.1]
        simp only [Spec.State.attached, List.filter_append, List.length_append]
        have := List.length_filter_le (fun x : Spec.Exp α => x.seqs.contains t)
          [{ id := S.exps.length, mock := m, min := min, max := max, seqs := tags, policies := ps, count := 0, alive := true }]
        simp only [List.length_singleton] at this
        omega
      · simp only [Option.some.injEq, Prod.mk.injEq] at h
        rw [← h.1]; exact Nat.le_succ _
    · cases h
  | destroy e =>
    simp only [Spec.State.step] at h
    split at h
    · cases h
    · simp only [Option.some.injEq, Prod.mk.injEq] at h
      rw [← h.1]
      refine Nat.le_succ_of_le (Nat.le_of_eq (hmap _ fun x => ?_))
      split <;> rfl

theorem fits_of_room (ops : List (Op α)) : ∀ {S : Spec.State α}, (∀ t, (S.attached t).length + ops.length ≤ 2147483648) → S.fits ops := by
  induction ops with
  | nil => exact fun _ => trivial
  | cons o ops ih =>
    intro S h
    refine ⟨?_, fun T ev hs => ih fun t => ?_⟩
    · cases o with
      | expect m min max tags ps =>
        rintro ⟨-, -, t, -, ht⟩
        have := h t
        simp only [List.length_cons] at this
        apply ht
        show _ ≤ (2147483647 : Int)
        omega
      | _ => exact id
    · have := h t
      have := attached_step hs t
      simp only [List.length_cons] at *
      omega

/-! ### From histories -/

theorem counts_eq {tr : Trace α} {S : Spec.State α} (hv : View tr S) {p : Nat → Nat} (hp : Counts tr p) (t : Nat) :
    (S.attached t).length = p t := by
  obtain ⟨es, h1, h2⟩ := hp t
  rw [← h2, ← oldestFirst_unique (attached_oldestFirst hv t) h1, List.length_map]

theorem start {tr : Trace α} {S : Spec.State α} (hv : View tr S) {f p : Nat → Nat} (he : Exchanges tr f) (hp : Counts tr p) :
    Rel S.exps.length f p S S where
  inj := he.injective
  mocks := rfl
  exps := by
    have : S.exps.map (ren S.exps.length f) = S.exps.map id := List.map_congr_left fun x hx => by
      obtain ⟨d, hd, -⟩ := hv.get hx
      have h1 := hv.exps x.id
      rw [hd] at h1
      obtain ⟨h2, -⟩ := List.getElem?_eq_some_iff.mp h1
      exact ren_old h2
    rw [this, List.map_id]
  length := rfl
  seqs := by
    intro t
    by_cases ht : f t = t
    · rw [ht]
    · have h1 := (he.settled t ht).1
      have h2 := (he.settled (f t) fun hh => ht (he.injective _ _ hh)).1
      have hk := he.kinds t
      obtain ⟨⟨st, k1⟩, d1⟩ := h1
      obtain ⟨-, d2⟩ := h2
      have k2 := (hk st ht).mp k1
      cases q1 : S.seqs[t]? with
      | none => exact absurd k1 ((hv.freshSeq t (List.getElem?_eq_none_iff.mp q1)).1 st)
      | some a =>
        cases q2 : S.seqs[f t]? with
        | none => exact absurd k2 ((hv.freshSeq (f t) (List.getElem?_eq_none_iff.mp q2)).1 st)
        | some b =>
          obtain ⟨a1, a2⟩ := hv.seqs t a q1
          obtain ⟨b1, b2⟩ := hv.seqs (f t) b q2
          have e1 := (a1 st).mp k1
          have e2 := (b1 st).mp k2
          have e3 := a2.mpr d1
          have e4 := b2.mpr d2
          cases a; cases b
          simp_all
  fixed := by
    intro t ht
    apply Classical.byContradiction
    intro hne
    obtain ⟨⟨st, k⟩, -⟩ := (he.settled t hne).1
    exact (hv.freshSeq t ht).1 st k
  le := Nat.le_refl _
  ids := by
    intro i x hx
    have := hv.exps i
    rw [hx] at this
    cases hd : tr.decl i with
    | none => rw [hd] at this; cases this
    | some d =>
      rw [hd] at this
      simp only [Option.map_some, Option.some.injEq] at this
      rw [this]; rfl
  settled := by
    intro x hx _ t ht hf
    obtain ⟨d, hd, hxd⟩ := hv.get hx
    have hs : t ∈ d.seqs := by rw [hxd] at ht; exact ht
    obtain ⟨h1, h2⟩ := (he.settled t hf).2 x.id ⟨d, hd, hs⟩
    refine ⟨?_, ?_⟩
    · rw [hxd]; simp [viewExp, h1]
    · have h3 : ¬ (tr.matched x.id : Int) < d.min := fun h4 => h2 ⟨d, hd, h4⟩
      have h5 : x.min = d.min := by rw [hxd]; rfl
      have h6 : x.count = tr.matched x.id := by rw [hxd]; rfl
      rw [h5, h6]; omega
  past := by
    intro t
    rw [List.take_length]
    exact counts_eq hv hp t

end Mimic.Exchange
