import Verif.Spec.Threads
import Verif.Proofs.Alike

/-!
# Lemmas on the memory that steps of threads access
-/

set_option autoImplicit false

namespace Mimic.Threads

variable {α : Type}

/-- What is in the memory of a sequence object. -/
abbrev cont (h : Seqs) (s : Nat) : Option (Sequence × Bool) := (h[s]?).map fun c => (c.seq, c.alive)

/-- The same sequence objects. -/
def Agree (T : List Nat) (h g : Seqs) : Prop := ∀ s ∈ T, cont h s = cont g s

/-- Only these sequence objects change. -/
structure Only (T : List Nat) (h g : Seqs) : Prop where
  length : g.length = h.length
  other : ∀ s : Nat, s ∉ T → g[s]? = h[s]?
  handle : ∀ s : Nat, (g[s]?).map SeqCell.handle = (h[s]?).map SeqCell.handle

theorem Only.refl (T : List Nat) (h : Seqs) : Only T h h := ⟨rfl, fun _ _ => rfl, fun _ => rfl⟩

theorem Only.trans {T : List Nat} {h g k : Seqs} (h1 : Only T h g) (h2 : Only T g k) : Only T h k :=
  ⟨h2.length.trans h1.length, fun s hs => (h2.other s hs).trans (h1.other s hs), fun s => (h2.handle s).trans (h1.handle s)⟩

theorem Agree.deref {T : List Nat} {h g : Seqs} (ha : Agree T h g) {s : Nat} (hs : s ∈ T) : h.deref s = g.deref s := by
  have := ha s hs
  unfold cont at this
  unfold Seqs.deref
  cases h1 : h[s]? with
  | none =>
    rw [h1] at this
    cases h2 : g[s]? with
    | none => rfl
    | some d => simp [h2] at this
  | some c =>
    rw [h1] at this
    cases h2 : g[s]? with
    | none => simp [h2] at this
    | some d =>
      simp only [h2, Option.map_some, Option.some.injEq, Prod.mk.injEq] at this
      simp [this.1, this.2]

theorem Agree.store {T : List Nat} {h g : Seqs} (ha : Agree T h g) (s : Nat) (q : Sequence) : Agree T (h.store s q) (g.store s q) := by
  intro t ht
  have := ha t ht
  unfold cont Seqs.store at *
  rw [List.getElem?_modify, List.getElem?_modify]
  by_cases e : s = t
  · subst e
    simp only [if_true]
    cases h1 : h[s]? <;> cases h2 : g[s]? <;> simp_all
  · simpa [e] using this

theorem only_store {T : List Nat} {s : Nat} (hs : s ∈ T) (h : Seqs) (q : Sequence) : Only T h (h.store s q) := by
  refine ⟨by simp [Seqs.store], fun t ht => ?_, fun t => ?_⟩
  · have : s ≠ t := fun e => ht (e ▸ hs)
    simp [Seqs.store, List.getElem?_modify, this]
  · unfold Seqs.store
    rw [List.getElem?_modify]
    by_cases e : s = t
    · subst e
      simp only [if_true]
      cases h[s]? <;> rfl
    · simp [e]

theorem Agree.apply {T : List Nat} {h g : Seqs} (ha : Agree T h g) {s : Nat} (hs : s ∈ T) (f : Sequence → M Sequence) :
    MLike (Agree T) (h.apply s f) (g.apply s f) := by
  unfold Seqs.apply
  rw [ha.deref hs]
  refine MLike.bind (MLike.refl (R := fun s t => s = t) (fun _ => rfl) _) ?_
  rintro q _ rfl
  refine MLike.bind (MLike.refl (R := fun s t => s = t) (fun _ => rfl) _) ?_
  rintro q' _ rfl
  exact .ok (ha.store s q')

theorem only_apply {T : List Nat} {s : Nat} (hs : s ∈ T) {h g : Seqs} {f : Sequence → M Sequence} (hr : h.apply s f = .ok g) : Only T h g := by
  unfold Seqs.apply at hr
  cases h1 : h.deref s with
  | error x => simp [h1, bind, Except.bind] at hr
  | ok q =>
    cases h2 : f q with
    | error x => simp [h1, h2, bind, Except.bind] at hr
    | ok q' =>
      simp only [h1, h2, bind, Except.bind, pure, Except.pure, Except.ok.injEq] at hr
      subst hr
      exact only_store hs h q'

theorem Agree.forEntries {T : List Nat} (f : Sequence → Int → M Sequence) {es : List (Nat × Int)} (he : ∀ en ∈ es, en.1 ∈ T) {h g : Seqs}
    (ha : Agree T h g) : MLike (Agree T) (forEntries f es h) (Mimic.forEntries f es g) := by
  induction es generalizing h g with
  | nil => exact .ok ha
  | cons en es ih =>
    obtain ⟨s, id⟩ := en
    simp only [Mimic.forEntries]
    refine MLike.bind (ha.apply (he (s, id) (by simp)) _) ?_
    intro h' g' hg
    exact ih (fun en hen => he en (by simp [hen])) hg

theorem only_forEntries {T : List Nat} {f : Sequence → Int → M Sequence} {es : List (Nat × Int)} (he : ∀ en ∈ es, en.1 ∈ T) {h g : Seqs}
    (hr : forEntries f es h = .ok g) : Only T h g := by
  induction es generalizing h with
  | nil =>
    simp only [forEntries, Except.ok.injEq] at hr
    subst hr
    exact .refl _ _
  | cons en es ih =>
    obtain ⟨s, id⟩ := en
    simp only [forEntries] at hr
    cases h1 : h.apply s (fun q => f q id) with
    | error x => simp [h1, bind, Except.bind] at hr
    | ok k =>
      simp only [h1, bind, Except.bind] at hr
      exact (only_apply (he (s, id) (by simp)) h1).trans (ih (fun en hen => he en (by simp [hen])) hr)

theorem Agree.update {T : List Nat} {c : Control} (he : ∀ en ∈ c.entries, en.1 ∈ T) {h g : Seqs} (ha : Agree T h g) :
    MLike (Agree T) (c.updateSequenceStates h) (c.updateSequenceStates g) := by
  unfold Control.updateSequenceStates
  split
  · exact ha.forEntries _ he
  · split
    · exact ha.forEntries _ he
    · exact .ok ha

theorem only_update {T : List Nat} {c : Control} (he : ∀ en ∈ c.entries, en.1 ∈ T) {h g : Seqs} (hr : c.updateSequenceStates h = .ok g) :
    Only T h g := by
  unfold Control.updateSequenceStates at hr
  split at hr
  · exact only_forEntries he hr
  · split at hr
    · exact only_forEntries he hr
    · simp only [Except.ok.injEq] at hr
      subst hr
      exact .refl _ _

theorem Agree.entries {T : List Nat} {ts : List Nat} (ht : ∀ t ∈ ts, t ∈ T) {h g : Seqs} (ha : Agree T h g) :
    MLike (fun x y => Agree T x.1 y.1 ∧ x.2 = y.2 ∧ x.2.map (·.1) = ts) (makeSequenceEntries h ts) (makeSequenceEntries g ts) := by
  induction ts generalizing h g with
  | nil => exact .ok ⟨ha, rfl, rfl⟩
  | cons s ts ih =>
    simp only [makeSequenceEntries]
    rw [ha.deref (ht s (by simp))]
    refine MLike.bind (MLike.refl (R := fun s t => s = t) (fun _ => rfl) _) ?_
    rintro q _ rfl
    cases q.add with
    | none => exact .error _
    | some r =>
      obtain ⟨q', id⟩ := r
      simp only
      refine MLike.bind (ih (fun t h => ht t (by simp [h])) (ha.store s q')) ?_
      rintro ⟨h', es⟩ ⟨g', es'⟩ ⟨h1, h2, h3⟩
      simp only at h1 h2 h3
      subst h2
      exact .ok ⟨h1, rfl, by simp [h3]⟩

theorem only_entries {T : List Nat} {ts : List Nat} (ht : ∀ t ∈ ts, t ∈ T) {h : Seqs} {r : Seqs × List (Nat × Int)}
    (hr : makeSequenceEntries h ts = .ok r) : Only T h r.1 := by
  induction ts generalizing h r with
  | nil =>
    simp only [makeSequenceEntries, Except.ok.injEq] at hr
    subst hr
    exact .refl _ _
  | cons s ts ih =>
    simp only [makeSequenceEntries] at hr
    cases h1 : h.deref s with
    | error x => simp [h1, bind, Except.bind] at hr
    | ok q =>
      simp only [h1, bind, Except.bind] at hr
      cases h2 : q.add with
      | none => simp [h2] at hr
      | some x =>
        obtain ⟨q', id⟩ := x
        simp only [h2] at hr
        cases h3 : makeSequenceEntries (h.store s q') ts with
        | error x => simp [h3] at hr
        | ok y =>
          simp only [h3, pure, Except.pure, Except.ok.injEq] at hr
          subst hr
          exact (only_store (ht s (by simp)) h q').trans (ih (r := y) (fun t h => ht t (by simp [h])) h3)

theorem Agree.make {T : List Nat} (t : TimesConfig) {ts : List Nat} (ht : ∀ t ∈ ts, t ∈ T) {h g : Seqs} (ha : Agree T h g) :
    MLike (fun x y => Agree T x.1 y.1 ∧ x.2 = y.2) (Control.make t ts h) (Control.make t ts g) := by
  unfold Control.make
  refine MLike.bind (ha.entries ht) ?_
  rintro ⟨h', es⟩ ⟨g', es'⟩ ⟨h1, h2, h3⟩
  simp only at h1 h2 h3
  subst h2
  refine MLike.bind (h1.update (T := T) (c := { min := t.min, max := t.max, count := 0, entries := es }) ?_) ?_
  · intro en hen
    exact ht _ (h3 ▸ List.mem_map_of_mem (f := (·.1)) hen)
  · intro h' g' h4
    exact .ok ⟨h4, rfl⟩

theorem only_make {T : List Nat} {t : TimesConfig} {ts : List Nat} (ht : ∀ t ∈ ts, t ∈ T) {h : Seqs} {r : Seqs × Control}
    (hr : Control.make t ts h = .ok r) : Only T h r.1 := by
  unfold Control.make at hr
  cases h1 : makeSequenceEntries h ts with
  | error x => simp [h1, bind, Except.bind] at hr
  | ok y =>
    obtain ⟨h', es⟩ := y
    simp only [h1, bind, Except.bind] at hr
    have h3 : es.map (·.1) = ts := by
      have := Agree.entries (T := ts) (fun _ h => h) (h := h) (g := h) (fun _ _ => rfl)
      rw [h1] at this
      cases this with
      | ok h => exact h.2.2
    cases h2 : Control.updateSequenceStates { min := t.min, max := t.max, count := 0, entries := es } h' with
    | error x => simp [h2] at hr
    | ok z =>
      simp only [h2, pure, Except.pure, Except.ok.injEq] at hr
      subst hr
      refine (only_entries ht h1).trans (only_update ?_ h2)
      intro en hen
      exact ht _ (h3 ▸ List.mem_map_of_mem (f := (·.1)) hen)

theorem Agree.consumable {T : List Nat} {es : List (Nat × Int)} (he : ∀ en ∈ es, en.1 ∈ T) {h g : Seqs} (ha : Agree T h g) :
    allConsumable h es = allConsumable g es := by
  induction es with
  | nil => rfl
  | cons en es ih =>
    obtain ⟨s, id⟩ := en
    simp only [allConsumable]
    rw [ha.deref (he (s, id) (by simp)), ih (fun en hen => he en (by simp [hen]))]

theorem Agree.applicable {T : List Nat} {c : Control} (he : ∀ en ∈ c.entries, en.1 ∈ T) {h g : Seqs} (ha : Agree T h g) :
    c.isApplicable h = c.isApplicable g := by
  unfold Control.isApplicable
  rw [ha.consumable he]

theorem Agree.consume {T : List Nat} {c : Control} (he : ∀ en ∈ c.entries, en.1 ∈ T) {h g : Seqs} (ha : Agree T h g) :
    MLike (fun x y => Agree T x.1 y.1 ∧ x.2 = y.2) (c.consume h) (c.consume g) := by
  unfold Control.consume
  rw [ha.applicable he]
  refine MLike.bind (MLike.refl (R := fun s t => s = t) (fun _ => rfl) _) ?_
  rintro _ _ rfl
  refine MLike.bind (MLike.refl (R := fun s t => s = t) (fun _ => rfl) _) ?_
  rintro _ _ rfl
  refine MLike.bind (ha.forEntries _ he) ?_
  intro h' g' h1
  refine MLike.bind (MLike.refl (R := fun s t => s = t) (fun _ => rfl) _) ?_
  rintro n _ rfl
  refine MLike.bind (h1.update (c := { c with count := n }) he) ?_
  intro h'' g'' h2
  exact .ok ⟨h2, rfl⟩

theorem only_consume {T : List Nat} {c : Control} (he : ∀ en ∈ c.entries, en.1 ∈ T) {h : Seqs} {r : Seqs × Control}
    (hr : c.consume h = .ok r) : Only T h r.1 ∧ r.2.entries = c.entries := by
  unfold Control.consume at hr
  cases h1 : c.isApplicable h with
  | error x => simp [h1, bind, Except.bind] at hr
  | ok b =>
    simp only [h1, bind, Except.bind] at hr
    cases h2 : check b "ControlPolicy::consume: assert(is_applicable())" with
    | error x => simp [h2] at hr
    | ok u =>
      simp only [h2] at hr
      cases h3 : forEntries Sequence.consume c.entries h with
      | error x => simp [h3] at hr
      | ok h' =>
        simp only [h3] at hr
        cases h4 : toInt (c.count + 1) with
        | error x => simp [h4] at hr
        | ok n =>
          simp only [h4] at hr
          cases h5 : Control.updateSequenceStates { c with count := n } h' with
          | error x => simp [h5] at hr
          | ok h'' =>
            simp only [h5, pure, Except.pure, Except.ok.injEq] at hr
            subst hr
            exact ⟨(only_forEntries he h3).trans (only_update (c := { c with count := n }) he h5), rfl⟩

theorem Agree.ratings {T : List Nat} {es : List (Nat × Int)} (he : ∀ en ∈ es, en.1 ∈ T) {h g : Seqs} (ha : Agree T h g) :
    collectRatings h es = collectRatings g es := by
  induction es with
  | nil => rfl
  | cons en es ih =>
    obtain ⟨s, id⟩ := en
    simp only [collectRatings]
    rw [ha.deref (he (s, id) (by simp)), ih (fun en hen => he en (by simp [hen]))]

theorem Agree.tags {T : List Nat} {es : List (Nat × Int)} (he : ∀ en ∈ es, en.1 ∈ T) {h g : Seqs} (ha : Agree T h g) :
    derefTags h es = derefTags g es := by
  induction es with
  | nil => rfl
  | cons en es ih =>
    obtain ⟨s, id⟩ := en
    simp only [derefTags]
    rw [ha.deref (he (s, id) (by simp)), ih (fun en hen => he en (by simp [hen]))]

theorem Agree.state {T : List Nat} {c : Control} (he : ∀ en ∈ c.entries, en.1 ∈ T) {h g : Seqs} (ha : Agree T h g) :
    c.state h = c.state g := by
  unfold Control.state
  rw [ha.tags he, ha.ratings he]

/-! ### Steps -/

theorem same_refl (w : World α) (l : Loc) : Same w w l := by cases l <;> rfl

theorem same_trans {u v w : World α} {l : Loc} (h1 : Same u v l) (h2 : Same v w l) : Same u w l := by
  cases l
  · exact Eq.trans (b := v.colls[_]?) h1 h2
  · exact Eq.trans (b := v.exps[_]?) h1 h2
  · exact Eq.trans (b := cont v.seqs _) h1 h2

theorem same_symm {u v : World α} {l : Loc} (h : Same u v l) : Same v u l := by
  cases l
  · exact Eq.symm (a := u.colls[_]?) h
  · exact Eq.symm (a := u.exps[_]?) h
  · exact Eq.symm (a := cont u.seqs _) h

theorem Only.same {T : List Nat} {h g : Seqs} (ho : Only T h g) {s : Nat} (hs : s ∉ T) : cont h s = cont g s := by
  unfold cont
  rw [ho.other s hs]

theorem hasHandle_eq (w : World α) (s : Nat) : w.hasHandle s = ((w.seqs[s]?).map SeqCell.handle).getD false := by
  unfold World.hasHandle
  cases w.seqs[s]? <;> rfl

theorem owned_eq (w : World α) (s : Nat) : w.owned s = decide (0 < refs w s) := by
  have : (w.exps.any (fun x => x.alive && x.holds s)) = decide (0 < w.exps.countP (fun x => x.alive && x.holds s)) := by
    rw [Bool.eq_iff_iff, decide_eq_true_iff, List.any_eq_true, List.countP_pos_iff]
  unfold World.owned refs
  rw [this]
  change (w.hasHandle s || _) = _
  cases w.hasHandle s
  · simp
  · simp only [Bool.true_or, if_true]
    symm
    rw [decide_eq_true_iff]
    omega

theorem Alike.owned {w v : World α} (h : Alike w v) (s : Nat) : w.owned s = v.owned s := by
  rw [owned_eq, owned_eq, h.refs s]

/-- Release of a `std::shared_ptr`. -/
theorem release_same {w v : World α} (ha : Alike w v) {s : Nat} {w' : World α} {ev : List Event} (hr : w.release s = .ok (w', ev))
    (hs : ∀ l ∈ ended ev, Same w v l) :
    ∃ v', v.release s = .ok (v', ev) ∧ Alike w' v' ∧ (∀ l, Same w v l → Same w' v' l) ∧ (∀ l, l ∉ ended ev → Same w w' l) := by
  unfold World.release at hr
  split at hr
  · rename_i ho
    simp only [Except.ok.injEq, Prod.mk.injEq] at hr
    obtain ⟨rfl, rfl⟩ := hr
    refine ⟨v, ?_, ha, fun _ h => h, fun _ _ => same_refl _ _⟩
    unfold World.release
    rw [if_pos (by rw [← ha.owned]; exact ho)]
  · rename_i ho
    cases h1 : w.seqs.deref s with
    | error x => simp [h1, bind, Except.bind] at hr
    | ok q =>
      simp only [h1, bind, Except.bind] at hr
      cases h2 : q.destruct with
      | error x => simp [h2] at hr
      | ok err =>
        simp only [h2, pure, Except.pure] at hr
        have hres : w' = { w with seqs := w.seqs.modify s (fun c => { c with alive := false }) } ∧ Loc.seq s ∈ ended ev ∧
            (∀ l ∈ ended ev, l = .seq s) ∧ ev = (match err with
              | some (k, n) => [Event.sequenceError s k n, .sequenceDestroyed s]
              | none => [.sequenceDestroyed s]) := by
          cases err with
          | none =>
            simp only [Except.ok.injEq, Prod.mk.injEq] at hr
            obtain ⟨rfl, rfl⟩ := hr
            simp [ended]
          | some e =>
            obtain ⟨k, n⟩ := e
            simp only [Except.ok.injEq, Prod.mk.injEq] at hr
            obtain ⟨rfl, rfl⟩ := hr
            simp [ended]
        obtain ⟨rfl, h3, h4, h5⟩ := hres
        have h6 := hs _ h3
        have hag : Agree [s] w.seqs v.seqs := by
          intro t ht
          simp only [List.mem_singleton] at ht
          subst ht
          exact h6
        refine ⟨{ v with seqs := v.seqs.modify s (fun c => { c with alive := false }) }, ?_, ?_, ?_, ?_⟩
        · unfold World.release
          rw [if_neg (by rw [← ha.owned]; exact ho), ← hag.deref (by simp), h1]
          simp only [bind, Except.bind, h2, pure, Except.pure]
          rw [h5]
          cases err <;> rfl
        · have hh : ∀ (u : World α) t, World.hasHandle { u with seqs := u.seqs.modify s (fun c => { c with alive := false }) } t = u.hasHandle t := by
            intro u t
            rw [hasHandle_eq, hasHandle_eq, List.getElem?_modify]
            by_cases e : s = t
            · subst e
              simp only [if_true]
              cases u.seqs[s]? <;> rfl
            · simp [e]
          refine ⟨?_, ha.exps, ha.colls, ?_, ?_⟩
          · simpa using ha.seqs
          · intro t
            rw [hh, hh]
            exact ha.handles t
          · intro t
            have := ha.refs t
            unfold refs at this ⊢
            rw [hh, hh]
            exact this
        · intro l hl
          cases l with
          | storage c => exact hl
          | exp e => exact hl
          | seq t =>
            simp only [Same] at hl ⊢
            rw [List.getElem?_modify, List.getElem?_modify]
            by_cases e : s = t
            · subst e
              simp only [if_true]
              cases h7 : w.seqs[s]? <;> cases h8 : v.seqs[s]? <;> simp_all
            · simpa [e] using hl
        · intro l hl
          cases l with
          | storage c => rfl
          | exp e => rfl
          | seq t =>
            have e : s ≠ t := by
              rintro rfl
              exact hl h3
            simp [Same, e]

theorem ended_append (a b : List Event) : ended (a ++ b) = ended a ++ ended b := by simp [ended]

theorem releaseAll_same {ss : List Nat} {w v : World α} (ha : Alike w v) {w' : World α} {ev : List Event}
    (hr : w.releaseAll ss = .ok (w', ev)) (hs : ∀ l ∈ ended ev, Same w v l) :
    ∃ v', v.releaseAll ss = .ok (v', ev) ∧ Alike w' v' ∧ (∀ l, Same w v l → Same w' v' l) ∧ (∀ l, l ∉ ended ev → Same w w' l) := by
  induction ss generalizing w v ev with
  | nil =>
    simp only [World.releaseAll, Except.ok.injEq, Prod.mk.injEq] at hr
    obtain ⟨rfl, rfl⟩ := hr
    exact ⟨v, rfl, ha, fun _ h => h, fun _ _ => same_refl _ _⟩
  | cons s ss ih =>
    simp only [World.releaseAll] at hr
    cases h1 : w.release s with
    | error x => simp [h1, bind, Except.bind] at hr
    | ok r =>
      obtain ⟨w1, ev1⟩ := r
      simp only [h1, bind, Except.bind] at hr
      cases h2 : w1.releaseAll ss with
      | error x => simp [h2] at hr
      | ok r =>
        obtain ⟨w2, ev2⟩ := r
        simp only [h2, pure, Except.pure, Except.ok.injEq, Prod.mk.injEq] at hr
        obtain ⟨rfl, rfl⟩ := hr
        rw [ended_append] at hs
        obtain ⟨v1, h3, h4, h5, h6⟩ := release_same ha h1 (fun l hl => hs l (by simp [hl]))
        obtain ⟨v2, h7, h8, h9, h10⟩ := ih h4 h2 (fun l hl => h5 l (hs l (by simp [hl])))
        refine ⟨v2, ?_, h8, fun l hl => h9 l (h5 l hl), ?_⟩
        · simp only [World.releaseAll, h3, h7, bind, Except.bind, pure, Except.pure]
        · intro l hl
          rw [ended_append, List.mem_append, not_or] at hl
          exact same_trans (h6 l hl.1) (h10 l hl.2)

theorem scan_same {w v : World α} (a : α) {es : List Nat} (he : ∀ e ∈ es, w.exps[e]? = v.exps[e]?)
    (hs : ∀ l ∈ seqsOf w es, Same w v l) : Mimic.scan w a es = Mimic.scan v a es := by
  induction es with
  | nil => rfl
  | cons e es ih =>
    have ih' := ih (fun e h => he e (by simp [h])) (fun l hl => hs l (by
      simp only [seqsOf, List.flatMap_cons, List.mem_append]
      exact .inr hl))
    have hd : w.deref e = v.deref e := by
      unfold World.deref
      rw [he e (by simp)]
    simp only [Mimic.scan]
    rw [ih', hd]
    cases h1 : v.deref e with
    | error x => rfl
    | ok x =>
      have hx : w.exps[e]? = some x := by
        rw [he e (by simp)]
        unfold World.deref at h1
        split at h1
        · rename_i y hy
          split at h1
          · simp only [Except.ok.injEq] at h1
            rw [hy, h1]
          · cases h1
        · cases h1
      have hag : Agree (x.control.entries.map (·.1)) w.seqs v.seqs := by
        intro s hmem
        refine hs (.seq s) ?_
        simp only [seqsOf, List.flatMap_cons, List.mem_append, hx, Exp.seqLocs]
        left
        obtain ⟨en, h2, rfl⟩ := List.mem_map.mp hmem
        exact List.mem_map.mpr ⟨en, h2, rfl⟩
      simp only [bind, Except.bind]
      have : x.matchReport e w.seqs a = x.matchReport e v.seqs a := by
        unfold Exp.matchReport
        rw [hag.state (fun en hen => List.mem_map_of_mem (f := (·.1)) hen)]
      rw [this]

theorem refs_exps {w w' : World α} (h1 : ∀ s, w'.hasHandle s = w.hasHandle s)
    (h2 : ∀ s, w'.exps.countP (fun x => x.alive && x.holds s) = w.exps.countP (fun x => x.alive && x.holds s)) (s : Nat) :
    refs w' s = refs w s := by
  unfold refs
  rw [h1, h2]

theorem countP_set_eq {p : Exp α → Bool} {l : List (Exp α)} {e : Nat} {x y : Exp α} (hx : l[e]? = some x) (hp : p y = p x) :
    (l.set e y).countP p = l.countP p := by
  obtain ⟨hlt, hx'⟩ := List.getElem?_eq_some_iff.mp hx
  rw [List.countP_set hlt, hx', hp]
  have : p x = true → 0 < l.countP p := fun h => List.countP_pos_iff.mpr ⟨x, List.mem_of_getElem? hx, h⟩
  split
  · rename_i h
    have := this h
    omega
  · omega

theorem countP_set_dead {p : Exp α → Bool} {l l' : List (Exp α)} {e : Nat} {x : Exp α} {y : Exp α} (hx : l[e]? = some x) (hx' : l'[e]? = some x)
    (hp : p y = false) {n n' : Nat} (h : n + l.countP p = n' + l'.countP p) :
    n + (l.set e y).countP p = n' + (l'.set e y).countP p := by
  obtain ⟨hlt, h1⟩ := List.getElem?_eq_some_iff.mp hx
  obtain ⟨hlt', h2⟩ := List.getElem?_eq_some_iff.mp hx'
  rw [List.countP_set hlt, List.countP_set hlt', h1, h2, hp]
  have a1 : p x = true → 0 < l.countP p := fun h => List.countP_pos_iff.mpr ⟨x, List.mem_of_getElem? hx, h⟩
  have a2 : p x = true → 0 < l'.countP p := fun h => List.countP_pos_iff.mpr ⟨x, List.mem_of_getElem? hx', h⟩
  split
  · rename_i h
    have := a1 h
    have := a2 h
    simp
    omega
  · simpa using h

/-- A step changes nothing but what it writes, and depends on nothing but what it reads or writes. -/
def Sound (w : World α) (p : Phase) (a : Act α) (r : World α × Phase × Log) : Prop :=
  (∀ l, l ∉ r.2.2.writes → Same w r.1 l) ∧
  ∀ v : World α, Alike w v → (∀ l, l ∈ r.2.2.reads ∨ l ∈ r.2.2.writes → Same w v l) →
    ∃ v', step v p a = .ok (v', r.2) ∧ (∀ l ∈ r.2.2.writes, Same r.1 v' l) ∧ Alike r.1 v'

theorem handle_append {w : World α} {c : SeqCell} (s : Nat) :
    World.hasHandle { w with seqs := w.seqs ++ [c] } s = if s = w.seqs.length then c.handle else w.hasHandle s := by
  rw [hasHandle_eq, hasHandle_eq]
  by_cases e : s = w.seqs.length
  · subst e
    simp
  · rw [if_neg e]
    by_cases h : s < w.seqs.length
    · simp [List.getElem?_append, h]
    · have : w.seqs[s]? = none := List.getElem?_eq_none_iff.mpr (by omega)
      have h2 : (w.seqs ++ [c])[s]? = none := List.getElem?_eq_none_iff.mpr (by simp; omega)
      simp [this, h2]

theorem hasHandle_of_only {T : List Nat} {w : World α} {g : Seqs} (h : Only T w.seqs g) {es : List (Exp α)} {cs : List (List Nat)} (s : Nat) :
    World.hasHandle { seqs := g, exps := es, colls := cs } s = w.hasHandle s := by
  rw [hasHandle_eq, hasHandle_eq, h.handle]

theorem seqs_of_agree {T : List Nat} {w v : World α} (h : ∀ s ∈ T, Same w v (.seq s)) : Agree T w.seqs v.seqs := h

theorem sound_newSequence (w : World α) (st : Strategy) {r : World α × Phase × Log} (hr : step w .idle (.newSequence st) = .ok r) :
    Sound w .idle (.newSequence st) r := by
  simp only [step, bind, Except.bind, pure, Except.pure, World.step, Except.ok.injEq] at hr
  subst hr
  refine ⟨?_, ?_⟩
  · intro l hl
    cases l with
    | storage c => rfl
    | exp e => rfl
    | seq s =>
      simp only [List.mem_singleton, Loc.seq.injEq] at hl
      simp only [Same, List.getElem?_append]
      by_cases h : s < w.seqs.length
      · simp [h]
      · have : w.seqs[s]? = none := List.getElem?_eq_none_iff.mpr (by omega)
        have h2 : 1 ≤ s - w.seqs.length := by omega
        rw [this, if_neg h, List.getElem?_eq_none_iff.mpr (by simpa using h2)]
  · intro v ha hs
    refine ⟨{ v with seqs := v.seqs ++ [{ seq := Sequence.new st, handle := true, alive := true }] }, ?_, ?_, ?_⟩
    · simp only [step, bind, Except.bind, pure, Except.pure, World.step, ha.seqs]
    · intro l hl
      simp only [List.mem_singleton] at hl
      subst hl
      simp only [Same]
      rw [List.getElem?_append_right (by omega), List.getElem?_append_right (by rw [ha.seqs]; omega), ha.seqs]
    · refine ⟨by simp [ha.seqs], ha.exps, ha.colls, ?_, ?_⟩
      · intro s
        rw [handle_append, handle_append, ha.seqs, ha.handles]
      · intro s
        have := ha.refs s
        have hh := ha.handles s
        unfold refs at this ⊢
        rw [handle_append, handle_append, ha.seqs]
        rw [hh] at this ⊢
        simp only
        omega

theorem sound_newMock (w : World α) {r : World α × Phase × Log} (hr : step w .idle .newMock = .ok r) :
    Sound w .idle .newMock r := by
  simp only [step, bind, Except.bind, pure, Except.pure, World.step, Except.ok.injEq] at hr
  subst hr
  refine ⟨?_, ?_⟩
  · intro l hl
    cases l with
    | storage c =>
      simp only [List.mem_singleton, Loc.storage.injEq] at hl
      simp only [Same, List.getElem?_append]
      by_cases h : c < w.colls.length
      · simp [h]
      · have : w.colls[c]? = none := List.getElem?_eq_none_iff.mpr (by omega)
        have h2 : 1 ≤ c - w.colls.length := by omega
        rw [this, if_neg h, List.getElem?_eq_none_iff.mpr (by simpa using h2)]
    | exp e => rfl
    | seq s => rfl
  · intro v ha hs
    refine ⟨{ v with colls := v.colls ++ [[]] }, ?_, ?_, ?_⟩
    · simp only [step, bind, Except.bind, pure, Except.pure, World.step, ha.colls]
    · intro l hl
      simp only [List.mem_singleton] at hl
      subst hl
      simp only [Same]
      rw [List.getElem?_append_right (by omega), List.getElem?_append_right (by rw [ha.colls]; omega), ha.colls]
    · exact ⟨ha.seqs, ha.exps, by simp [ha.colls], ha.handles, ha.refs⟩

theorem sound_dropSequence (w : World α) (s : Nat) {r : World α × Phase × Log} (hr : step w .idle (.dropSequence s) = .ok r) :
    Sound w .idle (.dropSequence s) r := by
  simp only [step, World.step] at hr
  split at hr
  · rename_i hw
    cases h1 : World.release { w with seqs := w.seqs.modify s (fun c => { c with handle := false }) } s with
    | error x => simp [h1, bind, Except.bind] at hr
    | ok q =>
      obtain ⟨w', ev⟩ := q
      simp only [h1, bind, Except.bind, pure, Except.pure, Except.ok.injEq] at hr
      subst hr
      have hsame : ∀ (u : World α) l, Same u { u with seqs := u.seqs.modify s (fun c => { c with handle := false }) } l := by
        intro u l
        cases l with
        | storage c => rfl
        | exp e => rfl
        | seq t =>
          simp only [Same]
          rw [List.getElem?_modify]
          by_cases e : s = t
          · subst e
            simp only [if_true]
            cases u.seqs[s]? <;> rfl
          · simp [e]
      have hh : ∀ (u : World α) t, World.hasHandle { u with seqs := u.seqs.modify s (fun c => { c with handle := false }) } t =
          if s = t then false else u.hasHandle t := by
        intro u t
        rw [hasHandle_eq, hasHandle_eq, List.getElem?_modify]
        by_cases e : s = t
        · subst e
          simp only [if_true]
          cases u.seqs[s]? <;> rfl
        · simp [e]
      have hal : ∀ v : World α, Alike w v → Alike { w with seqs := w.seqs.modify s (fun c => { c with handle := false }) }
          { v with seqs := v.seqs.modify s (fun c => { c with handle := false }) } := by
        intro v ha
        refine ⟨by simpa using ha.seqs, ha.exps, ha.colls, ?_, ?_⟩
        · intro t
          rw [hh, hh, ha.handles]
        · intro t
          have h2 := ha.refs t
          have h3 := ha.handles t
          unfold refs at h2 ⊢
          rw [hh, hh, h3]
          rw [h3] at h2
          simp only
          omega
      refine ⟨?_, ?_⟩
      · intro l hl
        obtain ⟨_, _, _, _, h5⟩ := release_same (hal w ⟨rfl, rfl, rfl, fun _ => rfl, fun _ => rfl⟩) h1 (fun l _ => same_refl _ l)
        exact same_trans (hsame w l) (h5 l hl)
      · intro v ha hs
        obtain ⟨v', h2, h3, h4, h5⟩ := release_same (hal v ha) h1 (fun l hl =>
          same_trans (same_symm (hsame w l)) (same_trans (hs l (.inr hl)) (hsame v l)))
        refine ⟨v', ?_, ?_, h3⟩
        · simp only [step, World.step]
          rw [if_pos (by rw [← ha.handles]; exact hw)]
          simp only [h2, bind, Except.bind, pure, Except.pure]
        · intro l hl
          exact h4 l (same_trans (same_symm (hsame w l)) (same_trans (hs l (.inr hl)) (hsame v l)))
  · simp [bind, Except.bind] at hr

theorem sound_attach (w : World α) (c : Nat) (min max : Int) (tags : List Nat) (ps : List (Policy α)) {r : World α × Phase × Log}
    (hr : step w .idle (.attach c min max tags ps) = .ok r) : Sound w .idle (.attach c min max tags ps) r := by
  simp only [step] at hr
  cases h1 : w.colls[c]? with
  | none => simp [h1] at hr
  | some es =>
    simp only [h1] at hr
    have hv1 : ∀ v : World α, Alike w v → ∃ es', v.colls[c]? = some es' := by
      intro v ha
      have hlt := (List.getElem?_eq_some_iff.mp h1).1
      rw [ha.colls] at hlt
      exact ⟨v.colls[c], by simp [hlt]⟩
    have hvh : ∀ v : World α, Alike w v → tags.all v.hasHandle = tags.all w.hasHandle := by
      intro v ha
      congr 1
      funext s
      exact (ha.handles s).symm
    split at hr
    · rename_i hc
      split at hr
      · rename_i t ts h2 h3
        cases h4 : Control.make t ts w.seqs with
        | error x => simp [h4, bind, Except.bind] at hr
        | ok x =>
          obtain ⟨g, ctl⟩ := x
          simp only [h4, bind, Except.bind, pure, Except.pure, Except.ok.injEq] at hr
          subst hr
          have hon := only_make (T := ts) (fun _ h => h) h4
          refine ⟨?_, ?_⟩
          · intro l hl
            simp only [List.mem_cons, List.mem_map, not_or] at hl
            cases l with
            | storage c => rfl
            | exp e =>
              have he : e ≠ w.exps.length := fun e' => hl.1 (by rw [e'])
              simp only [Same, List.getElem?_append]
              by_cases h : e < w.exps.length
              · simp [h]
              · have : w.exps[e]? = none := List.getElem?_eq_none_iff.mpr (by omega)
                have h2 : 1 ≤ e - w.exps.length := by omega
                rw [this, if_neg h, List.getElem?_eq_none_iff.mpr (by simpa using h2)]
            | seq s => exact hon.same (fun h => hl.2 ⟨s, h, rfl⟩)
          · intro v ha hs
            have hag : Agree ts w.seqs v.seqs := fun s hs' => hs (.seq s) (.inr (by simp [hs']))
            have hm := hag.make t (ts := ts) (fun _ h => h)
            rw [h4] at hm
            cases h5 : Control.make t ts v.seqs with
            | error x => rw [h5] at hm; cases hm
            | ok y =>
              obtain ⟨g', ctl'⟩ := y
              rw [h5] at hm
              cases hm with
              | ok hm =>
                obtain ⟨h6, h7⟩ := hm
                simp only at h6 h7
                subst h7
                have hon' := only_make (T := ts) (fun _ h => h) h5
                obtain ⟨es', h8⟩ := hv1 v ha
                refine ⟨{ v with seqs := g', exps := v.exps ++ [{ coll := c, control := ctl, policies := ps, alive := true }] }, ?_, ?_, ?_⟩
                · simp only [step, h8, hvh v ha, hc, if_true, h2, h3, h5, bind, Except.bind, pure, Except.pure, ha.exps]
                · intro l hl
                  simp only [List.mem_cons, List.mem_map] at hl
                  rcases hl with rfl | ⟨s, h9, rfl⟩
                  · simp only [Same]
                    rw [List.getElem?_append_right (by omega), List.getElem?_append_right (by rw [ha.exps]; omega), ha.exps]
                  · exact h6 s h9
                · refine ⟨?_, by simp [ha.exps], ha.colls, ?_, ?_⟩
                  · rw [hon.length, hon'.length, ha.seqs]
                  · intro s
                    rw [hasHandle_of_only hon, hasHandle_of_only hon', ha.handles]
                  · intro s
                    have h9 := ha.refs s
                    unfold refs at h9 ⊢
                    rw [hasHandle_of_only hon, hasHandle_of_only hon']
                    simp only [List.countP_append] at h9 ⊢
                    omega
      · rename_i h2
        simp only [Except.ok.injEq] at hr
        subst hr
        refine ⟨fun l _ => same_refl _ l, ?_⟩
        intro v ha _
        obtain ⟨es', h8⟩ := hv1 v ha
        refine ⟨v, ?_, by simp, ha⟩
        simp only [step, h8, hvh v ha, hc, if_true]
    · cases hr

theorem sound_push (w : World α) (c e : Nat) {r : World α × Phase × Log} (hr : step w (.built c e) .push = .ok r) :
    Sound w (.built c e) .push r := by
  simp only [step] at hr
  cases h1 : w.colls[c]? with
  | none => simp [h1] at hr
  | some es =>
    simp only [h1] at hr
    cases h5 : check (!es.contains e) "push: assert(find == end)" with
    | error x => rw [h5] at hr; simp [bind, Except.bind] at hr
    | ok x =>
      simp only [h5, bind, Except.bind, pure, Except.pure, Except.ok.injEq] at hr
      subst hr
      refine ⟨?_, ?_⟩
      · intro l hl
        cases l with
        | storage d =>
          simp only [List.mem_singleton, Loc.storage.injEq] at hl
          have : ¬ c = d := fun h => hl h.symm
          simp [Same, this]
        | exp e => rfl
        | seq s => rfl
      · intro v ha hs
        have h2 : w.colls[c]? = v.colls[c]? := hs (.storage c) (.inr (by simp))
        have h3 : v.colls[c]? = some es := by rw [← h2, h1]
        refine ⟨{ v with colls := v.colls.set c (es ++ [e]) }, ?_, ?_, ⟨ha.seqs, ha.exps, by simp [ha.colls], ha.handles, ha.refs⟩⟩
        · simp only [step, h3, h5, bind, Except.bind, pure, Except.pure]
        · intro l hl
          simp only [List.mem_singleton] at hl
          subst hl
          simp [Same, (List.getElem?_eq_some_iff.mp h1).1, (List.getElem?_eq_some_iff.mp h3).1]

theorem sound_scan (w : World α) (c : Nat) (a : α) {r : World α × Phase × Log} (hr : step w .idle (.scan c a) = .ok r) :
    Sound w .idle (.scan c a) r := by
  have hr0 := hr
  simp only [step] at hr
  cases h1 : w.colls[c]? with
  | none => simp [h1] at hr
  | some es =>
    simp only [h1] at hr
    cases h2 : Mimic.scan w a es.reverse with
    | error x => simp [h2, bind, Except.bind] at hr
    | ok q =>
      simp only [h2, bind, Except.bind, pure, Except.pure] at hr
      have hw : r.1 = w ∧ r.2.2.writes = [] ∧ r.2.2.reads = Loc.storage c :: es.map .exp ++ seqsOf w es := by
        split at hr
        · cases h3 : pickBestMatch q.full with
          | error x => simp [h3] at hr
          | ok best =>
            simp only [h3, Except.ok.injEq] at hr
            subst hr
            exact ⟨rfl, rfl, rfl⟩
        · split at hr <;> simp only [Except.ok.injEq] at hr <;> subst hr <;> exact ⟨rfl, rfl, rfl⟩
      obtain ⟨hw1, hw2, hw3⟩ := hw
      obtain ⟨w', p', log⟩ := r
      simp only at hw1 hw2 hw3
      subst hw1
      refine ⟨fun l _ => same_refl _ l, ?_⟩
      intro v ha hs
      simp only [hw2, hw3] at hs
      have h4 : v.colls[c]? = some es := by
        have : w'.colls[c]? = v.colls[c]? := hs (.storage c) (.inl (by simp))
        rw [← this, h1]
      have h5 : Mimic.scan v a es.reverse = .ok q := by
        rw [← scan_same a, h2]
        · intro e he
          exact hs (.exp e) (.inl (by simp [List.mem_reverse.mp he]))
        · intro l hl
          refine hs l (.inl ?_)
          simp only [seqsOf, List.mem_flatMap, List.mem_reverse] at hl
          simp only [List.cons_append, List.mem_cons, List.mem_append, seqsOf, List.mem_flatMap]
          exact .inr (.inr hl)
      have hseq : seqsOf v es = seqsOf w' es := by
        unfold seqsOf
        rw [List.flatMap_def, List.flatMap_def]
        congr 1
        apply List.map_congr_left
        intro e he
        have : w'.exps[e]? = v.exps[e]? := hs (.exp e) (.inl (by simp [he]))
        rw [this]
      refine ⟨v, ?_, by simp [hw2], ha⟩
      simp only [step, h4, h5, hseq, bind, Except.bind, pure, Except.pure]
      split at hr
      · rename_i hf
        rw [if_pos hf]
        cases h3 : pickBestMatch q.full with
        | error x => simp [h3] at hr
        | ok best =>
          simp only [h3, Except.ok.injEq, Prod.mk.injEq, true_and] at hr ⊢
          exact hr
      · rename_i hf
        rw [if_neg hf]
        split at hr
        · rename_i hg
          rw [if_pos hg]
          simp only [Except.ok.injEq, Prod.mk.injEq, true_and] at hr ⊢
          exact hr
        · rename_i hg
          rw [if_neg hg]
          simp only [Except.ok.injEq, Prod.mk.injEq, true_and] at hr ⊢
          exact hr

theorem deref_of {w : World α} {e : Nat} {x : Exp α} (h : w.deref e = .ok x) : w.exps[e]? = some x ∧ x.alive = true := by
  unfold World.deref at h
  split at h
  · rename_i y hy
    split at h
    · rename_i ha
      simp only [Except.ok.injEq] at h
      subst h
      exact ⟨hy, ha⟩
    · cases h
  · cases h

theorem sound_consume (w : World α) (e : Nat) {r : World α × Phase × Log} (hr : step w (.reported e) .consume = .ok r) :
    Sound w (.reported e) .consume r := by
  simp only [step, bind, Except.bind, pure, Except.pure] at hr
  cases h1 : w.deref e with
  | error x => simp [h1] at hr
  | ok x =>
    obtain ⟨hx, hal⟩ := deref_of h1
    cases h2 : x.control.consume w.seqs with
    | error y => simp [h1, World.consume, h2, bind, Except.bind] at hr
    | ok y =>
      obtain ⟨g, ctl⟩ := y
      simp only [h1, World.consume, h2, bind, Except.bind, pure, Except.pure, Except.ok.injEq] at hr
      subst hr
      have hmem : ∀ en ∈ x.control.entries, en.1 ∈ x.control.entries.map (·.1) := fun en hen => List.mem_map_of_mem (f := (·.1)) hen
      have hmem' : ∀ s ∈ x.control.entries.map (·.1), Loc.seq s ∈ x.seqLocs := by
        intro s hs
        obtain ⟨en, h3, rfl⟩ := List.mem_map.mp hs
        exact List.mem_map.mpr ⟨en, h3, rfl⟩
      obtain ⟨hon, hen⟩ := only_consume hmem h2
      simp only at hon hen
      have hcount : ∀ (u : World α), u.exps[e]? = some x → ∀ s, (u.exps.set e { x with control := ctl }).countP (fun x => x.alive && x.holds s) =
          u.exps.countP (fun x => x.alive && x.holds s) := by
        intro u hu s
        refine countP_set_eq hu ?_
        simp only [Exp.holds, hen]
      refine ⟨?_, ?_⟩
      · intro l hl
        simp only [List.mem_cons, not_or] at hl
        cases l with
        | storage c => rfl
        | exp k =>
          have : e ≠ k := fun h => hl.1 (by rw [h])
          simp [Same, this]
        | seq s => exact hon.same (fun h => hl.2 (hmem' s h))
      · intro v ha hs
        have h3 : v.exps[e]? = some x := by
          have : w.exps[e]? = v.exps[e]? := hs (.exp e) (.inl (by simp))
          rw [← this, hx]
        have h4 : v.deref e = .ok x := by
          unfold World.deref
          rw [h3]
          simp [hal]
        have hag : Agree (x.control.entries.map (·.1)) w.seqs v.seqs := fun s h => hs (.seq s) (.inl (by simp [hmem' s h]))
        have hm := hag.consume hmem
        rw [h2] at hm
        cases h5 : x.control.consume v.seqs with
        | error y => rw [h5] at hm; cases hm
        | ok y =>
          obtain ⟨g', ctl'⟩ := y
          rw [h5] at hm
          cases hm with
          | ok hm =>
            obtain ⟨h6, h7⟩ := hm
            simp only at h6 h7
            subst h7
            obtain ⟨hon', _⟩ := only_consume hmem h5
            refine ⟨{ v with seqs := g', exps := v.exps.set e { x with control := ctl } }, ?_, ?_, ?_⟩
            · simp only [step, h4, World.consume, h5, bind, Except.bind, pure, Except.pure]
            · intro l hl
              simp only [List.mem_cons] at hl
              rcases hl with rfl | hl
              · simp [Same, (List.getElem?_eq_some_iff.mp hx).1, (List.getElem?_eq_some_iff.mp h3).1]
              · obtain ⟨en, h8, rfl⟩ := List.mem_map.mp hl
                exact h6 en.1 (hmem en h8)
            · refine ⟨?_, by simp [ha.exps], ha.colls, ?_, ?_⟩
              · rw [hon.length, hon'.length, ha.seqs]
              · intro s
                rw [hasHandle_of_only hon, hasHandle_of_only hon', ha.handles]
              · intro s
                have h9 := ha.refs s
                unfold refs at h9 ⊢
                rw [hasHandle_of_only hon, hasHandle_of_only hon']
                simp only [hcount w hx, hcount v h3]
                exact h9

theorem sound_remove (w : World α) (e : Nat) {r : World α × Phase × Log} (hr : step w .idle (.remove e) = .ok r) :
    Sound w .idle (.remove e) r := by
  simp only [step] at hr
  cases h1 : w.exps[e]? with
  | none => simp [h1] at hr
  | some x =>
    simp only [h1] at hr
    split at hr
    · cases hr
    · rename_i hal
      cases h2 : w.colls[x.coll]? with
      | none => simp [h2] at hr
      | some es =>
        simp only [h2] at hr
        cases h3 : check (es.contains e) "remove: assert(iter != end)" with
        | error y => rw [h3] at hr; simp [bind, Except.bind] at hr
        | ok y =>
          simp only [h3, bind, Except.bind, pure, Except.pure, Except.ok.injEq] at hr
          subst hr
          refine ⟨?_, ?_⟩
          · intro l hl
            cases l with
            | storage d =>
              simp only [List.mem_singleton, Loc.storage.injEq] at hl
              have : ¬ x.coll = d := fun h => hl h.symm
              simp [Same, this]
            | exp e => rfl
            | seq s => rfl
          · intro v ha hs
            have h4 : v.exps[e]? = some x := by
              have : w.exps[e]? = v.exps[e]? := hs (.exp e) (.inl (by simp))
              rw [← this, h1]
            have h5 : v.colls[x.coll]? = some es := by
              have : w.colls[x.coll]? = v.colls[x.coll]? := hs (.storage x.coll) (.inr (by simp))
              rw [← this, h2]
            refine ⟨{ v with colls := v.colls.set x.coll (es.erase e) }, ?_, ?_, ⟨ha.seqs, ha.exps, by simp [ha.colls], ha.handles, ha.refs⟩⟩
            · simp only [step, h4, h5, h3, if_neg hal, bind, Except.bind, pure, Except.pure]
            · intro l hl
              simp only [List.mem_singleton] at hl
              subst hl
              simp [Same, (List.getElem?_eq_some_iff.mp h2).1, (List.getElem?_eq_some_iff.mp h5).1]

theorem sound_release (w : World α) (e : Nat) {r : World α × Phase × Log} (hr : step w (.removed e) .release = .ok r) :
    Sound w (.removed e) .release r := by
  simp only [step] at hr
  cases h1 : w.exps[e]? with
  | none => simp [h1] at hr
  | some x =>
    simp only [h1] at hr
    cases h2 : World.releaseAll { w with exps := w.exps.set e { x with alive := false } } (x.control.entries.map (·.1)) with
    | error y => simp [h2, bind, Except.bind] at hr
    | ok y =>
      obtain ⟨w', ev⟩ := y
      simp only [h2, bind, Except.bind, pure, Except.pure, Except.ok.injEq] at hr
      subst hr
      have hal : ∀ v : World α, Alike w v → v.exps[e]? = some x → Alike { w with exps := w.exps.set e { x with alive := false } }
          { v with exps := v.exps.set e { x with alive := false } } := by
        intro v ha hv
        refine ⟨ha.seqs, by simp [ha.exps], ha.colls, ha.handles, ?_⟩
        intro s
        have := ha.refs s
        unfold refs at this ⊢
        exact countP_set_dead h1 hv (by simp) this
      have hsame : ∀ (u : World α) l, l ≠ .exp e → Same u { u with exps := u.exps.set e { x with alive := false } } l := by
        intro u l hl
        cases l with
        | storage c => rfl
        | exp k =>
          have : e ≠ k := fun h => hl (by rw [h])
          simp [Same, this]
        | seq s => rfl
      have hend : ∀ l ∈ ended ev, l ≠ .exp e := by
        rintro l hl rfl
        obtain ⟨E, _, h4⟩ := List.mem_filterMap.mp hl
        split at h4 <;> simp at h4
      refine ⟨?_, ?_⟩
      · intro l hl
        simp only [List.mem_cons, not_or] at hl
        obtain ⟨_, _, _, _, h5⟩ := releaseAll_same (hal w ⟨rfl, rfl, rfl, fun _ => rfl, fun _ => rfl⟩ h1) h2 (fun l _ => same_refl _ l)
        exact same_trans (hsame w l hl.1) (h5 l hl.2)
      · intro v ha hs
        have h4 : v.exps[e]? = some x := by
          have : w.exps[e]? = v.exps[e]? := hs (.exp e) (.inr (by simp))
          rw [← this, h1]
        have hto : ∀ l, Same w v l → Same { w with exps := w.exps.set e { x with alive := false } }
            { v with exps := v.exps.set e { x with alive := false } } l := by
          intro l hl
          by_cases he : l = .exp e
          · subst he
            simp [Same, (List.getElem?_eq_some_iff.mp h1).1, (List.getElem?_eq_some_iff.mp h4).1]
          · exact same_trans (same_symm (hsame w l he)) (same_trans hl (hsame v l he))
        obtain ⟨v', h5, h6, h7, h8⟩ := releaseAll_same (hal v ha h4) h2 (fun l hl => hto l (hs l (.inr (by simp [hl]))))
        refine ⟨v', ?_, ?_, h6⟩
        · simp only [step, h4, h5, bind, Except.bind, pure, Except.pure]
        · intro l hl
          exact h7 l (hto l (hs l (.inr hl)))

theorem sound_query (w : World α) (e : Nat) {r : World α × Phase × Log} (hr : step w .idle (.query e) = .ok r) :
    Sound w .idle (.query e) r := by
  simp only [step] at hr
  cases h1 : w.exps[e]? with
  | none => simp [h1] at hr
  | some x =>
    simp only [h1] at hr
    split at hr
    · rename_i hal
      simp only [Except.ok.injEq] at hr
      subst hr
      refine ⟨fun l _ => same_refl _ l, ?_⟩
      intro v ha hs
      have h4 : v.exps[e]? = some x := by
        have : w.exps[e]? = v.exps[e]? := hs (.exp e) (.inl (by simp))
        rw [← this, h1]
      refine ⟨v, ?_, by simp, ha⟩
      simp only [step, h4, hal, if_true]
    · cases hr

theorem sound_step {w : World α} {p : Phase} {a : Act α} {r : World α × Phase × Log} (hr : step w p a = .ok r) : Sound w p a r := by
  cases p with
  | idle =>
    cases a with
    | newSequence st => exact sound_newSequence w st hr
    | dropSequence s => exact sound_dropSequence w s hr
    | newMock => exact sound_newMock w hr
    | attach c min max tags ps => exact sound_attach w c min max tags ps hr
    | scan c a => exact sound_scan w c a hr
    | remove e => exact sound_remove w e hr
    | query e => exact sound_query w e hr
    | _ => simp [step] at hr
  | built c e =>
    cases a with
    | push => exact sound_push w c e hr
    | _ => simp [step] at hr
  | matched e =>
    cases a with
    | report =>
      simp only [step, Except.ok.injEq] at hr
      subst hr
      exact ⟨fun l _ => same_refl _ l, fun v ha _ => ⟨v, rfl, by simp, ha⟩⟩
    | _ => simp [step] at hr
  | reported e =>
    cases a with
    | consume => exact sound_consume w e hr
    | _ => simp [step] at hr
  | removed e =>
    cases a with
    | release => exact sound_release w e hr
    | _ => simp [step] at hr

/-! ### Locks and queries -/

theorem query_answer {w : World α} {e : Nat} {r : World α × Phase × Log} (hr : step w .idle (.query e) = .ok r) :
    ∃ x, w.exps[e]? = some x ∧ r.1 = w ∧ r.2.2.answer = some x.isSatisfied := by
  simp only [step] at hr
  cases h1 : w.exps[e]? with
  | none => simp [h1] at hr
  | some x =>
    simp only [h1] at hr
    split at hr
    · simp only [Except.ok.injEq] at hr
      subst hr
      exact ⟨x, rfl, rfl, rfl⟩
    · cases hr

theorem remove_cases {w : World α} {e : Nat} {r : World α × Phase × Log} (hr : step w .idle (.remove e) = .ok r) :
    ∃ x, w.exps[e]? = some x ∧ r.2.2.ev = .destroyed e :: (if x.isSatisfied then [] else [.unfulfilled e]) ∧
      r.2.2.reads = .exp e :: (if x.isSatisfied then [] else x.seqLocs) ∧ r.2.2.writes = [.storage x.coll] ∧ r.2.2.mutex = some x.coll := by
  simp only [step] at hr
  cases h1 : w.exps[e]? with
  | none => simp [h1] at hr
  | some x =>
    simp only [h1] at hr
    split at hr
    · cases hr
    · cases h2 : w.colls[x.coll]? with
      | none => simp [h2] at hr
      | some es =>
        simp only [h2] at hr
        cases h3 : check (es.contains e) "remove: assert(iter != end)" with
        | error y => rw [h3] at hr; simp [bind, Except.bind] at hr
        | ok y =>
          simp only [h3, bind, Except.bind, pure, Except.pure, Except.ok.injEq] at hr
          subst hr
          exact ⟨x, rfl, rfl, rfl, rfl, rfl⟩

theorem remove_verdict {w : World α} {e : Nat} {r : World α × Phase × Log} (hr : step w .idle (.remove e) = .ok r) :
    ∃ x, w.exps[e]? = some x ∧ (.unfulfilled e ∈ r.2.2.ev ↔ x.isSatisfied = false) := by
  obtain ⟨x, h1, h2, _⟩ := remove_cases hr
  refine ⟨x, h1, ?_⟩
  rw [h2]
  cases x.isSatisfied <;> simp

theorem not_storage_ended (ev : List Event) (c : Nat) : Loc.storage c ∉ ended ev := by
  intro h
  obtain ⟨E, _, h4⟩ := List.mem_filterMap.mp h
  split at h4 <;> simp at h4

theorem not_storage_seqsOf (w : World α) (es : List Nat) (c : Nat) : Loc.storage c ∉ seqsOf w es := by
  intro h
  obtain ⟨E, _, h4⟩ := List.mem_flatMap.mp h
  split at h4
  · simp [Exp.seqLocs] at h4
  · simp at h4

theorem storage_locked {w w' : World α} {p p' : Phase} {a : Act α} {log : Log} (h : step w p a = .ok (w', p', log)) (c : Nat)
    (hc : .storage c ∈ log.reads ∨ .storage c ∈ log.writes) : log.mutex = some c ∨ c = w.colls.length := by
  cases p with
  | idle =>
    cases a with
    | newSequence st =>
      simp only [step, bind, Except.bind, pure, Except.pure, World.step, Except.ok.injEq, Prod.mk.injEq] at h
      obtain ⟨_, _, rfl⟩ := h
      simp at hc
    | dropSequence s =>
      simp only [step, bind, Except.bind, pure, Except.pure] at h
      cases h1 : w.step (.dropSequence s) with
      | error x => simp [h1] at h
      | ok x =>
        simp only [h1, Except.ok.injEq, Prod.mk.injEq] at h
        obtain ⟨_, _, rfl⟩ := h
        simp [not_storage_ended] at hc
    | newMock =>
      simp only [step, bind, Except.bind, pure, Except.pure, World.step, Except.ok.injEq, Prod.mk.injEq] at h
      obtain ⟨_, _, rfl⟩ := h
      simp at hc
      exact .inr hc
    | attach m min max tags ps =>
      simp only [step] at h
      split at h
      · cases h
      · split at h
        · split at h
          · rename_i t ts _ _
            cases h4 : Control.make t ts w.seqs with
            | error x => simp [h4, bind, Except.bind] at h
            | ok x =>
              simp only [h4, bind, Except.bind, pure, Except.pure, Except.ok.injEq, Prod.mk.injEq] at h
              obtain ⟨_, _, rfl⟩ := h
              simp at hc
          · simp only [Except.ok.injEq, Prod.mk.injEq] at h
            obtain ⟨_, _, rfl⟩ := h
            simp at hc
        · cases h
    | scan m b =>
      simp only [step] at h
      cases h1 : w.colls[m]? with
      | none => simp [h1] at h
      | some es =>
        simp only [h1] at h
        cases h2 : Mimic.scan w b es.reverse with
        | error x => simp [h2, bind, Except.bind] at h
        | ok q =>
          simp only [h2, bind, Except.bind, pure, Except.pure] at h
          have hw : log.writes = [] ∧ log.reads = Loc.storage m :: es.map .exp ++ seqsOf w es ∧ log.mutex = some m := by
            split at h
            · cases h3 : pickBestMatch q.full with
              | error x => simp [h3] at h
              | ok best =>
                simp only [h3, Except.ok.injEq, Prod.mk.injEq] at h
                obtain ⟨_, _, rfl⟩ := h
                exact ⟨rfl, rfl, rfl⟩
            · split at h <;> simp only [Except.ok.injEq, Prod.mk.injEq] at h <;> obtain ⟨_, _, rfl⟩ := h <;> exact ⟨rfl, rfl, rfl⟩
          rw [hw.1, hw.2.1] at hc
          simp [not_storage_seqsOf] at hc
          rw [hw.2.2, hc]
          exact .inl rfl
    | remove e =>
      obtain ⟨x, _, _, h2, h3, h4⟩ := remove_cases h
      simp only at h2 h3 h4
      rw [h2, h3] at hc
      rw [h4]
      left
      rcases hc with hc | hc
      · exfalso
        split at hc <;> simp [Exp.seqLocs] at hc
      · simp at hc
        rw [hc]
    | query e =>
      simp only [step] at h
      split at h
      · cases h
      · split at h
        · simp only [Except.ok.injEq, Prod.mk.injEq] at h
          obtain ⟨_, _, rfl⟩ := h
          simp at hc
        · cases h
    | _ => simp [step] at h
  | built m e =>
    cases a with
    | push =>
      simp only [step] at h
      cases h1 : w.colls[m]? with
      | none => simp [h1] at h
      | some es =>
        simp only [h1] at h
        cases h5 : check (!es.contains e) "push: assert(find == end)" with
        | error x => rw [h5] at h; simp [bind, Except.bind] at h
        | ok x =>
          simp only [h5, bind, Except.bind, pure, Except.pure, Except.ok.injEq, Prod.mk.injEq] at h
          obtain ⟨_, _, rfl⟩ := h
          simp at hc
          left
          rw [hc]
    | _ => simp [step] at h
  | matched e =>
    cases a with
    | report =>
      simp only [step, Except.ok.injEq, Prod.mk.injEq] at h
      obtain ⟨_, _, rfl⟩ := h
      simp at hc
    | _ => simp [step] at h
  | reported e =>
    cases a with
    | consume =>
      simp only [step, bind, Except.bind, pure, Except.pure] at h
      cases h1 : w.deref e with
      | error x => simp [h1] at h
      | ok x =>
        simp only [h1] at h
        cases h2 : w.consume e with
        | error y => simp [h2] at h
        | ok y =>
          simp only [h2, Except.ok.injEq, Prod.mk.injEq] at h
          obtain ⟨_, _, rfl⟩ := h
          simp [Exp.seqLocs] at hc
    | _ => simp [step] at h
  | removed e =>
    cases a with
    | release =>
      simp only [step] at h
      split at h
      · cases h
      · simp only [bind, Except.bind, pure, Except.pure] at h
        split at h
        · cases h
        · simp only [Except.ok.injEq, Prod.mk.injEq] at h
          obtain ⟨_, _, rfl⟩ := h
          simp [not_storage_ended] at hc
    | _ => simp [step] at h

end Mimic.Threads
