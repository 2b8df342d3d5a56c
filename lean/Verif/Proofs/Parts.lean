import Verif.Spec.Parts
import Verif.Proofs.Alike

/-!
# Lemmas on tests that consist of independent parts
-/

set_option autoImplicit false

namespace Mimic.Parts

variable {α ι : Type}

inductive All2 {A B : Type} (R : A → B → Prop) : List A → List B → Prop
  | nil : All2 R [] []
  | cons {a : A} {b : B} {as : List A} {bs : List B} : R a b → All2 R as bs → All2 R (a :: as) (b :: bs)

theorem All2.mono {A B : Type} {R S : A → B → Prop} (h : ∀ a b, R a b → S a b) {as : List A} {bs : List B} (h2 : All2 R as bs) :
    All2 S as bs := by
  induction h2 with
  | nil => exact .nil
  | cons hr _ ih => exact .cons (h _ _ hr) ih

theorem All2.append {A B : Type} {R : A → B → Prop} {as as' : List A} {bs bs' : List B} (h : All2 R as bs) (h' : All2 R as' bs') :
    All2 R (as ++ as') (bs ++ bs') := by
  induction h with
  | nil => exact h'
  | cons hr _ ih => exact .cons hr ih

theorem All2.reverse {A B : Type} {R : A → B → Prop} {as : List A} {bs : List B} (h : All2 R as bs) : All2 R as.reverse bs.reverse := by
  induction h with
  | nil => exact .nil
  | cons hr _ ih => simp only [List.reverse_cons]; exact ih.append (.cons hr .nil)

theorem All2.map {A B C D : Type} {R : A → B → Prop} {S : C → D → Prop} {f : A → C} {g : B → D} (hf : ∀ a b, R a b → S (f a) (g b))
    {as : List A} {bs : List B} (h : All2 R as bs) : All2 S (as.map f) (bs.map g) := by
  induction h with
  | nil => exact .nil
  | cons hr _ ih => exact .cons (hf _ _ hr) ih

theorem All2.isEmpty {A B : Type} {R : A → B → Prop} {as : List A} {bs : List B} (h : All2 R as bs) : as.isEmpty = bs.isEmpty := by
  cases h <;> rfl

theorem All2.mem_right {A B : Type} {R : A → B → Prop} {as : List A} {bs : List B} (h : All2 R as bs) {b : B} (hb : b ∈ bs) :
    ∃ a ∈ as, R a b := by
  induction h with
  | nil => simp at hb
  | cons hr _ ih => grind

theorem All2.mem_left {A B : Type} {R : A → B → Prop} {as : List A} {bs : List B} (h : All2 R as bs) {a : A} (ha : a ∈ as) :
    ∃ b ∈ bs, R a b := by
  induction h with
  | nil => simp at ha
  | cons hr _ ih => grind

/-- `l` gives the number `K` to `k`. -/
abbrev At (l : List Nat) (k K : Nat) : Prop := l[k]? = some K

theorem At.inj {l : List Nat} (hn : l.Nodup) {k k' K : Nat} (h : At l k K) (h' : At l k' K) : k = k' := by
  obtain ⟨h1, h2⟩ := List.getElem?_eq_some_iff.mp h
  obtain ⟨h3, h4⟩ := List.getElem?_eq_some_iff.mp h'
  have e1 := List.Nodup.idxOf_getElem hn k h1
  have e2 := List.Nodup.idxOf_getElem hn k' h3
  rw [h2] at e1
  rw [h4] at e2
  omega

theorem At.eq_iff {l : List Nat} (hn : l.Nodup) {k k' K K' : Nat} (h : At l k K) (h' : At l k' K') : k = k' ↔ K = K' := by
  constructor
  · rintro rfl
    rw [At] at h h'
    rw [h] at h'
    simpa using h'
  · rintro rfl
    exact h.inj hn h'

theorem At.mem {l : List Nat} {k K : Nat} (h : At l k K) : K ∈ l := List.mem_of_getElem? h

theorem At.of_mem {l : List Nat} {K : Nat} (h : K ∈ l) : ∃ k, At l k K := List.getElem?_of_mem h

theorem At.more {l : List Nat} {k K : Nat} (h : At l k K) (l' : List Nat) : At (l ++ l') k K := by
  obtain ⟨h1, h2⟩ := List.getElem?_eq_some_iff.mp h
  rw [At, List.getElem?_append_left h1, h]

theorem At.idxOf {l : List Nat} (hn : l.Nodup) {k K : Nat} (h : At l k K) : l.idxOf K = k := by
  have hm := h.mem
  have : At l (l.idxOf K) K := by
    rw [At, List.getElem?_eq_getElem (List.idxOf_lt_length_of_mem hm), List.getElem_idxOf]
  exact this.inj hn h

/-- Nothing changes outside of `l`. -/
structure Frame {A : Type} (l : List Nat) (H H' : List A) : Prop where
  length : H'.length = H.length
  get : ∀ K : Nat, K ∉ l → H'[K]? = H[K]?

theorem Frame.refl {A : Type} (l : List Nat) (H : List A) : Frame l H H := ⟨rfl, fun _ _ => rfl⟩

theorem Frame.trans {A : Type} {l : List Nat} {H H' H'' : List A} (h : Frame l H H') (h' : Frame l H' H'') : Frame l H H'' :=
  ⟨h'.length.trans h.length, fun K hK => (h'.get K hK).trans (h.get K hK)⟩

theorem Frame.set {A : Type} {l : List Nat} (H : List A) {K : Nat} (h : K ∈ l) (x : A) : Frame l H (H.set K x) :=
  ⟨by simp, fun K' hK' => by rw [List.getElem?_set_ne]; rintro rfl; exact hK' h⟩

theorem Frame.modify {A : Type} {l : List Nat} (H : List A) {K : Nat} (h : K ∈ l) (f : A → A) : Frame l H (H.modify K f) :=
  ⟨by simp, fun K' hK' => by rw [List.getElem?_modify_ne]; rintro rfl; exact hK' h⟩

/-- The table `h` of a part, and the table `H` of all. -/
structure TableRel {A B : Type} (R : A → B → Prop) (l : List Nat) (h : List A) (H : List B) : Prop where
  nodup : l.Nodup
  length : l.length = h.length
  get : ∀ k K : Nat, At l k K → ∃ (x : A) (X : B), h[k]? = some x ∧ H[K]? = some X ∧ R x X

theorem TableRel.set {A B : Type} {R : A → B → Prop} {l : List Nat} {h : List A} {H : List B} (ht : TableRel R l h H) {k K : Nat}
    (hk : At l k K) {x : A} {X : B} (hr : R x X) : TableRel R l (h.set k x) (H.set K X) := by
  refine ⟨ht.nodup, by simpa using ht.length, fun k' K' hk' => ?_⟩
  obtain ⟨y, Y, h1, h2, h3⟩ := ht.get k' K' hk'
  by_cases e : k = k'
  · subst e
    have : K = K' := (hk.eq_iff ht.nodup hk').mp rfl
    subst this
    refine ⟨x, X, ?_, ?_, hr⟩
    · rw [List.getElem?_set_self (List.getElem?_eq_some_iff.mp h1).1]
    · rw [List.getElem?_set_self (List.getElem?_eq_some_iff.mp h2).1]
  · have e' : K ≠ K' := fun h => e ((hk.eq_iff ht.nodup hk').mpr h)
    exact ⟨y, Y, by rw [List.getElem?_set_ne e, h1], by rw [List.getElem?_set_ne e', h2], h3⟩

theorem TableRel.add {A B : Type} {R : A → B → Prop} {l : List Nat} {h : List A} {H : List B} (ht : TableRel R l h H)
    {x : A} {X : B} (hr : R x X) : TableRel R (l ++ [H.length]) (h ++ [x]) (H ++ [X]) := by
  have hlt : ∀ K ∈ l, K < H.length := by
    intro K hK
    obtain ⟨k, hk⟩ := At.of_mem hK
    obtain ⟨_, _, _, h2, _⟩ := ht.get k K hk
    exact (List.getElem?_eq_some_iff.mp h2).1
  refine ⟨?_, by simp [ht.length], fun k K hk => ?_⟩
  · rw [List.nodup_append]
    refine ⟨ht.nodup, by simp, ?_⟩
    intro a ha b hb
    have := hlt a ha
    simp at hb
    omega
  · rw [At, List.getElem?_append] at hk
    split at hk
    · obtain ⟨y, Y, h1, h2, h3⟩ := ht.get k K hk
      refine ⟨y, Y, ?_, ?_, h3⟩
      · rw [List.getElem?_append_left (List.getElem?_eq_some_iff.mp h1).1, h1]
      · rw [List.getElem?_append_left (List.getElem?_eq_some_iff.mp h2).1, h2]
    · rename_i hk'
      have e : k = l.length := by
        rcases Nat.lt_or_ge (k - l.length) 1 with h0 | h0
        · omega
        · rw [List.getElem?_eq_none (by simpa using h0)] at hk
          simp at hk
      subst e
      simp only [Nat.sub_self, List.getElem?_cons_zero, Option.some.injEq] at hk
      subst hk
      exact ⟨x, X, by simp [ht.length], by simp, hr⟩

theorem TableRel.frame {A B : Type} {R : A → B → Prop} {l : List Nat} {h : List A} {H H' : List B} (ht : TableRel R l h H)
    (hf : ∀ K ∈ l, H'[K]? = H[K]?) : TableRel R l h H' :=
  ⟨ht.nodup, ht.length, fun k K hk => by
    obtain ⟨x, X, h1, h2, h3⟩ := ht.get k K hk
    exact ⟨x, X, h1, by rw [hf K hk.mem, h2], h3⟩⟩

theorem TableRel.mono {A B : Type} {R S : A → B → Prop} (hrs : ∀ a b, R a b → S a b) {l : List Nat} {h : List A} {H : List B}
    (ht : TableRel R l h H) : TableRel S l h H :=
  ⟨ht.nodup, ht.length, fun k K hk => by
    obtain ⟨x, X, h1, h2, h3⟩ := ht.get k K hk
    exact ⟨x, X, h1, h2, hrs _ _ h3⟩⟩

/-! ## Sequences -/

abbrev SeqsRel (l : List Nat) (h H : Seqs) : Prop := TableRel (fun c C : SeqCell => c = C) l h H

theorem SeqsRel.get' {l : List Nat} {h H : Seqs} (hs : SeqsRel l h H) {k K : Nat} (hk : At l k K) : h[k]? = H[K]? := by
  obtain ⟨x, X, h1, h2, rfl⟩ := TableRel.get hs k K hk
  rw [h1, h2]

theorem SeqsRel.deref {l : List Nat} {h H : Seqs} (hs : SeqsRel l h H) {k K : Nat} (hk : At l k K) : h.deref k = H.deref K := by
  unfold Seqs.deref
  rw [hs.get' hk]

theorem SeqsRel.modify {l : List Nat} {h H : Seqs} (hs : SeqsRel l h H) {k K : Nat} (hk : At l k K) (f : SeqCell → SeqCell) :
    SeqsRel l (h.modify k f) (H.modify K f) := by
  obtain ⟨x, X, h1, h2, rfl⟩ := TableRel.get hs k K hk
  have e : ∀ (L : Seqs) (i : Nat), L[i]? = some x → L.modify i f = L.set i (f x) := by
    intro L i hi
    apply List.ext_getElem?
    intro n
    rw [List.getElem?_modify, List.getElem?_set]
    have := (List.getElem?_eq_some_iff.mp hi).1
    by_cases e : i = n
    · subst e
      rw [hi]
      simp [this]
    · simp [e]
  rw [e h k h1, e H K h2]
  exact TableRel.set hs hk rfl

/-- What a change of the sequences of a part does. -/
structure SeqsStep (l : List Nat) (H h' H' : Seqs) : Prop where
  rel : SeqsRel l h' H'
  frame : Frame l H H'

theorem apply_like {l : List Nat} {h H : Seqs} (hs : SeqsRel l h H) {k K : Nat} (hk : At l k K) (f : Sequence → M Sequence) :
    MLike (SeqsStep l H) (h.apply k f) (H.apply K f) := by
  unfold Seqs.apply
  rw [hs.deref hk]
  refine MLike.bind (MLike.refl (R := fun s t => s = t) (fun _ => rfl) _) ?_
  rintro q _ rfl
  refine MLike.bind (MLike.refl (R := fun s t => s = t) (fun _ => rfl) _) ?_
  rintro q' _ rfl
  exact .ok ⟨hs.modify hk _, Frame.modify _ hk.mem _⟩

def EntryRel (l : List Nat) (e E : Nat × Int) : Prop := At l e.1 E.1 ∧ e.2 = E.2

theorem makeSequenceEntries_like {l : List Nat} {ts Ts : List Nat} (ht : All2 (At l) ts Ts) {h H : Seqs} (hs : SeqsRel l h H) :
    MLike (fun r R => SeqsStep l H r.1 R.1 ∧ All2 (EntryRel l) r.2 R.2) (makeSequenceEntries h ts) (makeSequenceEntries H Ts) := by
  induction ht generalizing h H with
  | nil => exact .ok ⟨⟨hs, .refl _ _⟩, .nil⟩
  | @cons s S ts Ts hk _ ih =>
    unfold makeSequenceEntries
    rw [hs.deref hk]
    refine MLike.bind (MLike.refl (R := fun s t => s = t) (fun _ => rfl) _) ?_
    rintro q _ rfl
    cases q.add with
    | none => exact .error _
    | some p =>
      obtain ⟨q', id⟩ := p
      have f := Frame.modify (l := l) H hk.mem (fun c : SeqCell => { c with seq := q' })
      refine MLike.bind (ih (hs.modify hk _)) ?_
      rintro ⟨h', es⟩ ⟨H', Es⟩ ⟨h1, h2⟩
      exact .ok ⟨⟨h1.rel, f.trans h1.frame⟩, .cons ⟨hk, rfl⟩ h2⟩

theorem forEntries_like {l : List Nat} (f : Sequence → Int → M Sequence) {es Es : List (Nat × Int)} (he : All2 (EntryRel l) es Es)
    {h H : Seqs} (hs : SeqsRel l h H) : MLike (SeqsStep l H) (forEntries f es h) (forEntries f Es H) := by
  induction he generalizing h H with
  | nil => exact .ok ⟨hs, .refl _ _⟩
  | @cons e E es Es hr _ ih =>
    obtain ⟨s, id⟩ := e
    obtain ⟨S, ID⟩ := E
    obtain ⟨h1, h2⟩ := hr
    simp only at h1 h2
    subst h2
    unfold forEntries
    refine MLike.bind (apply_like hs h1 _) ?_
    intro h' H' hh
    cases hm : forEntries f es h' with
    | error x =>
      have := ih hh.rel
      rw [hm] at this
      cases hM : forEntries f Es H' with
      | error y => rw [hM] at this; cases this; exact .error _
      | ok y => rw [hM] at this; cases this
    | ok x =>
      have := ih hh.rel
      rw [hm] at this
      cases hM : forEntries f Es H' with
      | error y => rw [hM] at this; cases this
      | ok y =>
        rw [hM] at this
        cases this with
        | ok this => exact .ok ⟨this.rel, hh.frame.trans this.frame⟩

structure CtrlRel (l : List Nat) (c C : Control) : Prop where
  min : c.min = C.min
  max : c.max = C.max
  count : c.count = C.count
  entries : All2 (EntryRel l) c.entries C.entries

theorem update_like {l : List Nat} {c C : Control} (hc : CtrlRel l c C) {h H : Seqs} (hs : SeqsRel l h H) :
    MLike (SeqsStep l H) (c.updateSequenceStates h) (C.updateSequenceStates H) := by
  unfold Control.updateSequenceStates
  rw [hc.min, hc.max, hc.count]
  split
  · exact forEntries_like _ hc.entries hs
  · split
    · exact forEntries_like _ hc.entries hs
    · exact .ok ⟨hs, .refl _ _⟩

theorem make_like {l : List Nat} (t : TimesConfig) {ts Ts : List Nat} (ht : All2 (At l) ts Ts) {h H : Seqs} (hs : SeqsRel l h H) :
    MLike (fun r R => SeqsStep l H r.1 R.1 ∧ CtrlRel l r.2 R.2) (Control.make t ts h) (Control.make t Ts H) := by
  unfold Control.make
  refine MLike.bind (makeSequenceEntries_like ht hs) ?_
  rintro ⟨h', es⟩ ⟨H', Es⟩ ⟨h1, h2⟩
  have hc : CtrlRel l { min := t.min, max := t.max, count := 0, entries := es } { min := t.min, max := t.max, count := 0, entries := Es } :=
    ⟨rfl, rfl, rfl, h2⟩
  refine MLike.bind (update_like hc h1.rel) ?_
  intro h'' H'' h3
  exact .ok ⟨⟨h3.rel, h1.frame.trans h3.frame⟩, hc⟩

theorem allConsumable_like {l : List Nat} {es Es : List (Nat × Int)} (he : All2 (EntryRel l) es Es) {h H : Seqs} (hs : SeqsRel l h H) :
    allConsumable h es = allConsumable H Es := by
  induction he with
  | nil => rfl
  | @cons e E es Es hr _ ih =>
    obtain ⟨s, id⟩ := e
    obtain ⟨S, ID⟩ := E
    obtain ⟨h1, h2⟩ := hr
    simp only at h1 h2
    subst h2
    unfold allConsumable
    rw [hs.deref h1, ih]

theorem consume_like' {l : List Nat} {c C : Control} (hc : CtrlRel l c C) {h H : Seqs} (hs : SeqsRel l h H) :
    MLike (fun r R => SeqsStep l H r.1 R.1 ∧ CtrlRel l r.2 R.2) (c.consume h) (C.consume H) := by
  unfold Control.consume
  have : c.isApplicable h = C.isApplicable H := by
    unfold Control.isApplicable
    rw [hc.count, hc.max, allConsumable_like hc.entries hs]
  rw [this, hc.count]
  refine MLike.bind (MLike.refl (R := fun s t => s = t) (fun _ => rfl) _) ?_
  rintro q _ rfl
  refine MLike.bind (MLike.refl (R := fun s t => s = t) (fun _ => rfl) _) ?_
  rintro _ _ _
  refine MLike.bind (forEntries_like _ hc.entries hs) ?_
  intro h' H' h1
  refine MLike.bind (MLike.refl (R := fun s t => s = t) (fun _ => rfl) _) ?_
  rintro n _ rfl
  have hc' : CtrlRel l { c with count := n } { C with count := n } := ⟨hc.min, hc.max, rfl, hc.entries⟩
  refine MLike.bind (update_like hc' h1.rel) ?_
  intro h'' H'' h3
  exact .ok ⟨⟨h3.rel, h1.frame.trans h3.frame⟩, hc'⟩

def RatingRel (l : List Nat) (r R : Rating) : Prop := r.priority = R.priority ∧ At l r.tag R.tag

inductive StateRel (l : List Nat) : ControlState → ControlState → Prop
  | inapplicable {min max count : Int} {rs Rs : List Rating} {is Is : List Nat} : All2 (RatingRel l) rs Rs → All2 (At l) is Is →
      StateRel l (.inapplicable min max count rs is) (.inapplicable min max count Rs Is)
  | applicable {min max count : Int} {rs Rs : List Rating} : All2 (RatingRel l) rs Rs →
      StateRel l (.applicable min max count rs) (.applicable min max count Rs)
  | saturated {min max count : Int} {ts Ts : List Nat} : All2 (At l) ts Ts →
      StateRel l (.saturated min max count ts) (.saturated min max count Ts)

theorem collectRatings_like {l : List Nat} {es Es : List (Nat × Int)} (he : All2 (EntryRel l) es Es) {h H : Seqs} (hs : SeqsRel l h H) :
    MLike (fun r R => All2 (RatingRel l) r.1 R.1 ∧ All2 (At l) r.2 R.2) (collectRatings h es) (collectRatings H Es) := by
  induction he with
  | nil => exact .ok ⟨.nil, .nil⟩
  | @cons e E es Es hr _ ih =>
    obtain ⟨s, id⟩ := e
    obtain ⟨S, ID⟩ := E
    obtain ⟨h1, h2⟩ := hr
    simp only at h1 h2
    subst h2
    unfold collectRatings
    rw [hs.deref h1]
    refine MLike.bind (MLike.refl (R := fun s t => s = t) (fun _ => rfl) _) ?_
    rintro q _ rfl
    refine MLike.bind (MLike.refl (R := fun s t => s = t) (fun _ => rfl) _) ?_
    rintro p _ rfl
    cases p with
    | some p =>
      refine MLike.bind ih ?_
      rintro ⟨rs, is⟩ ⟨Rs, Is⟩ ⟨h3, h4⟩
      exact .ok ⟨.cons ⟨rfl, h1⟩ h3, h4⟩
    | none =>
      refine MLike.bind ih ?_
      rintro ⟨rs, is⟩ ⟨Rs, Is⟩ ⟨h3, h4⟩
      exact .ok ⟨h3, .cons h1 h4⟩

theorem derefTags_like {l : List Nat} {es Es : List (Nat × Int)} (he : All2 (EntryRel l) es Es) {h H : Seqs} (hs : SeqsRel l h H) :
    MLike (fun r R => All2 (At l) r R) (derefTags h es) (derefTags H Es) := by
  induction he with
  | nil => exact .ok .nil
  | @cons e E es Es hr _ ih =>
    obtain ⟨s, id⟩ := e
    obtain ⟨S, ID⟩ := E
    obtain ⟨h1, h2⟩ := hr
    simp only at h1 h2
    subst h2
    unfold derefTags
    rw [hs.deref h1]
    refine MLike.bind (MLike.refl (R := fun s t => s = t) (fun _ => rfl) _) ?_
    rintro q _ rfl
    refine MLike.bind ih ?_
    intro ts Ts h3
    exact .ok (.cons h1 h3)

theorem state_like {l : List Nat} {c C : Control} (hc : CtrlRel l c C) {h H : Seqs} (hs : SeqsRel l h H) :
    MLike (StateRel l) (c.state h) (C.state H) := by
  unfold Control.state
  rw [hc.min, hc.max, hc.count]
  split
  · refine MLike.bind (derefTags_like hc.entries hs) ?_
    intro ts Ts ht
    exact .ok (.saturated ht)
  · refine MLike.bind (collectRatings_like hc.entries hs) ?_
    rintro ⟨rs, is⟩ ⟨Rs, Is⟩ ⟨h1, h2⟩
    simp only [h2.isEmpty]
    split
    · exact .ok (.applicable h1)
    · exact .ok (.inapplicable h1 h2)

/-! ## Match reports -/

theorem find_like {l : List Nat} (hn : l.Nodup) {rs Rs : List Rating} (h : All2 (RatingRel l) rs Rs) {t T : Nat} (ht : At l t T) :
    (rs.find? (fun r => r.tag == t)).map (·.priority) = (Rs.find? (fun r => r.tag == T)).map (·.priority) := by
  induction h with
  | nil => rfl
  | @cons r R rs Rs hr _ ih =>
    have : (r.tag == t) = (R.tag == T) := by
      rw [Bool.eq_iff_iff]
      simp only [beq_iff_eq]
      exact hr.2.eq_iff hn ht
    rw [List.find?_cons, List.find?_cons, this]
    cases R.tag == T
    · exact ih
    · simp [hr.1]

theorem betterLoop_like {l : List Nat} (hn : l.Nodup) {ls Ls rs Rs : List Rating} (hl : All2 (RatingRel l) ls Ls)
    (hr : All2 (RatingRel l) rs Rs) (n : Int) : hasBetterRatingLoop rs ls n = hasBetterRatingLoop Rs Ls n := by
  induction hl generalizing n with
  | nil => rfl
  | @cons a A ls Ls ha _ ih =>
    have hf := find_like hn hr ha.2
    unfold hasBetterRatingLoop
    rcases h1 : rs.find? (fun r => r.tag == a.tag) with _ | r
    · rcases h2 : Rs.find? (fun r => r.tag == A.tag) with _ | R
      · rw [h1, h2]
      · simp [h1, h2] at hf
    · rcases h2 : Rs.find? (fun r => r.tag == A.tag) with _ | R
      · simp [h1, h2] at hf
      · simp only [h1, h2, Option.map_some, Option.some.injEq] at hf
        rw [h1, h2]
        simp only [hf, ha.1]
        exact ih _

structure ReportRel (N : Names) (r R : MatchReport) : Prop where
  exp : At N.exps r.exp R.exp
  control : StateRel N.seqs r.control R.control
  results : r.results = R.results

theorem ReportRel.evaluate {N : Names} {r R : MatchReport} (h : ReportRel N r R) : evaluateMatchReport r = evaluateMatchReport R := by
  have : r.control.isApplicable = R.control.isApplicable := by
    have := h.control
    rcases r with ⟨_, c, _⟩
    rcases R with ⟨_, C, _⟩
    simp only at this ⊢
    cases this <;> rfl
  simp only [evaluateMatchReport, this, h.results]

theorem ReportRel.ratings {N : Names} {r R : MatchReport} (h : ReportRel N r R) :
    MLike (fun r R => All2 (RatingRel N.seqs) r R) r.ratings R.ratings := by
  have := h.control
  rcases r with ⟨_, c, _⟩
  rcases R with ⟨_, C, _⟩
  simp only at this
  unfold MatchReport.ratings
  cases this with
  | applicable h' => exact .ok h'
  | inapplicable _ _ => exact .error _
  | saturated _ => exact .error _

theorem pickLoop_like' {N : Names} (hn : N.seqs.Nodup) {rs Rs : List MatchReport} (h : All2 (ReportRel N) rs Rs) {b B : MatchReport}
    (hb : ReportRel N b B) : MLike (ReportRel N) (pickLoop b rs) (pickLoop B Rs) := by
  induction h generalizing b B with
  | nil => exact .ok hb
  | @cons r R rs Rs hr _ ih =>
    unfold pickLoop
    refine MLike.bind hb.ratings ?_
    intro x X hx
    refine MLike.bind hr.ratings ?_
    intro y Y hy
    have : hasBetterRating x y = hasBetterRating X Y := betterLoop_like hn hx hy 0
    rw [this]
    split
    · exact ih hb
    · exact ih hr

theorem pickBest_like' {N : Names} (hn : N.seqs.Nodup) {rs Rs : List MatchReport} (h : All2 (ReportRel N) rs Rs) :
    MLike (ReportRel N) (pickBestMatch rs) (pickBestMatch Rs) := by
  cases h with
  | nil => exact .error _
  | cons hr h => exact pickLoop_like' hn h hr

/-! ## The world -/

structure ExpRel (N : Names) (x X : Exp α) : Prop where
  coll : At N.mocks x.coll X.coll
  control : CtrlRel N.seqs x.control X.control
  policies : x.policies = X.policies
  alive : x.alive = X.alive

/-- The world `v` of a part that is alone, and the world `w` of all. -/
structure Within (N : Names) (v w : World α) : Prop where
  seqs : SeqsRel N.seqs v.seqs w.seqs
  exps : TableRel (ExpRel N) N.exps v.exps w.exps
  colls : TableRel (All2 (At N.exps)) N.mocks v.colls w.colls

/-- Expectations of other parts are not attached to sequences of this part. -/
def Alone (N : Names) (w : World α) : Prop :=
  ∀ (K : Nat) (X : Exp α), w.exps[K]? = some X → K ∉ N.exps → ∀ en ∈ X.control.entries, en.1 ∉ N.seqs

/-- What a change within a part does to the tables of all, as long as nothing is created. -/
structure Inside (N : Names) (w w' : World α) : Prop where
  seqs : Frame N.seqs w.seqs w'.seqs
  exps : Frame N.exps w.exps w'.exps
  colls : Frame N.mocks w.colls w'.colls

theorem Inside.refl (N : Names) (w : World α) : Inside N w w := ⟨.refl _ _, .refl _ _, .refl _ _⟩

theorem Inside.trans {N : Names} {w w' w'' : World α} (h : Inside N w w') (h' : Inside N w' w'') : Inside N w w'' :=
  ⟨h.seqs.trans h'.seqs, h.exps.trans h'.exps, h.colls.trans h'.colls⟩

theorem Inside.alone {N : Names} {w w' : World α} (h : Inside N w w') (ha : Alone N w) : Alone N w' := by
  intro K X hX hK
  exact ha K X (by rw [← h.exps.get K hK, hX]) hK

theorem Within.deref {N : Names} {v w : World α} (h : Within N v w) {e E : Nat} (he : At N.exps e E) :
    MLike (fun x X => ExpRel N x X) (v.deref e) (w.deref E) := by
  obtain ⟨x, X, h1, h2, h3⟩ := h.exps.get e E he
  unfold World.deref
  rw [h1, h2]
  simp only [h3.alive]
  split
  · exact .ok h3
  · exact .error _

theorem matchReport_like' {N : Names} {v w : World α} (h : Within N v w) {e E : Nat} (he : At N.exps e E) {x X : Exp α}
    (hx : ExpRel N x X) (a : α) :
    MLike (fun r R => (r = none ∧ R = none) ∨ ∃ q Q, r = some q ∧ R = some Q ∧ ReportRel N q Q) (x.matchReport e v.seqs a)
      (X.matchReport E w.seqs a) := by
  unfold Exp.matchReport
  refine MLike.bind (state_like hx.control h.seqs) ?_
  intro st St hst
  rw [hx.policies]
  cases evalPolicies a X.policies with
  | none => exact .ok (.inl ⟨rfl, rfl⟩)
  | some rs => exact .ok (.inr ⟨_, _, rfl, rfl, he, hst, rfl⟩)

structure ScanRel (N : Names) (r R : Scan) : Prop where
  full : All2 (ReportRel N) r.full R.full
  inapplicable : All2 (ReportRel N) r.inapplicable R.inapplicable
  none : All2 (ReportRel N) r.none R.none
  thrown : All2 (At N.exps) r.thrown R.thrown

theorem scan_like' {N : Names} {v w : World α} (h : Within N v w) (a : α) {es Es : List Nat} (he : All2 (At N.exps) es Es) :
    MLike (ScanRel N) (scan v a es) (scan w a Es) := by
  induction he with
  | nil => exact .ok ⟨.nil, .nil, .nil, .nil⟩
  | @cons e E es Es hr _ ih =>
    unfold scan
    refine MLike.bind (h.deref hr) ?_
    intro x X hx
    refine MLike.bind (matchReport_like' h hr hx a) ?_
    intro r R hrR
    refine MLike.bind ih ?_
    intro s S hs
    rcases hrR with ⟨rfl, rfl⟩ | ⟨q, Q, rfl, rfl, hq⟩
    · exact .ok ⟨hs.full, hs.inapplicable, hs.none, .cons hr hs.thrown⟩
    · simp only [hq.evaluate]
      cases evaluateMatchReport Q with
      | none => exact .ok ⟨hs.full, hs.inapplicable, .cons hq hs.none, hs.thrown⟩
      | inapplicable => exact .ok ⟨hs.full, .cons hq hs.inapplicable, hs.none, hs.thrown⟩
      | full => exact .ok ⟨.cons hq hs.full, hs.inapplicable, hs.none, hs.thrown⟩

/-- What an operation that creates nothing does. -/
structure Stays (N : Names) (w v' w' : World α) : Prop where
  within : Within N v' w'
  inside : Inside N w w'

theorem worldConsume_like {N : Names} {v w : World α} (h : Within N v w) {e E : Nat} (he : At N.exps e E) :
    MLike (Stays N w) (v.consume e) (w.consume E) := by
  unfold World.consume
  refine MLike.bind (h.deref he) ?_
  intro x X hx
  refine MLike.bind (consume_like' hx.control h.seqs) ?_
  rintro ⟨s, c⟩ ⟨S, C⟩ ⟨h1, h2⟩
  refine .ok ⟨⟨h1.rel, h.exps.set he ?_, h.colls⟩, ⟨h1.frame, Frame.set _ he.mem _, .refl _ _⟩⟩
  exact ⟨hx.coll, h2, hx.policies, hx.alive⟩

/-- The same event, by the numbers of the part and by those of all. -/
inductive EventRel (N : Names) : Event → Event → Prop
  | sequenceCreated {s S : Nat} (st : Strategy) : At N.seqs s S → EventRel N (.sequenceCreated s st) (.sequenceCreated S st)
  | sequenceDestroyed {s S : Nat} : At N.seqs s S → EventRel N (.sequenceDestroyed s) (.sequenceDestroyed S)
  | sequenceError {s S : Nat} (k n : Nat) : At N.seqs s S → EventRel N (.sequenceError s k n) (.sequenceError S k n)
  | mockCreated {c C : Nat} : At N.mocks c C → EventRel N (.mockCreated c) (.mockCreated C)
  | created {e E : Nat} : At N.exps e E → EventRel N (.created e) (.created E)
  | rejected : EventRel N .rejected .rejected
  | destroyed {e E : Nat} : At N.exps e E → EventRel N (.destroyed e) (.destroyed E)
  | unfulfilled {e E : Nat} : At N.exps e E → EventRel N (.unfulfilled e) (.unfulfilled E)
  | unhandled {e E : Nat} : At N.exps e E → EventRel N (.unhandled e) (.unhandled E)
  | fullMatch {e E : Nat} : At N.exps e E → EventRel N (.fullMatch e) (.fullMatch E)
  | inapplicable {es Es : List Nat} : All2 (At N.exps) es Es → EventRel N (.inapplicable es) (.inapplicable Es)
  | noMatch {es Es : List Nat} : All2 (At N.exps) es Es → EventRel N (.noMatch es) (.noMatch Es)

theorem idxOf_all {l : List Nat} (hn : l.Nodup) {es Es : List Nat} (h : All2 (At l) es Es) : Es.map (l.idxOf ·) = es := by
  induction h with
  | nil => rfl
  | cons hr _ ih => rw [List.map_cons, ih, hr.idxOf hn]

theorem EventRel.event {N : Names} (h1 : N.seqs.Nodup) (h2 : N.exps.Nodup) (h3 : N.mocks.Nodup) {ev Ev : Event} (h : EventRel N ev Ev) :
    N.event Ev = ev := by
  cases h with
  | sequenceCreated st h => simp [Names.event, h.idxOf h1]
  | sequenceDestroyed h => simp [Names.event, h.idxOf h1]
  | sequenceError k n h => simp [Names.event, h.idxOf h1]
  | mockCreated h => simp [Names.event, h.idxOf h3]
  | created h => simp [Names.event, h.idxOf h2]
  | rejected => rfl
  | destroyed h => simp [Names.event, h.idxOf h2]
  | unfulfilled h => simp [Names.event, h.idxOf h2]
  | unhandled h => simp [Names.event, h.idxOf h2]
  | fullMatch h => simp [Names.event, h.idxOf h2]
  | inapplicable h => simp [Names.event, idxOf_all h2 h]
  | noMatch h => simp [Names.event, idxOf_all h2 h]

/-- Nothing is created. -/
def Event.old : Event → Bool
  | .sequenceCreated _ _ | .mockCreated _ | .created _ => false
  | _ => true

theorem learn_old (N : Names) {Ev : List Event} (h : ∀ E ∈ Ev, Event.old E = true) : Ev.foldl Names.learn N = N := by
  induction Ev with
  | nil => rfl
  | cons E Ev ih =>
    have hE := h E (by simp)
    have : N.learn E = N := by cases E <;> first | rfl | simp [Event.old] at hE
    rw [List.foldl_cons, this]
    exact ih (fun E hE => h E (by simp [hE]))

/-- What an operation does that creates nothing. -/
structure Old (N : Names) (w : World α) (r R : World α × List Event) : Prop where
  stays : Stays N w r.1 R.1
  events : All2 (EventRel N) r.2 R.2
  old : ∀ E ∈ R.2, Event.old E = true

theorem handleCall_like' {N : Names} {v w : World α} (h : Within N v w) {m M : Nat} (hm : At N.mocks m M) (a : α) :
    MLike (fun r R => Old N w (r.1, r.2.1) (R.1, R.2.1)) (v.handleCall m a) (w.handleCall M a) := by
  unfold World.handleCall
  obtain ⟨es, Es, h1, h2, h3⟩ := h.colls.get m M hm
  rw [h1, h2]
  simp only
  refine MLike.bind (scan_like' h a h3.reverse) ?_
  intro r R hr
  have ht : All2 (EventRel N) (r.thrown.map Event.unhandled) (R.thrown.map Event.unhandled) := hr.thrown.map (fun _ _ h => .unhandled h)
  have ho : ∀ E ∈ R.thrown.map Event.unhandled, Event.old E = true := by
    intro E hE
    obtain ⟨e, _, rfl⟩ := List.mem_map.mp hE
    rfl
  simp only [hr.full.isEmpty, hr.inapplicable.isEmpty]
  split
  · refine MLike.bind (pickBest_like' h.seqs.nodup hr.full) ?_
    intro q Q hq
    refine MLike.bind (worldConsume_like h hq.exp) ?_
    intro v' w' hvw
    refine .ok ⟨hvw, ht.append (.cons (.fullMatch hq.exp) .nil), ?_⟩
    intro E hE
    rcases List.mem_append.mp hE with hE | hE
    · exact ho E hE
    · simp at hE; subst hE; rfl
  · split
    · refine .ok ⟨⟨h, .refl _ _⟩, ht.append (.cons (.inapplicable (hr.inapplicable.map fun _ _ h => h.exp)) .nil), ?_⟩
      intro E hE
      rcases List.mem_append.mp hE with hE | hE
      · exact ho E hE
      · simp at hE; subst hE; rfl
    · refine .ok ⟨⟨h, .refl _ _⟩, ht.append (.cons (.noMatch (hr.none.map fun _ _ h => h.exp)) .nil), ?_⟩
      intro E hE
      rcases List.mem_append.mp hE with hE | hE
      · exact ho E hE
      · simp at hE; subst hE; rfl

theorem holds_like {N : Names} (hn : N.seqs.Nodup) {x X : Exp α} (hx : ExpRel N x X) {s S : Nat} (hs : At N.seqs s S) :
    x.holds s = X.holds S := by
  unfold Exp.holds
  have := hx.control.entries
  generalize x.control.entries = es at this
  generalize X.control.entries = Es at this
  induction this with
  | nil => rfl
  | @cons e E es Es hr _ ih =>
    rw [List.any_cons, List.any_cons, ih]
    congr 1
    rw [Bool.eq_iff_iff]
    simp only [beq_iff_eq]
    exact hr.1.eq_iff hn hs

theorem owned_like' {N : Names} {v w : World α} (h : Within N v w) (ha : Alone N w) {s S : Nat} (hs : At N.seqs s S) :
    v.owned s = w.owned S := by
  unfold World.owned
  rw [h.seqs.get' hs]
  congr 1
  rw [Bool.eq_iff_iff]
  simp only [List.any_eq_true, Bool.and_eq_true]
  constructor
  · rintro ⟨x, hx, h1, h2⟩
    obtain ⟨k, hk⟩ := List.getElem?_of_mem hx
    have hlt := (List.getElem?_eq_some_iff.mp hk).1
    rw [← h.exps.length] at hlt
    have hK : At N.exps k N.exps[k] := List.getElem?_eq_getElem hlt
    obtain ⟨y, X, h3, h4, h5⟩ := h.exps.get k _ hK
    rw [hk] at h3
    cases h3
    exact ⟨X, List.mem_of_getElem? h4, by rw [← h5.alive, h1], by rw [← holds_like h.seqs.nodup h5 hs, h2]⟩
  · rintro ⟨X, hX, h1, h2⟩
    obtain ⟨K, hK⟩ := List.getElem?_of_mem hX
    by_cases hm : K ∈ N.exps
    · obtain ⟨k, hk⟩ := At.of_mem hm
      obtain ⟨x, Y, h3, h4, h5⟩ := h.exps.get k K hk
      rw [hK] at h4
      cases h4
      exact ⟨x, List.mem_of_getElem? h3, by rw [h5.alive, h1], by rw [holds_like h.seqs.nodup h5 hs, h2]⟩
    · unfold Exp.holds at h2
      obtain ⟨en, h3, h4⟩ := List.any_eq_true.mp h2
      have := ha K X hK hm en h3
      rw [beq_iff_eq] at h4
      rw [h4] at this
      exact absurd hs.mem this

theorem release_like' {N : Names} {v w : World α} (h : Within N v w) (ha : Alone N w) {s S : Nat} (hs : At N.seqs s S) :
    MLike (Old N w) (v.release s) (w.release S) := by
  unfold World.release
  rw [owned_like' h ha hs]
  split
  · exact .ok ⟨⟨h, .refl _ _⟩, .nil, by simp⟩
  · rw [h.seqs.deref hs]
    refine MLike.bind (MLike.refl (R := fun s t => s = t) (fun _ => rfl) _) ?_
    rintro q _ rfl
    refine MLike.bind (MLike.refl (R := fun s t => s = t) (fun _ => rfl) _) ?_
    rintro err _ rfl
    have st : Stays N w { v with seqs := v.seqs.modify s (fun c => { c with alive := false }) }
        { w with seqs := w.seqs.modify S (fun c => { c with alive := false }) } :=
      ⟨⟨h.seqs.modify hs _, h.exps, h.colls⟩, ⟨Frame.modify _ hs.mem _, .refl _ _, .refl _ _⟩⟩
    cases err with
    | none => exact .ok ⟨st, .cons (.sequenceDestroyed hs) .nil, by simp [Event.old]⟩
    | some p => exact .ok ⟨st, .cons (.sequenceError _ _ hs) (.cons (.sequenceDestroyed hs) .nil), by simp [Event.old]⟩

theorem releaseAll_like' {N : Names} {v w : World α} (h : Within N v w) (ha : Alone N w) {ss Ss : List Nat} (hs : All2 (At N.seqs) ss Ss) :
    MLike (Old N w) (v.releaseAll ss) (w.releaseAll Ss) := by
  induction hs generalizing v w with
  | nil => exact .ok ⟨⟨h, .refl _ _⟩, .nil, by simp⟩
  | cons hr _ ih =>
    unfold World.releaseAll
    refine MLike.bind (release_like' h ha hr) ?_
    rintro ⟨v', ev⟩ ⟨w', Ev⟩ h1
    refine MLike.bind (ih h1.stays.within (h1.stays.inside.alone ha)) ?_
    rintro ⟨v'', ev'⟩ ⟨w'', Ev'⟩ h2
    refine .ok ⟨⟨h2.stays.within, h1.stays.inside.trans h2.stays.inside⟩, h1.events.append h2.events, ?_⟩
    intro E hE
    rcases List.mem_append.mp hE with hE | hE
    · exact h1.old E hE
    · exact h2.old E hE

theorem erase_like {l : List Nat} (hn : l.Nodup) {es Es : List Nat} (h : All2 (At l) es Es) {e E : Nat} (he : At l e E) :
    All2 (At l) (es.erase e) (Es.erase E) := by
  induction h with
  | nil => exact .nil
  | @cons a A as As hr hrs ih =>
    rw [List.erase_cons, List.erase_cons]
    have : (a == e) = (A == E) := by
      rw [Bool.eq_iff_iff]
      simp only [beq_iff_eq]
      exact hr.eq_iff hn he
    rw [this]
    split
    · exact hrs
    · exact .cons hr ih

theorem contains_like {l : List Nat} (hn : l.Nodup) {es Es : List Nat} (h : All2 (At l) es Es) {e E : Nat} (he : At l e E) :
    es.contains e = Es.contains E := by
  induction h with
  | nil => rfl
  | @cons a A as As hr hrs ih =>
    rw [List.contains_cons, List.contains_cons, ih]
    congr 1
    rw [Bool.eq_iff_iff]
    simp only [beq_iff_eq]
    exact he.eq_iff hn hr

theorem destroy_like' {N : Names} {v w : World α} (h : Within N v w) (ha : Alone N w) {e E : Nat} (he : At N.exps e E) :
    MLike (Old N w) (v.destroyExp e) (w.destroyExp E) := by
  obtain ⟨x, X, h1, h2, hx⟩ := h.exps.get e E he
  obtain ⟨es, Es, h3, h4, hes⟩ := h.colls.get _ _ hx.coll
  unfold World.destroyExp
  rw [h1, h2]
  simp only [hx.alive]
  split
  · exact .error _
  · rw [h3, h4]
    simp only
    rw [contains_like h.exps.nodup hes he]
    refine MLike.bind (MLike.refl (R := fun s t => s = t) (fun _ => rfl) _) ?_
    rintro _ _ _
    have hsat : x.isSatisfied = X.isSatisfied := by
      unfold Exp.isSatisfied Control.isSatisfied
      rw [hx.policies, hx.control.min, hx.control.max, hx.control.count]
    have hw : Within N { v with colls := v.colls.set x.coll (es.erase e), exps := v.exps.set e { x with alive := false } }
        { w with colls := w.colls.set X.coll (Es.erase E), exps := w.exps.set E { X with alive := false } } :=
      ⟨h.seqs, h.exps.set he ⟨hx.coll, hx.control, hx.policies, rfl⟩, h.colls.set hx.coll (erase_like h.exps.nodup hes he)⟩
    have hi : Inside N w { w with colls := w.colls.set X.coll (Es.erase E), exps := w.exps.set E { X with alive := false } } :=
      ⟨.refl _ _, Frame.set _ he.mem _, Frame.set _ hx.coll.mem _⟩
    refine MLike.bind (releaseAll_like' hw (hi.alone ha) (hx.control.entries.map (fun _ _ h => h.1))) ?_
    rintro ⟨v', ev⟩ ⟨w', Ev⟩ h5
    have hu : All2 (EventRel N) (if x.isSatisfied then [] else [Event.unfulfilled e]) (if X.isSatisfied then [] else [Event.unfulfilled E]) := by
      rw [hsat]
      split
      · exact .nil
      · exact .cons (.unfulfilled he) .nil
    refine .ok ⟨⟨h5.stays.within, hi.trans h5.stays.inside⟩, .cons (.destroyed he) (hu.append h5.events), ?_⟩
    intro A hA
    simp only [List.mem_cons, List.cons_append, List.mem_append] at hA
    rcases hA with rfl | hA | hA
    · rfl
    · split at hA
      · simp at hA
      · simp at hA; subst hA; rfl
    · exact h5.old A hA

end Mimic.Parts
