import Verif.Spec.Stringify
import Verif.Props.Printing

/-!
# Lemmas on custom printers
-/

set_option autoImplicit false

namespace Mimic.Stringify

theorem choose_custom (t : Text) (a b c : Option Val) : choose (some t) a b c = .custom t := by
  cases a <;> cases b <;> cases c <;> rfl

theorem choose_internal (v : Val) (b c : Option Val) : choose none (some v) b c = v := by
  cases b <;> cases c <;> rfl

theorem choose_range (v : Val) (c : Option Val) : choose none none (some v) c = v := by
  cases c <;> rfl

theorem choose_format (v : Val) : choose none none none (some v) = v := rfl

theorem choose_unknown : choose none none none none = .unknown := rfl

theorem choose_leaf (v : Val) : choose none (ifSo (isInternal v) v) none (ifSo (isFormat v) v) = v := by
  cases v <;> rfl

theorem dress_custom {reg : Registry} {p : Pass} {o : Obj} {c : Printer} (h : reg.find p o.type = some c) :
    dress reg p o = .custom (c.text o) := by
  have : customText reg p o = some (c.text o) := by simp [customText, h]
  cases o <;> simp only [dress, this, choose_custom]

theorem customText_none {reg : Registry} {p : Pass} {o : Obj} (h : reg o.type = none) : customText reg p o = none := by
  simp [customText, Registry.find, h]

theorem find_accepting {reg : Registry} (ha : reg.accepting) (p : Pass) (type : Nat) : reg.find p type = reg type := by
  unfold Registry.find
  split
  · rename_i c h
    rw [ha _ _ h, h]
    rfl
  · rename_i h
    rw [h]

/-- What `Shows` says of an object, by cases. -/
theorem shows_custom {reg : Registry} {o : Obj} {c : Printer} (h : reg o.type = some c) (t : Text) :
    Shows reg o t ↔ t = c.text o := by
  constructor
  · intro hs
    cases hs <;> simp_all [Obj.type]
  · rintro rfl
    exact .custom h

mutual

theorem shows_iff {reg : Registry} (ha : reg.accepting) : ∀ (o : Obj) (p : Pass) (t : Text), o.steady →
    (stringify reg p o = .ok t ↔ Shows reg o t)
  | .leaf type v, p, t, _ => by
    cases h : reg type with
    | some c =>
      rw [shows_custom (o := .leaf type v) h, stringify, dress_custom (c := c) (by rw [find_accepting ha]; exact h), print]
      simp [eq_comm]
    | none =>
      rw [stringify, dress, customText_none (o := .leaf type v) h, choose_leaf]
      exact ⟨.leaf h, fun hs => by cases hs <;> simp_all [Obj.type]⟩
  | .str type ct l cs, p, t, _ => by
    cases h : reg type with
    | some c =>
      rw [shows_custom (o := .str type ct l cs) h, stringify, dress_custom (c := c) (by rw [find_accepting ha]; exact h), print]
      simp [eq_comm]
    | none =>
      rw [stringify, dress, customText_none (o := .str type ct l cs) h, choose_internal]
      cases h' : reg ct with
      | some c =>
        simp only [ha _ _ h', if_true, print, Except.ok.injEq]
        constructor
        · rintro rfl
          exact .chars h h'
        · intro hs
          cases hs <;> simp_all [Obj.type]
      | none =>
        simp only [print, Except.ok.injEq]
        constructor
        · rintro rfl
          exact .dump h h'
        · intro hs
          cases hs <;> simp_all [Obj.type]
  | .empty type, p, t, _ => by
    cases h : reg type with
    | some c =>
      rw [shows_custom (o := .empty type) h, stringify, dress_custom (c := c) (by rw [find_accepting ha]; exact h), print]
      simp [eq_comm]
    | none =>
      rw [stringify, dress, customText_none (o := .empty type) h, choose_internal, find_accepting ha]
      cases h' : reg nulloptType with
      | some c =>
        simp only [print, Except.ok.injEq]
        constructor
        · rintro rfl
          exact .empty h (.custom (o := .leaf nulloptType .nullopt) h')
        · intro hs
          cases hs with
          | custom hc => simp_all [Obj.type]
          | empty _ hs => exact ((shows_custom (o := .leaf nulloptType .nullopt) h' t).mp hs).symm
      | none =>
        simp only [print, Except.ok.injEq]
        constructor
        · rintro rfl
          exact .empty h (.leaf h' rfl)
        · intro hs
          cases hs with
          | custom hc => simp_all [Obj.type]
          | empty _ hs =>
            cases hs with
            | custom hc => simp_all [Obj.type]
            | leaf _ hp => simpa [print] using hp
  | .engaged type o, p, t, hs => by
    cases h : reg type with
    | some c =>
      rw [shows_custom (o := .engaged type o) h, stringify, dress_custom (c := c) (by rw [find_accepting ha]; exact h), print]
      simp [eq_comm]
    | none =>
      rw [stringify, dress, customText_none (o := .engaged type o) h, choose_internal, (C44_optional _ _).2.2]
      have ih := fun s => shows_iff ha o .const s (by simpa [Obj.steady] using hs)
      constructor
      · rintro ⟨s, h1, rfl⟩
        exact .engaged h ((ih s).mp h1)
      · intro hs
        cases hs with
        | custom hc => simp_all [Obj.type]
        | engaged _ hs => exact ⟨_, (ih _).mpr hs, rfl⟩
  | .tuple type refs os, p, t, hs => by
    cases h : reg type with
    | some c =>
      rw [shows_custom (o := .tuple type refs os) h, stringify, dress_custom (c := c) (by rw [find_accepting ha]; exact h), print]
      simp [eq_comm]
    | none =>
      rw [stringify, dress, customText_none (o := .tuple type refs os) h, choose_internal, C44_tuple]
      have ih := fun ts => showsTuple_iff ha os refs ts (by simpa [Obj.steady] using hs)
      constructor
      · rintro ⟨ts, h1, rfl⟩
        exact .tuple h ((ih ts).mp h1)
      · intro hs
        cases hs with
        | custom hc => simp_all [Obj.type]
        | tuple _ hs => exact ⟨_, (ih _).mpr hs, rfl⟩
  | .other type loose ms cst cs f, p, t, hs => by
    cases h : reg type with
    | some c =>
      rw [shows_custom (o := .other type loose ms cst cs f) h, stringify,
        dress_custom (c := c) (by rw [find_accepting ha]; exact h), print]
      simp [eq_comm]
    | none =>
      rw [stringify, dress, customText_none (o := .other type loose ms cst cs f) h]
      simp only [Obj.steady] at hs
      obtain ⟨h1, h2, h3, h4⟩ := hs
      cases loose with
      | none =>
        cases cst with
        | some q => simp at h1
        | none =>
          have : iterated p none none = none := by simp [iterated]
          rw [this]
          cases f with
          | none =>
            simp only [Option.map_none, choose_unknown, print, Except.ok.injEq]
            exact ⟨by rintro rfl; exact .unknown h, fun hs => by cases hs <;> simp_all [Obj.type]⟩
          | some f =>
            simp only [Option.map_none, Option.map_some, choose_format, print, Except.ok.injEq]
            exact ⟨by rintro rfl; exact .format h, fun hs => by cases hs <;> simp_all [Obj.type]⟩
      | some q =>
        cases cst with
        | none => simp at h1
        | some q' =>
          have ih := fun q ts => showsRange_iff ha ms q ts h3
          have e := h2 rfl
          subst e
          have : iterated p (some q) (some q') = some (if p = .const then q' else q) := by
            unfold iterated; split <;> rfl
          rw [this]
          simp only [Option.map_some, choose_range, ite_self, C44_range]
          constructor
          · rintro ⟨ts, h1, rfl⟩
            exact .range h ((ih _ ts).mp h1)
          · intro hs
            cases hs with
            | custom hc => simp_all [Obj.type]
            | range _ hs => exact ⟨_, (ih _ _).mpr hs, rfl⟩

theorem showsTuple_iff {reg : Registry} (ha : reg.accepting) : ∀ (os : List Obj) (refs : List Bool) (ts : List Text),
    steadyAll os → ((dressTuple reg refs os).map print = ts.map .ok ↔ ShowsAll reg os ts)
  | [], refs, ts, _ => by
    cases ts with
    | nil => simp [dressTuple, ShowsAll.nil]
    | cons t ts =>
      simp only [dressTuple, List.map_nil, List.map_cons]
      exact ⟨fun h => by simp at h, fun h => by cases h⟩
  | o :: os, refs, ts, hs => by
    simp only [steadyAll] at hs
    cases ts with
    | nil =>
      simp only [dressTuple, List.map_nil, List.map_cons]
      exact ⟨fun h => by simp at h, fun h => by cases h⟩
    | cons t ts =>
      have ih1 := shows_iff ha o (if refs.headD false then .mutable else .const) t hs.1
      have ih2 := showsTuple_iff ha os refs.tail ts hs.2
      simp only [dressTuple, List.map_cons, List.cons.injEq, ih2]
      rw [← stringify, ih1]
      exact ⟨fun h => .cons h.1 h.2, fun h => by cases h with | cons h1 h2 => exact ⟨h1, h2⟩⟩

theorem showsRange_iff {reg : Registry} (ha : reg.accepting) : ∀ (os : List Obj) (q : Pass) (ts : List Text),
    steadyAll os → ((dressRange reg q os).map print = ts.map .ok ↔ ShowsAll reg os ts)
  | [], q, ts, _ => by
    cases ts with
    | nil => simp [dressRange, ShowsAll.nil]
    | cons t ts =>
      simp only [dressRange, List.map_nil, List.map_cons]
      exact ⟨fun h => by simp at h, fun h => by cases h⟩
  | o :: os, q, ts, hs => by
    simp only [steadyAll] at hs
    cases ts with
    | nil =>
      simp only [dressRange, List.map_nil, List.map_cons]
      exact ⟨fun h => by simp at h, fun h => by cases h⟩
    | cons t ts =>
      have ih1 := shows_iff ha o q t hs.1
      have ih2 := showsRange_iff ha os q ts hs.2
      simp only [dressRange, List.map_cons, List.cons.injEq, ih2]
      rw [← stringify, ih1]
      exact ⟨fun h => .cons h.1 h.2, fun h => by cases h with | cons h1 h2 => exact ⟨h1, h2⟩⟩

end

mutual

theorem dress_local {reg reg' : Registry} : ∀ (o : Obj) (p : Pass), (∀ t ∈ o.types, reg t = reg' t) →
    dress reg p o = dress reg' p o
  | .leaf type v, p, h => by
    simp only [Obj.types, List.mem_singleton, forall_eq] at h
    simp [dress, customText, Registry.find, Obj.type, h]
  | .str type ct l cs, p, h => by
    have h1 := h type (by simp [Obj.types])
    have h2 := h ct (by simp [Obj.types])
    simp only [dress, customText, Registry.find, Obj.type, h1, h2]
  | .empty type, p, h => by
    have h1 := h type (by simp [Obj.types])
    have h2 := h nulloptType (by simp [Obj.types])
    simp only [dress, customText, Registry.find, Obj.type, h1, h2]
  | .engaged type o, p, h => by
    have h1 := h type (by simp [Obj.types])
    have h2 := dress_local (reg := reg) (reg' := reg') o .const (fun t ht => h t (by simp [Obj.types, ht]))
    simp only [dress, customText, Registry.find, Obj.type, h1, h2]
  | .tuple type refs os, p, h => by
    have h1 := h type (by simp [Obj.types])
    have h2 := dressTuple_local (reg := reg) (reg' := reg') os refs (fun t ht => h t (by simp [Obj.types, ht]))
    simp only [dress, customText, Registry.find, Obj.type, h1, h2]
  | .other type loose ms cst cs f, p, h => by
    have h1 := h type (by simp [Obj.types])
    have h2 := fun q => dressRange_local (reg := reg) (reg' := reg') ms q (fun t ht => h t (by simp [Obj.types, ht]))
    have h3 := fun q => dressRange_local (reg := reg) (reg' := reg') cs q (fun t ht => h t (by simp [Obj.types, ht]))
    simp only [dress, customText, Registry.find, Obj.type, h1, h2, h3]

theorem dressTuple_local {reg reg' : Registry} : ∀ (os : List Obj) (refs : List Bool), (∀ t ∈ typesAll os, reg t = reg' t) →
    dressTuple reg refs os = dressTuple reg' refs os
  | [], _, _ => rfl
  | o :: os, refs, h => by
    rw [dressTuple, dressTuple, dress_local o _ (fun t ht => h t (by simp [typesAll, ht])),
      dressTuple_local os _ (fun t ht => h t (by simp [typesAll, ht]))]

theorem dressRange_local {reg reg' : Registry} : ∀ (os : List Obj) (q : Pass), (∀ t ∈ typesAll os, reg t = reg' t) →
    dressRange reg q os = dressRange reg' q os
  | [], _, _ => rfl
  | o :: os, q, h => by
    rw [dressRange, dressRange, dress_local o _ (fun t ht => h t (by simp [typesAll, ht])),
      dressRange_local os _ (fun t ht => h t (by simp [typesAll, ht]))]

end

/-! ### Printers that cannot be used -/

theorem binds_iff {k : Takes} {p : Pass} : k.accepts p = true ↔ Binds k p := by
  constructor
  · cases k <;> cases p <;> simp [Takes.accepts] <;> constructor
  · rintro ⟨⟩ <;> rfl

theorem dress_unusable {reg : Registry} (o : Obj) (p : Pass) (h : reg.find p o.type = none) (hi : o.type ∉ o.inner) :
    dress reg p o = dress (reg.without o.type) p o := by
  have h1 : customText reg p o = none := by simp [customText, h]
  have h2 : customText (reg.without o.type) p o = none := customText_none (by simp [Registry.without])
  have h3 : ∀ t ∈ o.inner, reg t = reg.without o.type t := by
    intro t ht
    have : t ≠ o.type := fun e => hi (e ▸ ht)
    simp [Registry.without, this]
  generalize hr : reg.without o.type = reg' at h2 h3 ⊢
  cases o with
  | leaf t v => simp only [dress, h1, h2]
  | str t ct l cs =>
    have := h3 ct (by simp [Obj.inner])
    simp only [dress, h1, h2, this]
  | empty t =>
    have := h3 nulloptType (by simp [Obj.inner])
    simp only [dress, h1, h2, Registry.find, this]
  | engaged t o => rw [dress, dress, h1, h2, dress_local o _ h3]
  | tuple t refs os => rw [dress, dress, h1, h2, dressTuple_local os refs h3]
  | other t l ms cst cs f =>
    rw [dress, dress, h1, h2]
    simp only [Obj.inner, List.mem_append] at h3
    simp only [dressRange_local ms _ (fun t ht => h3 t (Or.inl ht)), dressRange_local cs _ (fun t ht => h3 t (Or.inr ht))]

end Mimic.Stringify
