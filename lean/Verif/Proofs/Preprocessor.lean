import Verif.Spec.InterfaceMock

/-!
# Rules for macro replacement

Lemmas: more fuel does not change results, parts of a text that need nothing from what follows can be replaced on their own.
-/

set_option autoImplicit false
set_option linter.unusedSimpArgs false

namespace Mimic.Pp

/-! ## Fuel -/

theorem Part.subst_mono {ex ex' : List Tok → Option (List Tok)} (h : ∀ x y, ex x = some y → ex' x = some y)
    {args : List (List Tok)} {p : Part} {ts : List Tok} (hs : p.subst ex args = some ts) : p.subst ex' args = some ts := by
  cases p with
  | tok t => exact hs
  | arg i => exact h _ _ hs
  | cat l r => exact hs

theorem substParts_mono {ex ex' : List Tok → Option (List Tok)} (h : ∀ x y, ex x = some y → ex' x = some y)
    {args : List (List Tok)} {ps : List Part} {ts : List Tok} (hs : substParts ex args ps = some ts) :
    substParts ex' args ps = some ts := by
  induction ps generalizing ts with
  | nil => exact hs
  | cons p ps ih =>
    simp only [substParts] at hs ⊢
    split at hs
    · simp at hs
    · rename_i x hx
      rw [Part.subst_mono h hx]
      simp only
      split at hs
      · simp at hs
      · rename_i xs hxs
        rw [ih hxs]
        exact hs

theorem substElems_mono {ex ex' : List Tok → Option (List Tok)} (h : ∀ x y, ex x = some y → ex' x = some y)
    {args : List (List Tok)} {es : List Elem} {ts : List Tok} (hs : substElems ex args es = some ts) :
    substElems ex' args es = some ts := by
  induction es generalizing ts with
  | nil => exact hs
  | cons e es ih =>
    cases e with
    | one p =>
      simp only [substElems] at hs ⊢
      split at hs
      · simp at hs
      · rename_i x hx
        rw [Part.subst_mono h hx]
        simp only
        split at hs
        · simp at hs
        · rename_i xs hxs
          rw [ih hxs]
          exact hs
    | opt ps =>
      simp only [substElems] at hs ⊢
      split at hs
      · simp at hs
      · rename_i hx
        rw [h _ _ hx]
        exact ih hs
      · rename_i a b hx
        rw [h _ _ hx]
        simp only
        split at hs
        · simp at hs
        · rename_i x hx
          rw [substParts_mono h hx]
          simp only
          split at hs
          · simp at hs
          · rename_i xs hxs
            rw [ih hxs]
            exact hs

theorem expand_succ {f : Nat} {act : Active} {xs : List Item} {ys : List Tok} (h : expand f act xs = some ys) :
    expand (f + 1) act xs = some ys := by
  induction f generalizing act xs ys with
  | zero => simp [expand] at h
  | succ f ih =>
    have hmap : ∀ {r : List Item} {t : Tok} {ys : List Tok}, (expand f act r).map (t :: ·) = some ys →
        (expand (f + 1) act r).map (t :: ·) = some ys := by
      intro r t ys h
      cases hr : expand f act r with
      | none => simp [hr] at h
      | some zs => rw [ih hr]; rw [hr] at h; exact h
    cases xs with
    | nil => simpa [expand] using h
    | cons x r =>
      cases x with
      | stop m => rw [expand] at h ⊢; exact ih h
      | tok t =>
        rw [expand] at h ⊢
        split at h
        · exact hmap h
        · split at h
          · rw [if_pos (by assumption)]; exact hmap h
          · rw [if_neg (by assumption)]
            split at h
            · split at h
              · simp at h
              · exact ih h
            · split at h
              · exact hmap h
              · split at h
                · simp at h
                · split at h
                  · simp at h
                  · split at h
                    · simp at h
                    · rename_i ts hts
                      rw [substElems_mono (fun x y hx => ih hx) hts]
                      exact ih h

theorem expand_mono {f g : Nat} (hfg : f ≤ g) {act : Active} {xs : List Item} {ys : List Tok}
    (h : expand f act xs = some ys) : expand g act xs = some ys := by
  induction hfg with
  | refl => exact h
  | step _ ih => exact expand_succ ih

/-- The replacement of `xs` is `ys`. -/
def Exp (act : Active) (xs : List Item) (ys : List Tok) : Prop := ∃ f, expand f act xs = some ys

theorem Exp.unique {act : Active} {xs : List Item} {ys zs : List Tok} (h : Exp act xs ys) (h' : Exp act xs zs) : ys = zs := by
  obtain ⟨f, hf⟩ := h
  obtain ⟨g, hg⟩ := h'
  have h1 := expand_mono (Nat.le_max_left f g) hf
  have h2 := expand_mono (Nat.le_max_right f g) hg
  rw [h1] at h2
  exact Option.some.inj h2

/-! ## Texts one after the other -/

/-- The last token cannot join what follows. -/
def Settled (ys : List Tok) : Prop := ∀ t, ys.getLast? = some t → t.macro = none

theorem Settled.nil : Settled [] := by simp [Settled]

theorem Settled.tail {t : Tok} {ys : List Tok} (h : Settled (t :: ys)) : Settled ys := by
  intro x hx
  refine h x ?_
  rw [List.getLast?_cons, hx]; rfl

theorem stops_append (xs r : List Item) (m : Macro) : stops (xs ++ r) m = (stops xs m || stops r m) := by
  simp [stops]

theorem openParen_append {xs r1 : List Item} (h : openParen xs = some r1) (r : List Item) :
    openParen (xs ++ r) = some (r1 ++ r) := by
  induction xs with
  | nil => simp [openParen] at h
  | cons x xs ih =>
    cases x with
    | stop m => exact ih h
    | tok t => cases t <;> simp_all [openParen]

theorem openParen_none {xs : List Item} (h : openParen xs = none) (r : List Item) :
    openParen (xs ++ r) = none ∨ ∀ f act ys, expand f act xs = some ys → ys = [] := by
  induction xs with
  | nil =>
    right
    intro f act ys hy
    cases f with
    | zero => simp [expand] at hy
    | succ f => simpa [expand] using hy.symm
  | cons x xs ih =>
    cases x with
    | stop m =>
      rcases ih h with h1 | h1
      · exact Or.inl h1
      · right
        intro f act ys hy
        cases f with
        | zero => simp [expand] at hy
        | succ f => exact h1 f act ys hy
    | tok t =>
      left
      cases t <;> simp_all [openParen]

theorem takeArgs_append {d : Nat} {xs r2 : List Item} {raw : List Tok} (h : takeArgs d xs = some (raw, r2)) (r : List Item) :
    takeArgs d (xs ++ r) = some (raw, r2 ++ r) := by
  induction xs generalizing d raw with
  | nil => simp [takeArgs] at h
  | cons x xs ih =>
    have key : ∀ {d' t raw}, (takeArgs d' xs).map (fun x => ((t : Tok) :: x.1, x.2)) = some (raw, r2) →
        (takeArgs d' (xs ++ r)).map (fun x => ((t : Tok) :: x.1, x.2)) = some (raw, r2 ++ r) := by
      intro d' t raw h
      cases ht : takeArgs d' xs with
      | none => simp [ht] at h
      | some p =>
        obtain ⟨a, b⟩ := p
        rw [ht] at h
        simp only [Option.map_some, Option.some.injEq, Prod.mk.injEq] at h
        obtain ⟨rfl, rfl⟩ := h
        rw [ih ht]
        rfl
    cases x with
    | stop m => exact ih h
    | tok t =>
      cases t <;> simp only [takeArgs, List.cons_append] at h ⊢ <;> try exact key h
      cases d with
      | zero =>
        simp only [Option.some.injEq, Prod.mk.injEq] at h ⊢
        obtain ⟨rfl, rfl⟩ := h
        exact ⟨rfl, rfl⟩
      | succ d => exact key h

/-- The parts of a text can be replaced one after the other if the first does not end with the name of a macro. -/
theorem expand_append {f : Nat} {act : Active} {xs r : List Item} {ys out : List Tok}
    (h : expand f (fun k => act k || stops r k) xs = some ys) (hset : Settled ys) (hr : Exp act r out) :
    Exp act (xs ++ r) (ys ++ out) := by
  induction f generalizing xs ys with
  | zero => simp [expand] at h
  | succ f ih =>
    have hmap : ∀ {r' : List Item} {t : Tok} {ys : List Tok},
        (expand f (fun k => act k || stops r k) r').map (t :: ·) = some ys → Settled ys →
        ∃ g out', expand g act (r' ++ r) = some out' ∧ ys ++ out = t :: out' := by
      intro r' t ys h hset
      cases hx : expand f (fun k => act k || stops r k) r' with
      | none => simp [hx] at h
      | some zs =>
        rw [hx] at h
        simp only [Option.map_some, Option.some.injEq] at h
        subst h
        obtain ⟨g, hg⟩ := ih hx hset.tail
        exact ⟨g, _, hg, rfl⟩
    cases xs with
    | nil =>
      simp only [expand, Option.some.injEq] at h
      subst h
      exact hr
    | cons x xs =>
      cases x with
      | stop m =>
        rw [expand] at h
        obtain ⟨g, hg⟩ := ih h hset
        exact ⟨g + 1, by rw [List.cons_append, expand]; exact hg⟩
      | tok t =>
        rw [expand] at h
        split at h
        · rename_i hm
          obtain ⟨g, out', h1, h2⟩ := hmap h hset
          exact ⟨g + 1, by rw [List.cons_append, expand, hm, h1, h2]; rfl⟩
        · rename_i m hm
          split at h
          · rename_i hc
            obtain ⟨g, out', h1, h2⟩ := hmap h hset
            refine ⟨g + 1, ?_⟩
            rw [List.cons_append, expand, hm, h1, h2]
            simp only
            rw [if_pos (by rw [stops_append]; grind)]
            rfl
          · rename_i hc
            have hc' : ¬ (act m || stops (xs ++ r) m) = true := by rw [stops_append]; grind
            split at h
            · rename_i hp
              split at h
              · simp at h
              · rename_i ts hts
                obtain ⟨g, hg⟩ := ih h hset
                refine ⟨g + 1, ?_⟩
                rw [List.cons_append, expand, hm]
                simp only
                rw [if_neg hc', hp]
                simp only
                rw [hts]
                simpa using hg
            · rename_i n v hp
              split at h
              · rename_i ho
                have ho' : openParen (xs ++ r) = none := by
                  rcases openParen_none ho r with h1 | h1
                  · exact h1
                  · exfalso
                    cases hx : expand f (fun k => act k || stops r k) xs with
                    | none => simp [hx] at h
                    | some zs =>
                      rw [hx, h1 _ _ _ hx] at h
                      simp only [Option.map_some, Option.some.injEq] at h
                      subst h
                      rw [hset t (by simp)] at hm
                      simp at hm
                obtain ⟨g, out', h1, h2⟩ := hmap h hset
                refine ⟨g + 1, ?_⟩
                rw [List.cons_append, expand, hm]
                simp only
                rw [if_neg hc', hp]
                simp only
                rw [ho', h1, h2]
                rfl
              · rename_i r1 ho
                split at h
                · simp at h
                · rename_i raw r2 htk
                  split at h
                  · simp at h
                  · rename_i args hb
                    split at h
                    · simp at h
                    · rename_i ts hts
                      obtain ⟨g, hg⟩ := ih h hset
                      refine ⟨max f g + 1, ?_⟩
                      rw [List.cons_append, expand, hm]
                      simp only
                      rw [if_neg hc', hp]
                      simp only
                      rw [openParen_append ho]
                      simp only
                      rw [takeArgs_append htk]
                      simp only
                      rw [hb]
                      simp only
                      have hfun : (fun k => act k || stops (r2 ++ r) k) = (fun k => (act k || stops r k) || stops r2 k) := by
                        funext k
                        rw [stops_append]
                        cases act k <;> cases stops r k <;> cases stops r2 k <;> rfl
                      rw [hfun, substElems_mono (fun x y hx => expand_mono (Nat.le_max_left f g) hx) hts]
                      simp only
                      have := expand_mono (Nat.le_max_right f g) hg
                      simpa using this

/-- The other direction: what comes first is replaced first. -/
theorem expand_append_inv {f g : Nat} {act : Active} {xs r : List Item} {ys out : List Tok}
    (h : expand f (fun k => act k || stops r k) xs = some ys) (hset : Settled ys) (hg : expand g act (xs ++ r) = some out) :
    ∃ out', out = ys ++ out' := by
  induction f generalizing xs ys g out with
  | zero => simp [expand] at h
  | succ f ih =>
    cases g with
    | zero => simp [expand] at hg
    | succ g =>
    have hmap : ∀ {r' : List Item} {t : Tok} {ys out : List Tok},
        (expand f (fun k => act k || stops r k) r').map (t :: ·) = some ys → Settled ys →
        (expand g act (r' ++ r)).map (t :: ·) = some out → ∃ out', out = ys ++ out' := by
      intro r' t ys out h hset hg
      cases hx : expand f (fun k => act k || stops r k) r' with
      | none => simp [hx] at h
      | some zs =>
        cases hy : expand g act (r' ++ r) with
        | none => simp [hy] at hg
        | some o =>
          rw [hx] at h
          rw [hy] at hg
          simp only [Option.map_some, Option.some.injEq] at h hg
          subst h hg
          obtain ⟨o', ho⟩ := ih hx hset.tail hy
          exact ⟨o', by rw [ho]; rfl⟩
    cases xs with
    | nil =>
      simp only [expand, Option.some.injEq] at h
      subst h
      exact ⟨out, rfl⟩
    | cons x xs =>
      cases x with
      | stop m =>
        rw [List.cons_append, expand] at hg
        rw [expand] at h
        exact ih h hset hg
      | tok t =>
        rw [List.cons_append, expand] at hg
        rw [expand] at h
        split at h
        · rename_i hm
          rw [hm] at hg
          exact hmap h hset hg
        · rename_i m hm
          rw [hm] at hg
          simp only at hg
          split at h
          · rename_i hc
            rw [if_pos (by rw [stops_append]; grind)] at hg
            exact hmap h hset hg
          · rename_i hc
            have hc' : ¬ (act m || stops (xs ++ r) m) = true := by rw [stops_append]; grind
            rw [if_neg hc'] at hg
            split at h
            · rename_i hp
              rw [hp] at hg
              simp only at hg
              split at h
              · simp at h
              · rename_i ts hts
                rw [hts] at hg
                simp only at hg
                exact ih h hset (by simpa using hg)
            · rename_i n v hp
              rw [hp] at hg
              simp only at hg
              split at h
              · rename_i ho
                have ho' : openParen (xs ++ r) = none := by
                  rcases openParen_none ho r with h1 | h1
                  · exact h1
                  · exfalso
                    cases hx : expand f (fun k => act k || stops r k) xs with
                    | none => simp [hx] at h
                    | some zs =>
                      rw [hx, h1 _ _ _ hx] at h
                      simp only [Option.map_some, Option.some.injEq] at h
                      subst h
                      rw [hset t (by simp)] at hm
                      simp at hm
                rw [ho'] at hg
                exact hmap h hset hg
              · rename_i r1 ho
                rw [openParen_append ho] at hg
                simp only at hg
                split at h
                · simp at h
                · rename_i raw r2 htk
                  rw [takeArgs_append htk] at hg
                  simp only at hg
                  split at h
                  · simp at h
                  · rename_i args hb
                    rw [hb] at hg
                    simp only at hg
                    split at h
                    · simp at h
                    · rename_i ts hts
                      have hfun : (fun k => act k || stops (r2 ++ r) k) = (fun k => (act k || stops r k) || stops r2 k) := by
                        funext k
                        rw [stops_append]
                        cases act k <;> cases stops r k <;> cases stops r2 k <;> rfl
                      rw [hfun] at hg
                      split at hg
                      · simp at hg
                      · rename_i ts' hts'
                        have h1 := substElems_mono (fun x y hx => expand_mono (Nat.le_max_left f g) hx) hts
                        have h2 := substElems_mono (fun x y hx => expand_mono (Nat.le_max_right f g) hx) hts'
                        rw [h1] at h2
                        simp only [Option.some.injEq] at h2
                        subst h2
                        exact ih h hset (by simpa using hg)

/-! ## Rules for token lists -/

/-- The replacement of the text `xs` is `ys`. -/
def E (act : Active) (xs ys : List Tok) : Prop := Exp act (xs.map .tok) ys

/-- `m` as well. -/
def Active.add (act : Active) (m : Macro) : Active := fun k => act k || decide (k = m)

theorem stops_tok (xs : List Tok) (m : Macro) : stops (xs.map .tok) m = false := by
  simp [stops]

theorem stops_stop (k m : Macro) : stops [.stop m] k = decide (k = m) := by
  simp [stops]

theorem E.nil {act : Active} : E act [] [] := ⟨1, rfl⟩

theorem E.append {act : Active} {xs xs' ys ys' : List Tok} (h : E act xs ys) (hs : Settled ys) (h' : E act xs' ys') :
    E act (xs ++ xs') (ys ++ ys') := by
  obtain ⟨f, hf⟩ := h
  unfold E
  rw [List.map_append]
  refine expand_append (f := f) ?_ hs h'
  have : (fun k => act k || stops (xs'.map .tok) k) = act := by
    funext k; rw [stops_tok]; simp
  rw [this]
  exact hf

theorem Plain.settled {xs : List Tok} (h : Plain xs) : Settled xs := fun t ht => h t (List.mem_of_getLast? ht)

theorem E.cons {act : Active} {t : Tok} (ht : t.macro = none) {xs ys : List Tok} (h : E act xs ys) :
    E act (t :: xs) (t :: ys) := by
  obtain ⟨f, hf⟩ := h
  refine ⟨f + 1, ?_⟩
  rw [List.map_cons, expand, ht, hf]
  rfl

theorem E.plain {act : Active} {xs : List Tok} (h : Plain xs) : E act xs xs := by
  induction xs with
  | nil => exact .nil
  | cons t xs ih => exact .cons (h t (by simp)) (ih (fun x hx => h x (by simp [hx])))

theorem E.unique {act : Active} {xs ys zs : List Tok} (h : E act xs ys) (h' : E act xs zs) : ys = zs := Exp.unique h h'

theorem lookup_spell (m : Macro) : lookup m.spell = some m := by cases m <;> decide

theorem Macro.tok_macro (m : Macro) : m.tok.macro = some m := lookup_spell m

/-- A macro name without an argument list stays. -/
theorem E.name {act : Active} {m : Macro} (hm : act m = false) {n : Nat} {v : Bool} (hp : m.define.params = some (n, v))
    {xs ys : List Tok} (hx : xs.head? ≠ some .lp) (h : E act xs ys) : E act (m.tok :: xs) (m.tok :: ys) := by
  obtain ⟨f, hf⟩ := h
  refine ⟨f + 1, ?_⟩
  have ho : openParen (xs.map .tok) = none := by
    cases xs with
    | nil => rfl
    | cons t xs => cases t <;> simp_all [openParen]
  rw [List.map_cons, expand, m.tok_macro]
  simp only
  rw [hm, stops_tok, if_neg (by simp), hp]
  simp only
  rw [ho, hf]
  rfl

/-- A macro name within the replacement of the same macro. -/
theorem E.painted {act : Active} {m : Macro} (hm : act m = true) {xs ys : List Tok} (h : E act xs ys) :
    E act (m.tok :: xs) (m.tok.paint :: ys) := by
  obtain ⟨f, hf⟩ := h
  refine ⟨f + 1, ?_⟩
  rw [List.map_cons, expand, m.tok_macro]
  simp only
  rw [hm, if_pos (by simp), hf]
  rfl

theorem E.stopped {act : Active} {m : Macro} {ts out : List Tok} (h : E (act.add m) ts out) (hs : Settled out) :
    Exp act (ts.map .tok ++ [.stop m]) out := by
  obtain ⟨f, hf⟩ := h
  have := expand_append (act := act) (r := [.stop m]) (f := f) (xs := ts.map .tok) (ys := out) (out := []) ?_ hs ⟨2, rfl⟩
  · simpa using this
  · have : (fun k => act k || stops [.stop m] k) = act.add m := by funext k; rw [stops_stop]; rfl
    rw [this]
    exact hf

/-- A macro without parameter list. -/
theorem E.object {act : Active} {m : Macro} (hm : act m = false) (hp : m.define.params = none) {ts out : List Tok}
    (hb : substElems (fun _ => none) [] m.define.body = some ts) (h : E (act.add m) ts out) (hs : Settled out) :
    E act [m.tok] out := by
  obtain ⟨f, hf⟩ := E.stopped h hs
  refine ⟨f + 1, ?_⟩
  rw [List.map_cons, expand, m.tok_macro]
  simp only
  rw [hm, List.map_nil, if_neg (by simp [stops]), hp]
  simp only
  rw [hb]
  exact hf

/-! ## Balanced texts -/

theorem bal_append (d : Nat) (xs ys : List Tok) : bal d (xs ++ ys) = (bal d xs).bind (bal · ys) := by
  induction xs generalizing d with
  | nil => rfl
  | cons t xs ih => cases t <;> cases d <;> simp_all [bal]

theorem arg_append (d : Nat) (xs ys : List Tok) : arg d (xs ++ ys) = (arg d xs).bind (arg · ys) := by
  induction xs generalizing d with
  | nil => rfl
  | cons t xs ih => cases t <;> cases d <;> simp_all [arg]

theorem bal_shift {d e : Nat} {xs : List Tok} (h : bal d xs = some e) (c : Nat) : bal (d + c) xs = some (e + c) := by
  induction xs generalizing d with
  | nil => simp_all [bal]
  | cons t xs ih =>
    cases t with
    | lp => simp only [bal] at h ⊢; have := ih h; rwa [Nat.add_right_comm] at this
    | rp =>
      cases d with
      | zero => simp [bal] at h
      | succ d => rw [Nat.add_right_comm]; simp only [bal] at h ⊢; exact ih h
    | _ =>
      cases d <;> cases c <;> simp_all [bal] <;>
        first | (have := ih h; simp_all) | skip

theorem Bal.at {xs : List Tok} (h : Bal xs) (d : Nat) : bal d xs = some d := by
  have := bal_shift h d
  simpa using this

theorem arg_of_bal {d e : Nat} {xs : List Tok} (h : bal d xs = some e) : arg (d + 1) xs = some (e + 1) := by
  induction xs generalizing d with
  | nil => simp_all [bal, arg]
  | cons t xs ih =>
    cases t <;> cases d <;> simp_all [bal, arg]

theorem bal_of_arg {d e : Nat} {xs : List Tok} (h : arg d xs = some e) : bal d xs = some e := by
  induction xs generalizing d with
  | nil => simp_all [bal, arg]
  | cons t xs ih => cases t <;> cases d <;> simp_all [bal, arg]

theorem Arg.bal {xs : List Tok} (h : Arg xs) : Bal xs := bal_of_arg h

theorem Bal.arg_succ {xs : List Tok} (h : Bal xs) (d : Nat) : arg (d + 1) xs = some (d + 1) := arg_of_bal (h.at d)

theorem takeArgs_bal {xs : List Tok} {d e : Nat} (h : bal d xs = some e) (r : List Item) :
    takeArgs d (xs.map .tok ++ r) = (takeArgs e r).map (fun x => (xs ++ x.1, x.2)) := by
  induction xs generalizing d with
  | nil =>
    simp only [bal, Option.some.injEq] at h
    subst h
    cases h : takeArgs d r <;> simp [h]
  | cons t xs ih =>
    have key : ∀ {d'}, bal d' xs = some e → (takeArgs d' (xs.map .tok ++ r)).map (fun x => (t :: x.1, x.2)) =
        (takeArgs e r).map (fun x => (t :: xs ++ x.1, x.2)) := by
      intro d' h'
      rw [ih h', Option.map_map]
      rfl
    cases t <;> simp only [List.map_cons, List.cons_append, takeArgs, bal] at h ⊢ <;> try exact key h
    cases d with
    | zero => simp [bal] at h
    | succ d => exact key h

theorem takeArgs_paren {xs : List Tok} (h : Bal xs) (r : List Item) :
    takeArgs 0 (xs.map .tok ++ .tok .rp :: r) = some (xs, r) := by
  rw [takeArgs_bal h]
  simp [takeArgs]

theorem split_arg {xs : List Tok} {d e : Nat} (h : arg d xs = some e) (r : List Tok) :
    splitArgs d (xs ++ r) = match splitArgs e r with | [] => [xs] | a :: as => (xs ++ a) :: as := by
  have hne : ∀ d r, splitArgs d r ≠ [] := by
    intro d r
    induction r generalizing d with
    | nil => simp [splitArgs]
    | cons t r ih =>
      have hc : ∀ t l, consArg t l ≠ [] := by intro t l; cases l <;> simp [consArg]
      cases t <;> cases d <;> simp [splitArgs, hc]
  induction xs generalizing d with
  | nil =>
    simp only [arg, Option.some.injEq] at h
    subst h
    cases hr : splitArgs d r with
    | nil => exact absurd hr (hne d r)
    | cons a as => simp [hr]
  | cons t xs ih =>
    have key : ∀ {d'}, arg d' xs = some e → consArg t (splitArgs d' (xs ++ r)) =
        match splitArgs e r with | [] => [t :: xs] | a :: as => (t :: xs ++ a) :: as := by
      intro d' h'
      rw [ih h']
      cases splitArgs e r <;> rfl
    cases t with
    | lp => simp only [List.cons_append, splitArgs, arg] at h ⊢; exact key h
    | rp =>
      cases d with
      | zero => simp [arg] at h
      | succ d => simp only [List.cons_append, splitArgs, arg] at h ⊢; exact key h
    | comma =>
      cases d with
      | zero => simp [arg] at h
      | succ d => simp only [List.cons_append, splitArgs, arg] at h ⊢; exact key h
    | id s b => cases d <;> simp only [List.cons_append, splitArgs, arg] at h ⊢ <;> exact key h
    | sym s => cases d <;> simp only [List.cons_append, splitArgs, arg] at h ⊢ <;> exact key h

theorem split_comma {xs : List Tok} (h : Arg xs) (r : List Tok) : splitArgs 0 (xs ++ .comma :: r) = xs :: splitArgs 0 r := by
  rw [split_arg h]
  simp [splitArgs]

theorem split_last {xs : List Tok} (h : Arg xs) : splitArgs 0 xs = [xs] := by
  have := split_arg h []
  simpa [splitArgs] using this

theorem split_nil : splitArgs 0 [] = [[]] := rfl

/-- Commas split a balanced text, and can be put back. -/
theorem join_split (d : Nat) (xs : List Tok) : joinArgs (splitArgs d xs) = xs := by
  have hc : ∀ t l, l ≠ [] → joinArgs (consArg t l) = t :: joinArgs l := by
    intro t l hl
    match l with
    | [] => exact absurd rfl hl
    | [a] => rfl
    | a :: b :: as => rfl
  have hne : ∀ d r, splitArgs d r ≠ [] := by
    intro d r
    induction r generalizing d with
    | nil => simp [splitArgs]
    | cons t r ih =>
      have hc : ∀ t l, consArg t l ≠ [] := by intro t l; cases l <;> simp [consArg]
      cases t <;> cases d <;> simp [splitArgs, hc]
  have hn : ∀ l : List (List Tok), l ≠ [] → joinArgs ([] :: l) = .comma :: joinArgs l := by
    intro l hl
    match l with
    | [] => exact absurd rfl hl
    | a :: as => rfl
  induction xs generalizing d with
  | nil => rfl
  | cons t xs ih =>
    cases t <;> cases d <;> simp only [splitArgs] <;> first | rw [hc _ _ (hne _ _), ih] | rw [hn _ (hne _ _), ih]

/-! ## Replacement lists -/

/-- `ts` is the replacement list with the arguments inserted. -/
def Sub (act : Active) (args : List (List Tok)) (es : List Elem) (ts : List Tok) : Prop :=
  ∃ f, substElems (fun x => expand f act (x.map .tok)) args es = some ts

theorem Sub.nil {act : Active} {args : List (List Tok)} : Sub act args [] [] := ⟨0, rfl⟩

theorem Sub.tok {act : Active} {args : List (List Tok)} {t : Tok} {es : List Elem} {ts : List Tok} (h : Sub act args es ts) :
    Sub act args (.one (.tok t) :: es) (t :: ts) := by
  obtain ⟨f, hf⟩ := h
  exact ⟨f, by simp [substElems, Part.subst, hf]⟩

theorem Sub.arg {act : Active} {args : List (List Tok)} {i : Nat} {a e : List Tok} (he : E act a e) {es : List Elem}
    {ts : List Tok} (h : Sub act args es ts) (hi : argAt args i = a := by rfl) : Sub act args (.one (.arg i) :: es) (e ++ ts) := by
  subst hi
  obtain ⟨f, hf⟩ := h
  obtain ⟨g, hg⟩ := he
  refine ⟨max f g, ?_⟩
  simp only [substElems, Part.subst]
  rw [expand_mono (Nat.le_max_right f g) hg]
  simp only
  rw [substElems_mono (fun x y hx => expand_mono (Nat.le_max_left f g) hx) hf]

theorem Sub.cat {act : Active} {args : List (List Tok)} {l r : Operand} {x y g : List Tok} (hg : glue x y = some g)
    {es : List Elem} {ts : List Tok} (h : Sub act args es ts) (hl : l.raw args = x := by rfl) (hr : r.raw args = y := by rfl) :
    Sub act args (.one (.cat l r) :: es) (g ++ ts) := by
  subst hl hr
  obtain ⟨f, hf⟩ := h
  exact ⟨f, by simp [substElems, Part.subst, hf, hg]⟩

theorem Sub.opt_none {act : Active} {args : List (List Tok)} {ps : List Part}
    {a : List Tok} (he : E act a []) {es : List Elem} {ts : List Tok} (h : Sub act args es ts)
    (ha : argAt args (args.length - 1) = a := by rfl) : Sub act args (.opt ps :: es) ts := by
  subst ha
  obtain ⟨f, hf⟩ := h
  obtain ⟨g, hg⟩ := he
  refine ⟨max f g, ?_⟩
  simp only [substElems]
  rw [expand_mono (Nat.le_max_right f g) hg]
  exact substElems_mono (fun x y hx => expand_mono (Nat.le_max_left f g) hx) hf

theorem substElems_plain {ex : List Tok → Option (List Tok)} {args : List (List Tok)} {ps : List Part} :
    substElems ex args (plainBody ps) = substParts ex args ps := by
  induction ps with
  | nil => rfl
  | cons p ps ih =>
    simp only [plainBody, List.map_cons, substElems, substParts] at ih ⊢
    rw [ih]

theorem Sub.opt_some {act : Active} {args : List (List Tok)} {ps : List Part} {a v us : List Tok}
    (he : E act a v) (hv : v ≠ []) (hu : Sub act args (plainBody ps) us) {es : List Elem}
    {ts : List Tok} (h : Sub act args es ts) (ha : argAt args (args.length - 1) = a := by rfl) :
    Sub act args (.opt ps :: es) (us ++ ts) := by
  subst ha
  obtain ⟨f, hf⟩ := h
  obtain ⟨g, hg⟩ := he
  obtain ⟨k, hk⟩ := hu
  rw [substElems_plain] at hk
  refine ⟨max f (max g k), ?_⟩
  simp only [substElems]
  rw [expand_mono (Nat.le_trans (Nat.le_max_left g k) (Nat.le_max_right f _)) hg]
  cases v with
  | nil => exact absurd rfl hv
  | cons a b =>
    simp only
    rw [substParts_mono (fun x y hx => expand_mono (Nat.le_trans (Nat.le_max_right g k) (Nat.le_max_right f _)) hx) hk]
    simp only
    rw [substElems_mono (fun x y hx => expand_mono (Nat.le_max_left f _) hx) hf]

theorem Sub.append {act : Active} {args : List (List Tok)} {ps : List Part} {us : List Tok} (hu : Sub act args (plainBody ps) us)
    {es : List Elem} {ts : List Tok} (h : Sub act args es ts) : Sub act args (plainBody ps ++ es) (us ++ ts) := by
  obtain ⟨f, hf⟩ := h
  obtain ⟨k, hk⟩ := hu
  refine ⟨max f k, ?_⟩
  have hf' := substElems_mono (fun x y hx => expand_mono (Nat.le_max_left f k) hx) hf
  have hk' := substElems_mono (fun x y hx => expand_mono (Nat.le_max_right f k) hx) hk
  clear hf hk
  induction ps generalizing us with
  | nil =>
    simp only [plainBody, List.map_nil, substElems, Option.some.injEq] at hk'
    subst hk'
    exact hf'
  | cons p ps ih =>
    simp only [plainBody, List.map_cons, List.cons_append, substElems] at ih hk' ⊢
    split at hk'
    · simp at hk'
    · rename_i x hx
      split at hk'
      · simp at hk'
      · rename_i xs hxs
        simp only [Option.some.injEq] at hk'
        subst hk'
        rw [ih hxs]
        simp

/-- A macro with its arguments. -/
theorem E.call {act : Active} {m : Macro} (hm : act m = false) {n : Nat} {v : Bool} (hp : m.define.params = some (n, v))
    {raw : List Tok} (hraw : Bal raw) {args : List (List Tok)} (ha : bindArgs n v (splitArgs 0 raw) = some args) {ts out : List Tok}
    (hsub : Sub act args m.define.body ts) (h : E (act.add m) ts out) (hs : Settled out) :
    E act (invoke m raw) out := by
  obtain ⟨f, hf⟩ := E.stopped h hs
  obtain ⟨g, hg⟩ := hsub
  refine ⟨max f g + 1, ?_⟩
  simp only [invoke, List.map_cons, List.cons_append, List.map_append]
  rw [expand, m.tok_macro]
  simp only
  rw [hm, if_neg (by simp [stops, List.map_append]), hp]
  simp only [openParen]
  rw [List.map_nil, takeArgs_paren hraw]
  simp only
  rw [ha]
  simp only
  have hfun : (fun k => act k || stops [] k) = act := by funext k; simp [stops]
  rw [hfun, substElems_mono (fun x y hx => expand_mono (Nat.le_max_right f g) hx) hg]
  simp only
  exact expand_mono (Nat.le_max_left f g) hf

/-- What the replacement of a macro begins with. -/
theorem call_begins {m : Macro} {n : Nat} {v : Bool} (hp : m.define.params = some (n, v))
    {raw : List Tok} (hraw : Bal raw) {args : List (List Tok)} (ha : bindArgs n v (splitArgs 0 raw) = some args)
    {xs r ys : List Tok} (hsub : Sub (fun _ => false) args m.define.body (xs ++ r))
    (h : E (Active.add (fun _ => false) m) xs ys) (hs : Settled ys) {f : Nat} {out : List Tok}
    (hout : preprocess f (invoke m raw) = some out) : ∃ out', out = ys ++ out' := by
  obtain ⟨g, hg⟩ := hsub
  obtain ⟨k, hk⟩ := h
  cases f with
  | zero => simp [preprocess, expand] at hout
  | succ f =>
    simp only [preprocess, invoke, List.map_cons, List.cons_append, List.map_append] at hout
    rw [expand, m.tok_macro] at hout
    simp only at hout
    rw [if_neg (by simp [stops, List.map_append]), hp] at hout
    simp only [openParen] at hout
    rw [List.map_nil, takeArgs_paren hraw] at hout
    simp only at hout
    rw [ha] at hout
    simp only at hout
    have hfun : (fun k => false || stops [] k) = (fun _ => false) := by funext k; simp [stops]
    rw [hfun] at hout
    split at hout
    · simp at hout
    · rename_i ts hts
      have h1 := substElems_mono (fun x y hx => expand_mono (Nat.le_max_left f g) hx) hts
      have h2 := substElems_mono (fun x y hx => expand_mono (Nat.le_max_right f g) hx) hg
      rw [h1] at h2
      simp only [Option.some.injEq] at h2
      subst h2
      have hact : (fun k => (fun _ => false) k || stops (r.map .tok ++ [.stop m]) k) = Active.add (fun _ => false) m := by
        funext k
        rw [stops_append, stops_tok, stops_stop]
        simp [Active.add]
      have hk' : expand k (fun k => (fun _ => false) k || stops (r.map .tok ++ [.stop m]) k) (xs.map .tok) = some ys := by
        rw [hact]; exact hk
      exact expand_append_inv hk' hs (by simpa using hout)

/-- The replacement of a macro is the name of another one, whose arguments follow. -/
theorem E.chain {act : Active} {m m' : Macro} (hm : act m = false) (hne : m' ≠ m) {n : Nat} {v : Bool}
    (hp : m.define.params = some (n, v)) {n' : Nat} {v' : Bool} (hp' : m'.define.params = some (n', v'))
    {raw : List Tok} (hraw : Bal raw) {args : List (List Tok)} (ha : bindArgs n v (splitArgs 0 raw) = some args)
    (hsub : Sub act args m.define.body [m'.tok]) {r out : List Tok} (h : E act (m'.tok :: .lp :: r) out)
    (hm' : act m' = false) : E act (invoke m raw ++ .lp :: r) out := by
  obtain ⟨f, hf⟩ := h
  obtain ⟨g, hg⟩ := hsub
  refine ⟨max f g + 1, ?_⟩
  simp only [invoke, List.map_cons, List.cons_append, List.map_append, List.append_assoc]
  rw [expand, m.tok_macro]
  simp only
  rw [hm, if_neg (by simp [stops, List.map_append]), hp]
  simp only [openParen]
  rw [List.map_nil, List.nil_append, takeArgs_paren hraw]
  simp only
  rw [ha]
  simp only
  have hfun : (fun k => act k || stops (.tok .lp :: r.map .tok) k) = act := by
    funext k; simp [stops]
  rw [hfun, substElems_mono (fun x y hx => expand_mono (Nat.le_max_right f g) hx) hg]
  simp only
  have hf' := expand_mono (Nat.le_max_left f g) hf
  have hpos : ∃ q, max f g = q + 1 := by
    cases hq : max f g with
    | zero => rw [hq] at hf'; simp [expand] at hf'
    | succ q => exact ⟨q, rfl⟩
  obtain ⟨q, hq⟩ := hpos
  rw [hq] at hf' ⊢
  simp only [List.map_cons, List.map_nil, List.cons_append, List.nil_append] at hf' ⊢
  rw [expand, m'.tok_macro] at hf' ⊢
  simp only at hf' ⊢
  rw [hm', if_neg (by simp [stops]), hp'] at hf'
  rw [hm', if_neg (by simp [stops, hne]), hp']
  simp only [openParen] at hf' ⊢
  exact hf'

/-- The same for a macro without parameter list. -/
theorem E.chainObject {act : Active} {m m' : Macro} (hm : act m = false) (hne : m' ≠ m)
    (hp : m.define.params = none) {n' : Nat} {v' : Bool} (hp' : m'.define.params = some (n', v'))
    (hb : substElems (fun _ => none) [] m.define.body = some [m'.tok]) {r out : List Tok} (h : E act (m'.tok :: .lp :: r) out)
    (hm' : act m' = false) : E act (m.tok :: .lp :: r) out := by
  obtain ⟨f, hf⟩ := h
  refine ⟨f + 1, ?_⟩
  simp only [List.map_cons]
  rw [expand, m.tok_macro]
  simp only
  rw [hm, if_neg (by simp [stops]), hp]
  simp only
  rw [hb]
  simp only
  cases f with
  | zero => simp [expand] at hf
  | succ q =>
    simp only [List.map_cons, List.map_nil, List.cons_append, List.nil_append] at hf ⊢
    rw [expand, m'.tok_macro] at hf ⊢
    simp only at hf ⊢
    rw [hm', if_neg (by simp [stops]), hp'] at hf
    rw [hm', if_neg (by simp [stops, hne]), hp']
    simp only [openParen] at hf ⊢
    exact hf

end Mimic.Pp
