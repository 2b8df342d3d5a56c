import Verif.Proofs.Preprocessor

/-!
# The macros one by one
-/

set_option autoImplicit false
set_option linter.unusedSimpArgs false

namespace Mimic.Pp

/-- Each macro uses only macros of lower levels. -/
def level : Macro → Nat
  | .stripped => 0
  | .stripInner | .parens | .commaDelimiter | .noDelimiter | .identity => 1
  | .stripOuter_ => 2
  | .stripOuter => 3
  | .stripParens => 4
  | .makeSignature | .makeParam | .forwardArg | .methodOverride | .makeOverloadedMock => 5
  | .indirect => 6
  | .helper => 7
  | .again => 8
  | .expand1 => 9
  | .expand2 => 10
  | .expand3 => 11
  | .expand => 12
  | .forEach => 13
  | .makeParamList | .forwardArgs | .makeSignatureList | .methodOverrides => 14
  | .infosSpecs => 15
  | .infosBasic | .selectInfos => 16
  | .addOverload => 17
  | .mockOverloaded => 18
  | .mockMethod => 19
  | .mockMethodShort | .mockOverloadedShort | .addOverloadShort => 20

/-- The macros up to level `n` can be replaced. -/
def Below (n : Nat) (act : Active) : Prop := ∀ k, level k ≤ n → act k = false

theorem Below.mono {n n' : Nat} {act : Active} (h : Below n act) (hn : n' ≤ n) : Below n' act :=
  fun k hk => h k (Nat.le_trans hk hn)

theorem Below.add {n : Nat} {act : Active} (h : Below n act) {m : Macro} (hm : n < level m) : Below n (act.add m) := by
  intro k hk
  have : k ≠ m := by rintro rfl; omega
  simp [Active.add, h k hk, this]

theorem Below.none (n : Nat) : Below n (fun _ => false) := fun _ _ => rfl

/-! ## Texts -/

theorem Plain.nil : Plain [] := by simp [Plain]

theorem Plain.append {xs ys : List Tok} (h : Plain xs) (h' : Plain ys) : Plain (xs ++ ys) := by
  intro t ht
  rcases List.mem_append.mp ht with h1 | h1
  · exact h t h1
  · exact h' t h1

theorem Plain.cons {t : Tok} {ys : List Tok} (h : t.macro = none) (h' : Plain ys) : Plain (t :: ys) := by
  intro x hx
  rcases List.mem_cons.mp hx with rfl | h1
  · exact h
  · exact h' x h1

theorem Plain.inParens {xs : List Tok} (h : Plain xs) : Plain (inParens xs) :=
  .cons rfl (.append h (.cons rfl .nil))

theorem Plain.join {as : List (List Tok)} (h : ∀ a ∈ as, Plain a) : Plain (joinArgs as) := by
  induction as with
  | nil => exact .nil
  | cons a as ih =>
    cases as with
    | nil => exact h a (by simp)
    | cons b as =>
      refine .append (h a (by simp)) (.cons rfl (ih ?_))
      intro x hx
      exact h x (by simp [hx])

theorem lookup_other {c : Char} (h1 : c ≠ 'M') (h2 : c ≠ 'A') (s : List Char) : lookup (c :: s) = none := by
  unfold lookup
  rw [List.find?_eq_none]
  intro m _
  have hh : m.spell.head? = some 'M' ∨ m.spell.head? = some 'A' := by
    cases m <;> first | exact Or.inl rfl | exact Or.inr rfl
  simp only [beq_iff_eq]
  intro he
  rw [he] at hh
  simp at hh
  rcases hh with h | h
  · exact h1 h
  · exact h2 h

theorem paramName_plain (k : Nat) : (paramName k).macro = none := lookup_other (by decide) (by decide) _

theorem Arg.nil : Arg [] := rfl

theorem Bal.nil : Bal [] := rfl

theorem Arg.append {xs ys : List Tok} (h : Arg xs) (h' : Arg ys) : Arg (xs ++ ys) := by
  unfold Arg at *; rw [arg_append, h]; exact h'

theorem Bal.append {xs ys : List Tok} (h : Bal xs) (h' : Bal ys) : Bal (xs ++ ys) := by
  unfold Bal at *; rw [bal_append, h]; exact h'

theorem Bal.comma {ys : List Tok} (h' : Bal ys) : Bal (.comma :: ys) := h'

theorem Arg.id {s : List Char} {b : Bool} {ys : List Tok} (h' : Arg ys) : Arg (.id s b :: ys) := h'

theorem Arg.sym {s : List Char} {ys : List Tok} (h' : Arg ys) : Arg (.sym s :: ys) := h'

theorem Bal.inParens {xs : List Tok} (h : Bal xs) : Arg (inParens xs) := by
  show arg 1 (xs ++ [.rp]) = some 0
  rw [arg_append, h.arg_succ]
  rfl

theorem Arg.one (m : Macro) : Arg [m.tok] := rfl

theorem Bal.invoke {m : Macro} {xs : List Tok} (h : Bal xs) : Arg (invoke m xs) := Arg.id h.inParens

theorem Bal.join {as : List (List Tok)} (h : ∀ a ∈ as, Arg a) : Bal (joinArgs as) := by
  induction as with
  | nil => exact .nil
  | cons a as ih =>
    cases as with
    | nil => exact (h a (by simp)).bal
    | cons b as =>
      refine Bal.append (h a (by simp)).bal (.comma (ih ?_))
      intro x hx
      exact h x (by simp [hx])

theorem split_join {as : List (List Tok)} (h : ∀ a ∈ as, Arg a) (hne : as ≠ []) : splitArgs 0 (joinArgs as) = as := by
  induction as with
  | nil => exact absurd rfl hne
  | cons a as ih =>
    cases as with
    | nil => exact split_last (h a (by simp))
    | cons b as =>
      have : joinArgs (a :: b :: as) = a ++ .comma :: joinArgs (b :: as) := rfl
      rw [this, split_comma (h a (by simp)), ih (fun x hx => h x (by simp [hx])) (by simp)]

theorem bind_va (raw : List Tok) : bindArgs 0 true (splitArgs 0 raw) = some [raw] := by
  simp [bindArgs, join_split]

theorem Settled.last {xs : List Tok} {t : Tok} (h : t.macro = none) : Settled (xs ++ [t]) := by
  intro x hx
  simp at hx
  rw [← hx]; exact h

theorem Settled.append {xs ys : List Tok} (h : Settled ys) (hne : ys ≠ []) : Settled (xs ++ ys) := by
  intro x hx
  rw [List.getLast?_append] at hx
  cases hl : ys.getLast? with
  | none => simp at hl; exact absurd hl hne
  | some z => rw [hl] at hx; simp at hx; subst hx; exact h _ hl

theorem Sub.conv {act : Active} {args : List (List Tok)} {es : List Elem} {ts ts' : List Tok} (h : Sub act args es ts)
    (he : ts = ts') : Sub act args es ts' := he ▸ h

theorem E.conv {act : Active} {xs xs' ys ys' : List Tok} (h : E act xs ys) (hx : xs = xs') (hy : ys = ys') : E act xs' ys' :=
  hx ▸ hy ▸ h

theorem Written.plain {w : List Tok} (h : Written w) : Plain w := h.1

theorem Written.arg {w : List Tok} (h : Written w) : Arg w := by
  rcases h.2 with ⟨h1, _⟩ | ⟨x, hx, rfl⟩
  · exact h1
  · exact hx.inParens

theorem meant_bare {w : List Tok} (h : w.head? ≠ some .lp) : meant w = w := by
  unfold meant
  split
  · simp at h
  · rfl

theorem meant_parens (x : List Tok) : meant (inParens x) = x := by simp [meant, inParens]

theorem Written.meant_plain {w : List Tok} (h : Written w) : Plain (meant w) := by
  rcases h.2 with ⟨_, h2⟩ | ⟨x, hx, rfl⟩
  · rw [meant_bare h2]; exact h.1
  · have : meant (.lp :: (x ++ [.rp])) = x := meant_parens x
    rw [this]
    exact fun t ht => h.1 t (by simp [ht])

theorem Written.meant_bal {w : List Tok} (h : Written w) : Bal (meant w) := by
  rcases h.2 with ⟨h1, h2⟩ | ⟨x, hx, rfl⟩
  · rw [meant_bare h2]; exact h1.bal
  · have : meant (.lp :: (x ++ [.rp])) = x := meant_parens x
    rw [this]
    exact hx

theorem Written.empty : Written [] := ⟨.nil, Or.inl ⟨.nil, by simp⟩⟩

theorem Written.inParens {x : List Tok} (hx : Plain x) (hb : Bal x) : Written (inParens x) :=
  ⟨hx.inParens, Or.inr ⟨x, hb, rfl⟩⟩

/-! ## `STRIP_PARENS` -/

/-- InterfaceMock.hpp 62-86 -/
theorem strip {act : Active} (ha : Below 4 act) {w : List Tok} (hw : Written w) {X : List Tok} (hX : E act X w) (hb : Arg X) :
    E act (invoke .stripParens X) (meant w) := by
  -- the text that `OUTER` gets
  have hinner : ∀ {act : Active}, Below 3 act → ∃ b, E act (Macro.stripInner.tok :: w) (.id Macro.stripInner.spell b :: meant w) := by
    intro act ha
    rcases hw.2 with ⟨h1, h2⟩ | ⟨x, hx, rfl⟩
    · rw [meant_bare h2]
      exact ⟨false, E.name (ha _ (by decide)) rfl h2 (.plain hw.1)⟩
    · have hm : meant (.lp :: (x ++ [.rp])) = x := meant_parens x
      have hpx : Plain x := hm ▸ hw.meant_plain
      rw [hm]
      refine ⟨true, E.call (m := .stripInner) (ha _ (by decide)) rfl hx (bind_va x)
        (ts := Macro.stripInner.tok :: x) (Sub.conv (Sub.tok (Sub.arg (.plain hpx) Sub.nil)) (by simp)) ?_ ?_⟩
      · exact E.painted (by simp [Active.add]) (.plain hpx)
      · exact Plain.settled (.cons rfl hpx)
  have hsettled : Settled (meant w) := hw.meant_plain.settled
  refine E.call (m := .stripParens) (args := [X]) (ha _ (by decide)) rfl hb.bal (by rw [split_last hb]; rfl)
    (ts := invoke .stripOuter (Macro.stripInner.tok :: w))
    (Sub.conv (Sub.tok (Sub.tok (Sub.tok (Sub.arg hX (Sub.tok Sub.nil))))) (by simp [invoke])) ?_ hsettled
  obtain ⟨b, hb'⟩ := hinner (act := act.add .stripParens) ((ha.mono (by decide)).add (by decide))
  have ha1 : Below 3 (act.add .stripParens) := (ha.mono (by decide)).add (by decide)
  refine E.call (m := .stripOuter) (ha1 _ (by decide)) rfl (Arg.id hw.arg).bal (bind_va _)
    (ts := invoke .stripOuter_ (.id Macro.stripInner.spell b :: meant w))
    (Sub.conv (Sub.tok (Sub.tok (Sub.arg hb' (Sub.tok Sub.nil)))) (by simp [invoke])) ?_ hsettled
  have ha2 : Below 2 ((act.add .stripParens).add .stripOuter) := (ha1.mono (by decide)).add (by decide)
  have hbal : Bal (.id Macro.stripInner.spell b :: meant w) := hw.meant_bal
  refine E.call (m := .stripOuter_) (ha2 _ (by decide)) rfl hbal (bind_va _)
    (ts := Macro.stripped.tok :: meant w)
    (Sub.conv (Sub.cat (g := Macro.stripped.tok :: meant w) rfl Sub.nil) (by simp)) ?_ hsettled
  have ha3 : Below 1 (((act.add .stripParens).add .stripOuter).add .stripOuter_) := (ha2.mono (by decide)).add (by decide)
  exact E.append (xs := [Macro.stripped.tok]) (ys := [])
    (E.object (ha3 _ (by decide)) rfl (ts := []) rfl .nil .nil) .nil (.plain hw.meant_plain)

theorem strip_plain {act : Active} (ha : Below 4 act) {w : List Tok} (hw : Written w) :
    E act (invoke .stripParens w) (meant w) := strip ha hw (.plain hw.1) hw.arg

/-! ## `FOR_EACH_EXT` -/

/-- What is needed to know about a loop. `ε`: the elements; `text`: how they are given; `proj`: after the projection; `res`: what
the macro makes of them. -/
structure Loop (ε : Type) where
  mac : Macro
  dl : Macro
  pj : Macro
  tk : List Tok
  sq : Nat → List Tok
  bd : List Tok
  dt : List Tok
  ok : ε → Prop
  text : ε → List Tok
  proj : ε → List Tok
  res : Nat → ε → List Tok
  macParams : Nat × Bool
  dlParams : Nat × Bool
  pjParams : Nat × Bool
  mac_params : mac.define.params = some macParams
  dl_params : dl.define.params = some dlParams
  pj_params : pj.define.params = some pjParams
  mac_level : level mac ≤ 5
  dl_level : level dl ≤ 5
  pj_level : level pj ≤ 5
  tk_plain : Plain tk
  tk_arg : Arg tk
  sq_zero : sq 0 = tk
  sq_succ : ∀ k, glue (sq k) tk = some (sq (k + 1))
  sq_plain : ∀ k, Plain (sq k)
  sq_arg : ∀ k, Arg (sq k)
  bd_written : Written bd
  dt_plain : Plain dt
  dt_bal : Bal dt
  text_plain : ∀ e, ok e → Plain (text e)
  text_arg : ∀ e, ok e → Arg (text e)
  text_ne : ∀ e, ok e → text e ≠ []
  res_plain : ∀ k e, ok e → Plain (res k e)
  res_bal : ∀ k e, ok e → Bal (res k e)
  delim : ∀ {act : Active}, Below 5 act → E act (invoke dl []) dt
  project : ∀ {act : Active}, Below 5 act → ∀ e, ok e → E act (invoke pj (text e)) (proj e)
  apply : ∀ {act : Active}, Below 5 act → ∀ k e, ok e →
    E act (invoke mac (sq k ++ .comma :: (meant bd ++ .comma :: proj e))) (res k e)

variable {ε : Type}

/-- The arguments of `FOR_EACH_EXT_HELPER`. -/
def Loop.args (L : Loop ε) (k : Nat) (es : List ε) : List Tok :=
  L.mac.tok :: .comma :: (L.tk ++ .comma :: (L.sq k ++ .comma :: L.dl.tok :: .comma :: L.pj.tok :: .comma ::
    (L.bd ++ .comma :: joinArgs (es.map L.text))))

/-- The rest of the loop, for the next scan. -/
def Loop.deferred (L : Loop ε) (k : Nat) (es : List ε) : List Tok :=
  Macro.again.tok :: .lp :: .rp :: .lp :: (L.args k es ++ [.rp])

theorem Loop.texts_plain (L : Loop ε) {es : List ε} (h : ∀ e ∈ es, L.ok e) : Plain (joinArgs (es.map L.text)) := by
  refine .join ?_
  intro a ha
  obtain ⟨e, he, rfl⟩ := List.mem_map.mp ha
  exact L.text_plain e (h e he)

theorem Loop.texts_arg (L : Loop ε) {es : List ε} (h : ∀ e ∈ es, L.ok e) : ∀ a ∈ es.map L.text, Arg a := by
  intro a ha
  obtain ⟨e, he, rfl⟩ := List.mem_map.mp ha
  exact L.text_arg e (h e he)

theorem Loop.args_bal (L : Loop ε) (k : Nat) {es : List ε} (h : ∀ e ∈ es, L.ok e) : Bal (L.args k es) :=
  Bal.append (xs := [L.mac.tok, .comma]) rfl (L.tk_arg.bal.append (Bal.comma ((L.sq_arg k).bal.append
    (Bal.append (xs := [.comma, L.dl.tok, .comma, L.pj.tok, .comma]) rfl (L.bd_written.arg.bal.append (Bal.comma
      (Bal.join (L.texts_arg h))))))))

theorem Loop.args_split (L : Loop ε) (k : Nat) {es : List ε} (h : ∀ e ∈ es, L.ok e) (hne : es ≠ []) :
    splitArgs 0 (L.args k es) = [L.mac.tok] :: L.tk :: L.sq k :: [L.dl.tok] :: [L.pj.tok] :: L.bd :: es.map L.text := by
  have h1 : L.args k es = [L.mac.tok] ++ .comma :: (L.tk ++ .comma :: (L.sq k ++ .comma :: ([L.dl.tok] ++ .comma ::
      ([L.pj.tok] ++ .comma :: (L.bd ++ .comma :: joinArgs (es.map L.text)))))) := rfl
  rw [h1, split_comma (Arg.one _), split_comma L.tk_arg, split_comma (L.sq_arg k), split_comma (Arg.one _),
    split_comma (Arg.one _), split_comma L.bd_written.arg, split_join (L.texts_arg h) (by simpa using hne)]

/-- The arguments are not replaced in a text that is scanned. -/
theorem Loop.args_stay (L : Loop ε) {act : Active} (ha : Below 5 act) (k : Nat) {es : List ε} (h : ∀ e ∈ es, L.ok e)
    {r r' : List Tok} (hr : E act r r') : E act (L.args k es ++ r) (L.args k es ++ r') := by
  have h1 : ∀ r, L.args k es ++ r = L.mac.tok :: .comma :: (L.tk ++ .comma :: (L.sq k ++ .comma :: L.dl.tok :: .comma ::
      L.pj.tok :: .comma :: (L.bd ++ .comma :: (joinArgs (es.map L.text) ++ r)))) := by
    intro r; simp [Loop.args]
  rw [h1, h1]
  refine E.name (ha _ L.mac_level) L.mac_params (by simp) (.cons rfl ?_)
  refine E.append (.plain L.tk_plain) L.tk_plain.settled (.cons rfl ?_)
  refine E.append (.plain (L.sq_plain k)) (L.sq_plain k).settled (.cons rfl ?_)
  refine E.name (ha _ L.dl_level) L.dl_params (by simp) (.cons rfl ?_)
  refine E.name (ha _ L.pj_level) L.pj_params (by simp) (.cons rfl ?_)
  refine E.append (.plain L.bd_written.plain) L.bd_written.plain.settled (.cons rfl ?_)
  exact E.append (.plain (L.texts_plain h)) (L.texts_plain h).settled hr

/-- InterfaceMock.hpp 157 -/
theorem Loop.indirect (L : Loop ε) {act : Active} (ha : Below 6 act) (k : Nat) {e : ε} (he : L.ok e) :
    E act (invoke .indirect (L.mac.tok :: .comma :: (L.sq k ++ .comma :: (invoke .stripParens L.bd ++ .comma ::
      invoke L.pj (L.text e))))) (L.res k e) := by
  have hs : splitArgs 0 (L.mac.tok :: .comma :: (L.sq k ++ .comma :: (invoke .stripParens L.bd ++ .comma ::
      invoke L.pj (L.text e)))) = [[L.mac.tok], L.sq k, invoke .stripParens L.bd, invoke L.pj (L.text e)] := by
    have h1 := split_comma (Arg.one L.mac) (L.sq k ++ .comma :: (invoke .stripParens L.bd ++ .comma :: invoke L.pj (L.text e)))
    simp only [List.cons_append, List.nil_append] at h1
    rw [h1, split_comma (L.sq_arg k), split_comma L.bd_written.arg.bal.invoke, split_last (L.text_arg e he).bal.invoke]
  have hbal : Bal (L.mac.tok :: .comma :: (L.sq k ++ .comma :: (invoke .stripParens L.bd ++ .comma ::
      invoke L.pj (L.text e)))) :=
    Bal.append (xs := [L.mac.tok, .comma]) rfl ((L.sq_arg k).bal.append (Bal.comma
      (Bal.append L.bd_written.arg.bal.invoke.bal (Bal.comma (L.text_arg e he).bal.invoke.bal))))
  have ha5 : Below 5 act := ha.mono (by decide)
  refine E.call (m := .indirect) (args := [[L.mac.tok], L.sq k, invoke .stripParens L.bd ++ .comma :: invoke L.pj (L.text e)])
    (ha _ (by decide)) rfl hbal (by rw [hs]; rfl)
    (ts := invoke L.mac (L.sq k ++ .comma :: (meant L.bd ++ .comma :: L.proj e))) ?_ ?_ (L.res_plain k e he).settled
  · refine Sub.conv (Sub.arg (e := [L.mac.tok]) ?_ (Sub.tok (Sub.arg (.plain (L.sq_plain k)) (Sub.tok
      (Sub.arg (e := meant L.bd ++ .comma :: L.proj e) ?_ (Sub.tok Sub.nil)))))) (by simp [invoke])
    · exact E.name (ha5 _ L.mac_level) L.mac_params (by simp) .nil
    · exact E.append (strip_plain (ha.mono (by decide)) L.bd_written) L.bd_written.meant_plain.settled
        (.cons rfl (L.project ha5 e he))
  · exact L.apply (ha5.add (by decide)) k e he

/-- What one scan makes of the beginning of a loop. -/
def Loop.after (L : Loop ε) (k : Nat) (e : ε) (es : List ε) : List Tok :=
  L.res k e ++ (if es.isEmpty then [] else L.dt ++ L.deferred (k + 1) es)

theorem Loop.after_settled (L : Loop ε) (k : Nat) {e : ε} (he : L.ok e) (es : List ε) : Settled (L.after k e es) := by
  unfold Loop.after
  split
  · rw [List.append_nil]; exact (L.res_plain k e he).settled
  · have : L.res k e ++ (L.dt ++ L.deferred (k + 1) es) =
        (L.res k e ++ L.dt ++ (Macro.again.tok :: .lp :: .rp :: .lp :: L.args (k + 1) es)) ++ [.rp] := by
      simp [Loop.deferred]
    rw [this]
    exact Settled.last rfl

/-- InterfaceMock.hpp 181-183 -/
theorem Loop.helper (L : Loop ε) {act : Active} (ha : Below 8 act) (k : Nat) {e : ε} {es : List ε} (h : ∀ x ∈ e :: es, L.ok x) :
    E act (invoke .helper (L.args k (e :: es))) (L.after k e es) := by
  have he : L.ok e := h e (by simp)
  have hes : ∀ x ∈ es, L.ok x := fun x hx => h x (by simp [hx])
  have ha5 : Below 5 act := ha.mono (by decide)
  have ha6 : Below 6 (act.add .helper) := (ha.mono (by decide)).add (by decide)
  have hmac : E act [L.mac.tok] [L.mac.tok] := E.name (ha5 _ L.mac_level) L.mac_params (by simp) .nil
  have hdl : E act [L.dl.tok] [L.dl.tok] := E.name (ha5 _ L.dl_level) L.dl_params (by simp) .nil
  have hpj : E act [L.pj.tok] [L.pj.tok] := E.name (ha5 _ L.pj_level) L.pj_params (by simp) .nil
  have hbind : bindArgs 7 true (splitArgs 0 (L.args k (e :: es))) =
      some [[L.mac.tok], L.tk, L.sq k, [L.dl.tok], [L.pj.tok], L.bd, L.text e, joinArgs (es.map L.text)] := by
    rw [L.args_split k h (by simp)]
    simp [bindArgs]
  have hfirst := L.indirect ha6 k he
  refine E.call (m := .helper) (ha _ (by decide)) rfl (L.args_bal k h) hbind
    (ts := invoke .indirect (L.mac.tok :: .comma :: (L.sq k ++ .comma :: (invoke .stripParens L.bd ++ .comma ::
      invoke L.pj (L.text e)))) ++ (if es.isEmpty then [] else invoke L.dl [] ++ Macro.again.tok :: Macro.parens.tok :: .lp ::
        (L.args (k + 1) es ++ [.rp]))) ?_ ?_ (L.after_settled k he es)
  · refine Sub.append (ps := [.tok Macro.indirect.tok, .tok Tok.lp, .arg 0, .tok Tok.comma, .arg 2, .tok Tok.comma,
      .tok Macro.stripParens.tok, .tok Tok.lp, .arg 5,
      .tok Tok.rp, .tok Tok.comma, .arg 4, .tok Tok.lp, .arg 6, .tok Tok.rp, .tok Tok.rp]) ?_ ?_
    · refine Sub.conv (Sub.tok (Sub.tok (Sub.arg hmac (Sub.tok (Sub.arg (.plain (L.sq_plain k)) (Sub.tok (Sub.tok (Sub.tok
        (Sub.arg (.plain L.bd_written.plain) (Sub.tok (Sub.tok (Sub.arg hpj (Sub.tok (Sub.arg (.plain (L.text_plain e he))
          (Sub.tok (Sub.tok Sub.nil)))))))))))))))) (by simp [invoke])
    · cases es with
      | nil =>
        exact Sub.opt_none (E.plain (xs := []) .nil) Sub.nil
      | cons e' es =>
        refine Sub.conv (Sub.opt_some (v := joinArgs ((e' :: es).map L.text)) (.plain (L.texts_plain hes)) ?_
          (Sub.arg hdl (Sub.tok (Sub.tok (Sub.tok (Sub.tok (Sub.tok (Sub.arg hmac (Sub.tok (Sub.arg (.plain L.tk_plain)
            (Sub.tok (Sub.cat (L.sq_succ k) (Sub.tok (Sub.arg hdl (Sub.tok (Sub.arg hpj (Sub.tok
              (Sub.arg (.plain L.bd_written.plain) (Sub.tok (Sub.arg (.plain (L.texts_plain hes)) (Sub.tok
                Sub.nil)))))))))))))))))))) Sub.nil) ?_
        · have := L.text_ne e' (hes e' (by simp))
          cases es with
          | nil => simpa [joinArgs] using this
          | cons e'' es => simp [joinArgs]
        · simp [invoke, Loop.args]
  · unfold Loop.after
    refine E.append hfirst (L.res_plain k e he).settled ?_
    cases es with
    | nil => exact .nil
    | cons e' es =>
      have ha5' : Below 5 (act.add .helper) := ha6.mono (by decide)
      refine E.append (L.delim ha5') L.dt_plain.settled ?_
      refine E.name (by simp [Active.add, ha .again (by decide)]) rfl ?_ ?_
      · simp [Macro.tok]
      · refine E.append (xs := [Macro.parens.tok]) (ys := [.lp, .rp])
          (E.object (ha5' _ (by decide)) rfl (ts := [.lp, .rp]) rfl (.plain (.cons rfl (.cons rfl .nil)))
            (Plain.settled (.cons rfl (.cons rfl .nil)))) (Plain.settled (.cons rfl (.cons rfl .nil))) ?_
        exact .cons rfl (L.args_stay ha5' (k + 1) hes (.plain (.cons rfl .nil)))

/-- InterfaceMock.hpp 189 -/
theorem Loop.resume (L : Loop ε) {act : Active} (ha : Below 8 act) (k : Nat) {e : ε} {es : List ε} (h : ∀ x ∈ e :: es, L.ok x) :
    E act (L.deferred k (e :: es)) (L.after k e es) := by
  refine E.chain (m := .again) (m' := .helper) (ha _ (by decide)) (by decide) rfl rfl (raw := []) .nil (args := []) rfl
    (Sub.tok Sub.nil) (L.helper ha k h) (ha _ (by decide))

/-- What the loop makes of all elements, if there are enough scans. -/
def Loop.emit (L : Loop ε) : Nat → List ε → List Tok
  | _, [] => []
  | k, [e] => L.res k e
  | k, e :: es => L.res k e ++ (L.dt ++ L.emit (k + 1) es)

/-- The text after `s` scans. -/
def Loop.state (L : Loop ε) : Nat → Nat → List ε → List Tok
  | _, _, [] => []
  | k, 0, es => L.deferred k es
  | k, _ + 1, [e] => L.res k e
  | k, s + 1, e :: es => L.res k e ++ (L.dt ++ L.state (k + 1) s es)

theorem Loop.state_emit (L : Loop ε) (k s : Nat) {es : List ε} (h : es.length ≤ s) : L.state k s es = L.emit k es := by
  induction es generalizing k s with
  | nil => cases s <;> rfl
  | cons e es ih =>
    cases s with
    | zero => simp at h
    | succ s =>
      cases es with
      | nil => rfl
      | cons e' es =>
        simp only [Loop.state, Loop.emit]
        rw [ih (k + 1) s (by simpa using h)]

/-- Too few scans. -/
theorem Loop.state_left (L : Loop ε) (k s : Nat) {es : List ε} (h : s < es.length) : Macro.again.tok ∈ L.state k s es := by
  induction es generalizing k s with
  | nil => simp at h
  | cons e es ih =>
    cases s with
    | zero => simp [Loop.state, Loop.deferred]
    | succ s =>
      cases es with
      | nil => simp at h
      | cons e' es =>
        simp only [Loop.state, List.mem_append]
        exact Or.inr (Or.inr (ih (k + 1) s (by simpa using h)))

theorem Loop.state_one (L : Loop ε) (k : Nat) (e : ε) (es : List ε) : L.state k 1 (e :: es) = L.after k e es := by
  cases es with
  | nil => simp [Loop.state, Loop.after]
  | cons e' es => simp [Loop.state, Loop.after]

theorem Loop.state_settled (L : Loop ε) (k s : Nat) {es : List ε} (h : ∀ x ∈ es, L.ok x) : Settled (L.state k s es) := by
  induction es generalizing k s with
  | nil => cases s <;> exact .nil
  | cons e es ih =>
    cases s with
    | zero =>
      have : L.state k 0 (e :: es) = (Macro.again.tok :: .lp :: .rp :: .lp :: L.args k (e :: es)) ++ [.rp] := by
        simp [Loop.state, Loop.deferred]
      rw [this]
      exact Settled.last rfl
    | succ s =>
      cases es with
      | nil => exact (L.res_plain k e (h e (by simp))).settled
      | cons e' es =>
        have hs := ih (k + 1) s (fun x hx => h x (by simp [hx]))
        by_cases hne : L.state (k + 1) s (e' :: es) = []
        · simp only [Loop.state, hne, List.append_nil]
          exact Plain.settled (.append (L.res_plain k e (h e (by simp))) L.dt_plain)
        · simp only [Loop.state]
          exact Settled.append (Settled.append hs hne) (by simp [hne])

theorem Loop.state_bal (L : Loop ε) (k s : Nat) {es : List ε} (h : ∀ x ∈ es, L.ok x) : Bal (L.state k s es) := by
  induction es generalizing k s with
  | nil => cases s <;> exact .nil
  | cons e es ih =>
    cases s with
    | zero =>
      have : L.state k 0 (e :: es) = [Macro.again.tok, .lp, .rp] ++ inParens (L.args k (e :: es)) := by
        simp [Loop.state, Loop.deferred, inParens]
      rw [this]
      exact Bal.append rfl (L.args_bal k h).inParens.bal
    | succ s =>
      cases es with
      | nil => exact L.res_bal k e (h e (by simp))
      | cons e' es =>
        simp only [Loop.state]
        exact (L.res_bal k e (h e (by simp))).append (L.dt_bal.append (ih (k + 1) s (fun x hx => h x (by simp [hx]))))

/-- One scan more. -/
theorem Loop.scan (L : Loop ε) {act : Active} (ha : Below 8 act) (k s : Nat) {es : List ε} (h : ∀ x ∈ es, L.ok x) :
    E act (L.state k s es) (L.state k (s + 1) es) := by
  induction es generalizing k s with
  | nil => cases s <;> exact .nil
  | cons e es ih =>
    cases s with
    | zero =>
      rw [L.state_one]
      exact L.resume ha k h
    | succ s =>
      cases es with
      | nil => exact .plain (L.res_plain k e (h e (by simp)))
      | cons e' es =>
        simp only [Loop.state]
        refine E.append (.plain (L.res_plain k e (h e (by simp)))) (L.res_plain k e (h e (by simp))).settled ?_
        exact E.append (.plain L.dt_plain) L.dt_plain.settled (ih (k + 1) s (fun x hx => h x (by simp [hx])))

/-! ## `EXPAND` -/

/-- A text that changes with every scan. -/
structure Scans (T : Nat → List Tok) : Prop where
  scan : ∀ {act : Active}, Below 8 act → ∀ s, E act (T s) (T (s + 1))
  bal : ∀ s, Bal (T s)
  settled : ∀ s, Settled (T s)

/-- InterfaceMock.hpp 148 -/
theorem Scans.expand1 {T : Nat → List Tok} (hT : Scans T) {act : Active} (ha : Below 9 act) {X : List Tok} (hX : Bal X) {s : Nat}
    (h : E act X (T s)) : E act (invoke .expand1 X) (T (s + 1)) :=
  E.call (m := .expand1) (ha _ (by decide)) rfl hX (bind_va X) (ts := T s) (Sub.conv (Sub.arg h Sub.nil) (by simp))
    (hT.scan ((ha.mono (by decide)).add (by decide)) s) (hT.settled _)

/-- InterfaceMock.hpp 142 -/
theorem Scans.expand2 {T : Nat → List Tok} (hT : Scans T) {act : Active} (ha : Below 10 act) {X : List Tok} (hX : Bal X) {s : Nat}
    (h : E act X (T s)) : E act (invoke .expand2 X) (T (s + 5)) := by
  refine E.call (m := .expand2) (ha _ (by decide)) rfl hX (bind_va X)
    (ts := invoke .expand1 (invoke .expand1 (invoke .expand1 (invoke .expand1 (T s)))))
    (Sub.conv (Sub.tok (Sub.tok (Sub.tok (Sub.tok (Sub.tok (Sub.tok (Sub.tok (Sub.tok (Sub.arg h (Sub.tok (Sub.tok (Sub.tok
      (Sub.tok Sub.nil))))))))))))) (by simp [invoke])) ?_ (hT.settled _)
  have ha' : Below 9 (act.add .expand2) := (ha.mono (by decide)).add (by decide)
  have h0 := hT.scan (ha'.mono (by decide)) s
  have h1 := hT.expand1 ha' (hT.bal s) h0
  have h2 := hT.expand1 ha' (hT.bal s).invoke.bal h1
  have h3 := hT.expand1 ha' (hT.bal s).invoke.bal.invoke.bal h2
  exact hT.expand1 ha' (hT.bal s).invoke.bal.invoke.bal.invoke.bal h3

/-- InterfaceMock.hpp 136 -/
theorem Scans.expand3 {T : Nat → List Tok} (hT : Scans T) {act : Active} (ha : Below 11 act) {X : List Tok} (hX : Bal X) {s : Nat}
    (h : E act X (T s)) : E act (invoke .expand3 X) (T (s + 21)) := by
  refine E.call (m := .expand3) (ha _ (by decide)) rfl hX (bind_va X)
    (ts := invoke .expand2 (invoke .expand2 (invoke .expand2 (invoke .expand2 (T s)))))
    (Sub.conv (Sub.tok (Sub.tok (Sub.tok (Sub.tok (Sub.tok (Sub.tok (Sub.tok (Sub.tok (Sub.arg h (Sub.tok (Sub.tok (Sub.tok
      (Sub.tok Sub.nil))))))))))))) (by simp [invoke])) ?_ (hT.settled _)
  have ha' : Below 10 (act.add .expand3) := (ha.mono (by decide)).add (by decide)
  have h0 := hT.scan (ha'.mono (by decide)) s
  have h1 := hT.expand2 ha' (hT.bal s) h0
  have h2 := hT.expand2 ha' (hT.bal s).invoke.bal h1
  have h3 := hT.expand2 ha' (hT.bal s).invoke.bal.invoke.bal h2
  exact hT.expand2 ha' (hT.bal s).invoke.bal.invoke.bal.invoke.bal h3

/-- InterfaceMock.hpp 130 -/
theorem Scans.expand {T : Nat → List Tok} (hT : Scans T) {act : Active} (ha : Below 12 act) {X : List Tok} (hX : Bal X) {s : Nat}
    (h : E act X (T s)) : E act (invoke .expand X) (T (s + 85)) := by
  refine E.call (m := .expand) (ha _ (by decide)) rfl hX (bind_va X)
    (ts := invoke .expand3 (invoke .expand3 (invoke .expand3 (invoke .expand3 (T s)))))
    (Sub.conv (Sub.tok (Sub.tok (Sub.tok (Sub.tok (Sub.tok (Sub.tok (Sub.tok (Sub.tok (Sub.arg h (Sub.tok (Sub.tok (Sub.tok
      (Sub.tok Sub.nil))))))))))))) (by simp [invoke])) ?_ (hT.settled _)
  have ha' : Below 11 (act.add .expand) := (ha.mono (by decide)).add (by decide)
  have h0 := hT.scan (ha'.mono (by decide)) s
  have h1 := hT.expand3 ha' (hT.bal s) h0
  have h2 := hT.expand3 ha' (hT.bal s).invoke.bal h1
  have h3 := hT.expand3 ha' (hT.bal s).invoke.bal.invoke.bal h2
  exact hT.expand3 ha' (hT.bal s).invoke.bal.invoke.bal.invoke.bal h3

/-- The arguments of `FOR_EACH_EXT`. -/
def Loop.input (L : Loop ε) (es : List ε) : List Tok :=
  L.mac.tok :: .comma :: (L.tk ++ .comma :: L.dl.tok :: .comma :: L.pj.tok :: .comma ::
    (L.bd ++ .comma :: joinArgs (es.map L.text)))

/-- InterfaceMock.hpp 174-175: the number of scans is 86. -/
theorem Loop.forEach (L : Loop ε) {act : Active} (ha : Below 13 act) {es : List ε} (h : ∀ e ∈ es, L.ok e) :
    E act (invoke .forEach (L.input es)) (L.state 0 86 es) := by
  have ha5 : Below 5 act := ha.mono (by decide)
  have hmac : E act [L.mac.tok] [L.mac.tok] := E.name (ha5 _ L.mac_level) L.mac_params (by simp) .nil
  have hdl : E act [L.dl.tok] [L.dl.tok] := E.name (ha5 _ L.dl_level) L.dl_params (by simp) .nil
  have hpj : E act [L.pj.tok] [L.pj.tok] := E.name (ha5 _ L.pj_level) L.pj_params (by simp) .nil
  have h1 : L.input es = [L.mac.tok] ++ .comma :: (L.tk ++ .comma :: ([L.dl.tok] ++ .comma ::
      ([L.pj.tok] ++ .comma :: (L.bd ++ .comma :: joinArgs (es.map L.text))))) := rfl
  have hsplit : splitArgs 0 (L.input es) = [L.mac.tok] :: L.tk :: [L.dl.tok] :: [L.pj.tok] :: L.bd ::
      splitArgs 0 (joinArgs (es.map L.text)) := by
    rw [h1, split_comma (Arg.one _), split_comma L.tk_arg, split_comma (Arg.one _), split_comma (Arg.one _),
      split_comma L.bd_written.arg]
  have hbind : bindArgs 5 true (splitArgs 0 (L.input es)) =
      some [[L.mac.tok], L.tk, [L.dl.tok], [L.pj.tok], L.bd, joinArgs (es.map L.text)] := by
    rw [hsplit]
    simp [bindArgs, join_split]
  have hbal : Bal (L.input es) :=
    Bal.append (xs := [L.mac.tok, .comma]) rfl (L.tk_arg.bal.append
      (Bal.append (xs := [.comma, L.dl.tok, .comma, L.pj.tok, .comma]) rfl (L.bd_written.arg.bal.append (Bal.comma
        (Bal.join (L.texts_arg h))))))
  cases es with
  | nil =>
    exact E.call (m := .forEach) (ha _ (by decide)) rfl hbal hbind (ts := [])
      (Sub.opt_none (E.plain (xs := []) .nil) Sub.nil) .nil .nil
  | cons e es =>
    have he : L.ok e := h e (by simp)
    refine E.call (m := .forEach) (ha _ (by decide)) rfl hbal hbind
      (ts := invoke .expand (invoke .helper (L.args 0 (e :: es)))) ?_ ?_ (L.state_settled 0 86 h)
    · refine Sub.conv (Sub.opt_some (v := joinArgs ((e :: es).map L.text)) (.plain (L.texts_plain h)) ?_
        (Sub.tok (Sub.tok (Sub.tok (Sub.tok (Sub.arg hmac (Sub.tok (Sub.arg (.plain L.tk_plain) (Sub.tok
          (Sub.arg (.plain L.tk_plain) (Sub.tok (Sub.arg hdl (Sub.tok (Sub.arg hpj (Sub.tok (Sub.arg (.plain L.bd_written.plain)
            (Sub.tok (Sub.arg (.plain (L.texts_plain h)) (Sub.tok (Sub.tok Sub.nil))))))))))))))))))) Sub.nil) ?_
      · have := L.text_ne e he
        cases es with
        | nil => simpa [joinArgs] using this
        | cons e'' es => simp [joinArgs]
      · simp [invoke, Loop.args, L.sq_zero]
    · have ha' : Below 12 (act.add .forEach) := (ha.mono (by decide)).add (by decide)
      have hT : Scans (fun s => L.state 0 s (e :: es)) :=
        ⟨fun ha s => L.scan ha 0 s h, fun s => L.state_bal 0 s h, fun s => L.state_settled 0 s h⟩
      refine hT.expand ha' (L.args_bal 0 h).invoke.bal (s := 1) ?_
      show E _ _ (L.state 0 1 (e :: es))
      rw [L.state_one]
      exact L.helper (ha'.mono (by decide)) 0 h

end Mimic.Pp
