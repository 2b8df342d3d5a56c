import Verif.Proofs.Macros

/-!
# What the macros for interface mocks generate
-/

set_option autoImplicit false
set_option linter.unusedSimpArgs false

namespace Mimic.Pp

theorem Plain.forward {xs : List Tok} (h : Plain xs) (k : Nat) : Plain (forwarded xs (paramName k)) := by
  refine .append (.append ?_ h) ?_
  · intro t ht
    simp only [List.mem_cons, List.not_mem_nil, or_false] at ht
    rcases ht with rfl | rfl | rfl | rfl | rfl | rfl | rfl | rfl | rfl | rfl <;>
      first | rfl | exact lookup_other (by decide) (by decide) _
  · exact .cons rfl (.cons rfl (.cons (paramName_plain k) (.cons rfl .nil)))

theorem Bal.forward {xs : List Tok} (h : Bal xs) (k : Nat) : Bal (forwarded xs (paramName k)) :=
  Bal.append (Bal.append rfl h) rfl

theorem ithName (k : Nat) : Plain [Tok.id (List.replicate (k + 1) 'i') false] :=
  .cons (lookup_other (by decide) (by decide) _) .nil

theorem identity_plain {act : Active} (ha : Below 5 act) {w : List Tok} (hp : Plain w) (hb : Bal w) :
    E act (invoke .identity w) w :=
  E.call (m := .identity) (ha _ (by decide)) rfl hb (bind_va w) (ts := w) (Sub.conv (Sub.arg (.plain hp) Sub.nil) (by simp))
    (.plain hp) hp.settled

theorem comma_delimiter {act : Active} (ha : Below 5 act) : E act (invoke .commaDelimiter []) [.comma] :=
  E.call (m := .commaDelimiter) (ha _ (by decide)) rfl .nil (args := []) rfl (Sub.tok Sub.nil) (.plain (.cons rfl .nil))
    (Plain.settled (.cons rfl .nil))

theorem no_delimiter {act : Active} (ha : Below 5 act) : E act (invoke .noDelimiter []) [] :=
  E.call (m := .noDelimiter) (ha _ (by decide)) rfl .nil (args := []) rfl Sub.nil .nil .nil

theorem Arg.word (s : List Char) (b : Bool) : Arg [.id s b] := rfl

theorem split_three {a b c : List Tok} (ha : Arg a) (hb : Arg b) (hc : Arg c) :
    splitArgs 0 (a ++ .comma :: (b ++ .comma :: c)) = [a, b, c] := by
  rw [split_comma ha, split_comma hb, split_last hc]

theorem bal_three {a b c : List Tok} (ha : Bal a) (hb : Bal b) (hc : Bal c) : Bal (a ++ .comma :: (b ++ .comma :: c)) :=
  ha.append (.comma (hb.append (.comma hc)))

theorem glue_i (k : Nat) : glue [Tok.id (List.replicate (k + 1) 'i') false] [word "i"] =
    some [Tok.id (List.replicate (k + 1 + 1) 'i') false] := by
  rw [List.replicate_succ' (n := k + 1)]
  rfl

/-- InterfaceMock.hpp 249 -/
theorem makeParam_E {act : Active} (ha : Below 5 act) (k : Nat) {w : List Tok} (hw : Written w) :
    E act (invoke .makeParam ([Tok.id (List.replicate (k + 1) 'i') false] ++ .comma :: (meant [] ++ .comma :: w)))
      (meant w ++ [paramName k]) := by
  refine E.call (m := .makeParam) (ha _ (by decide)) rfl (bal_three (Arg.word _ _).bal Bal.nil hw.arg.bal)
    (args := [[Tok.id (List.replicate (k + 1) 'i') false], [], w])
    (by rw [split_three (Arg.word _ _) .nil hw.arg]; rfl) (ts := invoke .stripParens w ++ [paramName k])
    (Sub.conv (Sub.tok (Sub.tok (Sub.arg (.plain hw.plain) (Sub.tok (Sub.cat (g := [paramName k]) rfl Sub.nil)))))
      (by simp [invoke])) ?_ (Settled.last (paramName_plain k))
  exact E.append (strip_plain ((ha.mono (by decide)).add (by decide)) hw) hw.meant_plain.settled
    (.plain (.cons (paramName_plain k) .nil))

/-- InterfaceMock.hpp 280-281 -/
theorem forwardArg_E {act : Active} (ha : Below 5 act) (k : Nat) {w : List Tok} (hw : Written w) :
    E act (invoke .forwardArg ([Tok.id (List.replicate (k + 1) 'i') false] ++ .comma :: (meant [] ++ .comma :: w)))
      (forwarded (meant w) (paramName k)) := by
  refine E.call (m := .forwardArg) (ha _ (by decide)) rfl (bal_three (Arg.word _ _).bal Bal.nil hw.arg.bal)
    (args := [[Tok.id (List.replicate (k + 1) 'i') false], [], w])
    (by rw [split_three (Arg.word _ _) .nil hw.arg]; rfl)
    (ts := forwarded (invoke .stripParens w) (paramName k))
    (Sub.conv (Sub.tok (Sub.tok (Sub.tok (Sub.tok (Sub.tok (Sub.tok (Sub.tok (Sub.tok (Sub.tok (Sub.tok (Sub.tok (Sub.tok
      (Sub.arg (.plain hw.plain) (Sub.tok (Sub.tok (Sub.tok (Sub.cat (g := [paramName k]) rfl (Sub.tok Sub.nil))))))))))))))))))
      (by simp [invoke, forwarded])) ?_ (hw.meant_plain.forward k).settled
  have hp := Plain.forward Plain.nil k
  have h1 : Plain [punct "::", word "std", punct "::", word "forward", punct "<", punct "::", word "std", punct "::",
    word "add_rvalue_reference_t", punct "<"] := fun t ht => hp t (List.mem_append_left _ (List.mem_append_left _ ht))
  have h2 : Plain [punct ">>", .lp, paramName k, .rp] := fun t ht => hp t (List.mem_append_right _ ht)
  refine E.append (E.append (.plain h1) h1.settled (strip_plain ((ha.mono (by decide)).add (by decide)) hw)) ?_ (.plain h2)
  exact Plain.settled (.append h1 hw.meant_plain)

/-- The loop over the parameters (InterfaceMock.hpp 255-262). -/
def paramLoop : Loop (List Tok) where
  mac := .makeParam
  dl := .commaDelimiter
  pj := .identity
  tk := [word "i"]
  sq := fun k => [Tok.id (List.replicate (k + 1) 'i') false]
  bd := []
  dt := [.comma]
  ok := fun w => Written w ∧ w ≠ []
  text := id
  proj := id
  res := fun k w => meant w ++ [paramName k]
  macParams := (3, false)
  dlParams := (0, false)
  pjParams := (0, true)
  mac_params := rfl
  dl_params := rfl
  pj_params := rfl
  mac_level := by decide
  dl_level := by decide
  pj_level := by decide
  tk_plain := ithName 0
  tk_arg := rfl
  sq_zero := rfl
  sq_succ := glue_i
  sq_plain := ithName
  sq_arg := fun _ => rfl
  bd_written := .empty
  dt_plain := .cons rfl .nil
  dt_bal := rfl
  text_plain := fun _ h => h.1.plain
  text_arg := fun _ h => h.1.arg
  text_ne := fun _ h => h.2
  res_plain := fun k _ h => .append h.1.meant_plain (.cons (paramName_plain k) .nil)
  res_bal := fun _ _ h => h.1.meant_bal.append rfl
  delim := comma_delimiter
  project := fun ha _ h => identity_plain ha h.1.plain h.1.arg.bal
  apply := fun ha k _ h => makeParam_E ha k h.1

/-- The loop over the arguments (InterfaceMock.hpp 287-294). -/
def forwardLoop : Loop (List Tok) where
  mac := .forwardArg
  dl := .commaDelimiter
  pj := .identity
  tk := [word "i"]
  sq := fun k => [Tok.id (List.replicate (k + 1) 'i') false]
  bd := []
  dt := [.comma]
  ok := fun w => Written w ∧ w ≠ []
  text := id
  proj := id
  res := fun k w => forwarded (meant w) (paramName k)
  macParams := (3, false)
  dlParams := (0, false)
  pjParams := (0, true)
  mac_params := rfl
  dl_params := rfl
  pj_params := rfl
  mac_level := by decide
  dl_level := by decide
  pj_level := by decide
  tk_plain := ithName 0
  tk_arg := rfl
  sq_zero := rfl
  sq_succ := glue_i
  sq_plain := ithName
  sq_arg := fun _ => rfl
  bd_written := .empty
  dt_plain := .cons rfl .nil
  dt_bal := rfl
  text_plain := fun _ h => h.1.plain
  text_arg := fun _ h => h.1.arg
  text_ne := fun _ h => h.2
  res_plain := fun k _ h => h.1.meant_plain.forward k
  res_bal := fun k _ h => h.1.meant_bal.forward k
  delim := comma_delimiter
  project := fun ha _ h => identity_plain ha h.1.plain h.1.arg.bal
  apply := fun ha k _ h => forwardArg_E ha k h.1

theorem Loop.emit_join {ε : Type} (L : Loop ε) (h : L.dt = [.comma]) (k : Nat) (es : List ε) :
    L.emit k es = joinArgs (es.mapIdx (fun i e => L.res (k + i) e)) := by
  induction es generalizing k with
  | nil => rfl
  | cons e es ih =>
    cases es with
    | nil => simp [Loop.emit, joinArgs]
    | cons e' es =>
      rw [Loop.emit, ih (k + 1), h]
      · simp only [List.mapIdx_cons, joinArgs, List.cons_append, List.nil_append, Nat.add_zero]
        simp [Nat.add_assoc, Nat.add_comm, Nat.add_left_comm]
      · simp

theorem Loop.emit_flat {ε : Type} (L : Loop ε) (h : L.dt = []) (r : ε → List Tok) (hr : ∀ k e, L.res k e = r e) (k : Nat) (es : List ε) :
    L.emit k es = es.flatMap r := by
  induction es generalizing k with
  | nil => rfl
  | cons e es ih =>
    cases es with
    | nil => simp [Loop.emit, hr]
    | cons e' es =>
      rw [Loop.emit, ih (k + 1), h, hr]
      · simp
      · simp

/-- InterfaceMock.hpp 255-262 -/
theorem makeParamList_E {act : Active} (ha : Below 14 act) {ws : List (List Tok)} (h : ∀ w ∈ ws, Written w ∧ w ≠ [])
    (hlen : ws.length ≤ 86) {X : List Tok} (hX : E act X (joinArgs ws)) (hb : Bal X) :
    E act (invoke .makeParamList X) (joinArgs (ws.mapIdx (fun k w => meant w ++ [paramName k]))) := by
  have hout : paramLoop.state 0 86 ws = joinArgs (ws.mapIdx (fun k w => meant w ++ [paramName k])) := by
    rw [paramLoop.state_emit 0 86 hlen, paramLoop.emit_join rfl 0 ws]
    simp only [Nat.zero_add]
    rfl
  rw [← hout]
  refine E.call (m := .makeParamList) (ha _ (by decide)) rfl hb (bind_va X) (ts := invoke .forEach (paramLoop.input ws))
    (Sub.conv (Sub.tok (Sub.tok (Sub.tok (Sub.tok (Sub.tok (Sub.tok (Sub.tok (Sub.tok (Sub.tok (Sub.tok (Sub.tok
      (Sub.arg hX (Sub.tok Sub.nil))))))))))))) ?_) ?_ (paramLoop.state_settled 0 86 h)
  · simp [invoke, Loop.input, paramLoop]
  · exact paramLoop.forEach ((ha.mono (by decide)).add (by decide)) h

/-- InterfaceMock.hpp 287-294 -/
theorem forwardArgs_E {act : Active} (ha : Below 14 act) {ws : List (List Tok)} (h : ∀ w ∈ ws, Written w ∧ w ≠ [])
    (hlen : ws.length ≤ 86) {X : List Tok} (hX : E act X (joinArgs ws)) (hb : Bal X) :
    E act (invoke .forwardArgs X) (joinArgs (ws.mapIdx (fun k w => forwarded (meant w) (paramName k)))) := by
  have hout : forwardLoop.state 0 86 ws = joinArgs (ws.mapIdx (fun k w => forwarded (meant w) (paramName k))) := by
    rw [forwardLoop.state_emit 0 86 hlen, forwardLoop.emit_join rfl 0 ws]
    simp only [Nat.zero_add]
    rfl
  rw [← hout]
  refine E.call (m := .forwardArgs) (ha _ (by decide)) rfl hb (bind_va X) (ts := invoke .forEach (forwardLoop.input ws))
    (Sub.conv (Sub.tok (Sub.tok (Sub.tok (Sub.tok (Sub.tok (Sub.tok (Sub.tok (Sub.tok (Sub.tok (Sub.tok (Sub.tok
      (Sub.arg hX (Sub.tok Sub.nil))))))))))))) ?_) ?_ (forwardLoop.state_settled 0 86 h)
  · simp [invoke, Loop.input, forwardLoop]
  · exact forwardLoop.forEach ((ha.mono (by decide)).add (by decide)) h

/-! ## Overloads -/

theorem Overload.Valid.params_plain {o : Overload} (h : o.Valid) : Plain (joinArgs o.params) :=
  .join (fun w hw => (h.params w hw).1.plain)

theorem Overload.Valid.params_bal {o : Overload} (h : o.Valid) : Bal (joinArgs o.params) :=
  .join (fun w hw => (h.params w hw).1.arg)

theorem mem_mapIdx {α β : Type} {f : Nat → α → β} {xs : List α} {y : β} (h : y ∈ xs.mapIdx f) : ∃ k, ∃ x ∈ xs, y = f k x := by
  rw [List.mem_mapIdx] at h
  obtain ⟨k, hk, rfl⟩ := h
  exact ⟨k, xs[k], List.getElem_mem hk, rfl⟩

theorem Overload.Valid.parameters_plain {o : Overload} (h : o.Valid) : Plain (joinArgs o.parameters) := by
  refine .join (fun x hx => ?_)
  obtain ⟨k, w, hw, rfl⟩ := mem_mapIdx hx
  exact .append (h.params w hw).1.meant_plain (.cons (paramName_plain k) .nil)

theorem Bal.join' {as : List (List Tok)} (h : ∀ a ∈ as, Bal a) : Bal (joinArgs as) := by
  induction as with
  | nil => exact .nil
  | cons a as ih =>
    cases as with
    | nil => exact h a (by simp)
    | cons b as =>
      refine Bal.append (h a (by simp)) (.comma (ih ?_))
      intro x hx
      exact h x (by simp [hx])

theorem Overload.Valid.parameters_bal {o : Overload} (h : o.Valid) : Bal (joinArgs o.parameters) := by
  refine .join' (fun x hx => ?_)
  obtain ⟨k, w, hw, rfl⟩ := mem_mapIdx hx
  exact (h.params w hw).1.meant_bal.append rfl

theorem Overload.Valid.forwards_plain {o : Overload} (h : o.Valid) : Plain (joinArgs o.forwards) := by
  refine .join (fun x hx => ?_)
  obtain ⟨k, w, hw, rfl⟩ := mem_mapIdx hx
  exact (h.params w hw).1.meant_plain.forward k

theorem Overload.Valid.forwards_bal {o : Overload} (h : o.Valid) : Bal (joinArgs o.forwards) := by
  refine .join' (fun x hx => ?_)
  obtain ⟨k, w, hw, rfl⟩ := mem_mapIdx hx
  exact (h.params w hw).1.meant_bal.forward k

/-- The parts of the description. -/
def Overload.parts (o : Overload) : List (List Tok) :=
  [o.ret, inParens (joinArgs o.params), o.specs, inParens (joinArgs o.parameters), inParens (joinArgs o.forwards)]

theorem Overload.Valid.parts_arg {o : Overload} (h : o.Valid) : ∀ a ∈ o.parts, Arg a := by
  intro a ha
  simp only [Overload.parts, List.mem_cons, List.not_mem_nil, or_false] at ha
  rcases ha with rfl | rfl | rfl | rfl | rfl
  · exact h.ret.arg
  · exact h.params_bal.inParens
  · exact h.specs.arg
  · exact h.parameters_bal.inParens
  · exact h.forwards_bal.inParens

theorem Overload.Valid.parts_plain {o : Overload} (h : o.Valid) : ∀ a ∈ o.parts, Plain a := by
  intro a ha
  simp only [Overload.parts, List.mem_cons, List.not_mem_nil, or_false] at ha
  rcases ha with rfl | rfl | rfl | rfl | rfl
  · exact h.ret.plain
  · exact h.params_plain.inParens
  · exact h.specs.plain
  · exact h.parameters_plain.inParens
  · exact h.forwards_plain.inParens

theorem Overload.Valid.infos_written {o : Overload} (h : o.Valid) : Written o.infos :=
  .inParens (.join h.parts_plain) (.join h.parts_arg)

/-- InterfaceMock.hpp 312-315, called with the specifiers and one empty argument more. -/
theorem infosSpecs_E {act : Active} (ha : Below 15 act) {o : Overload} (h : o.Valid) (hlen : o.params.length ≤ 86) :
    E act (invoke .infosSpecs (joinArgs [o.ret, inParens (joinArgs o.params), o.specs, []])) o.infos := by
  have hargs : ∀ a ∈ [o.ret, inParens (joinArgs o.params), o.specs, []], Arg a := by
    intro a ha
    simp only [List.mem_cons, List.not_mem_nil, or_false] at ha
    rcases ha with rfl | rfl | rfl | rfl
    · exact h.ret.arg
    · exact h.params_bal.inParens
    · exact h.specs.arg
    · exact .nil
  have hp : Plain (inParens (joinArgs o.params)) := h.params_plain.inParens
  have hwr : Written (inParens (joinArgs o.params)) := .inParens h.params_plain h.params_bal
  let X : List Tok := invoke .stripParens (inParens (joinArgs o.params))
  have hXb : Bal X := h.params_bal.inParens.bal.invoke.bal
  have ha' : Below 14 (act.add .infosSpecs) := (ha.mono (by decide)).add (by decide)
  have hX : E (act.add .infosSpecs) X (joinArgs o.params) := by
    have := strip_plain (ha'.mono (by decide)) hwr
    rwa [meant_parens] at this
  refine E.call (m := .infosSpecs) (ha _ (by decide)) rfl (.join hargs)
    (args := [o.ret, inParens (joinArgs o.params), o.specs, []]) (by rw [split_join hargs (by simp)]; simp [bindArgs, joinArgs])
    (ts := .lp :: (o.ret ++ .comma :: (inParens (joinArgs o.params) ++ .comma :: (o.specs ++ .comma ::
      (inParens (invoke .makeParamList X) ++ .comma :: (inParens (invoke .forwardArgs X) ++ [.rp]))))))
    (Sub.conv (Sub.tok (Sub.arg (.plain h.ret.plain) (Sub.tok (Sub.arg (.plain hp) (Sub.tok (Sub.arg (.plain h.specs.plain)
      (Sub.tok (Sub.tok (Sub.tok (Sub.tok (Sub.tok (Sub.tok (Sub.arg (.plain hp) (Sub.tok (Sub.tok (Sub.tok (Sub.tok (Sub.tok (Sub.tok
        (Sub.tok (Sub.tok (Sub.tok (Sub.arg (.plain hp) (Sub.tok (Sub.tok (Sub.tok (Sub.tok
          Sub.nil))))))))))))))))))))))))))) ?_) ?_ h.infos_written.plain.settled
  · simp [invoke, inParens, X]
  · have hout : o.infos = .lp :: (o.ret ++ .comma :: (inParens (joinArgs o.params) ++ .comma :: (o.specs ++ .comma ::
        (inParens (joinArgs o.parameters) ++ .comma :: (inParens (joinArgs o.forwards) ++ [.rp]))))) := by
      simp [Overload.infos, joinArgs, inParens]
    rw [hout]
    refine .cons rfl (E.append (.plain h.ret.plain) h.ret.plain.settled (.cons rfl (E.append (.plain hp) hp.settled
      (.cons rfl (E.append (.plain h.specs.plain) h.specs.plain.settled (.cons rfl (E.append ?_ ?_ (.cons rfl
        (E.append ?_ ?_ (.plain (.cons rfl .nil)))))))))))
    · exact .cons rfl (E.append (makeParamList_E ha' h.params hlen hX hXb) h.parameters_plain.settled (.plain (.cons rfl .nil)))
    · exact h.parameters_plain.inParens.settled
    · exact .cons rfl (E.append (forwardArgs_E ha' h.params hlen hX hXb) h.forwards_plain.settled (.plain (.cons rfl .nil)))
    · exact h.forwards_plain.inParens.settled

/-- InterfaceMock.hpp 340-344 -/
theorem addOverload_E {act : Active} (ha : Below 17 act) {o : Overload} (h : o.Valid) (hlen : o.params.length ≤ 86)
    {as : List (List Tok)} (has : as = [o.ret, inParens (joinArgs o.params), o.specs] ∨
      (as = [o.ret, inParens (joinArgs o.params)] ∧ o.specs = [])) :
    E act (invoke .addOverload (joinArgs as)) o.infos := by
  have hargs : ∀ a ∈ as, Arg a := by
    intro a ha
    have : a ∈ [o.ret, inParens (joinArgs o.params), o.specs] := by
      rcases has with rfl | ⟨rfl, _⟩
      · exact ha
      · simp only [List.mem_cons, List.not_mem_nil, or_false] at ha ⊢
        rcases ha with h | h
        · exact Or.inl h
        · exact Or.inr (Or.inl h)
    simp only [List.mem_cons, List.not_mem_nil, or_false] at this
    rcases this with rfl | rfl | rfl
    · exact h.ret.arg
    · exact h.params_bal.inParens
    · exact h.specs.arg
  have hne : as ≠ [] := by rcases has with rfl | ⟨rfl, _⟩ <;> simp
  have hbind : bindArgs 2 true (splitArgs 0 (joinArgs as)) = some [o.ret, inParens (joinArgs o.params), o.specs] := by
    rw [split_join hargs hne]
    rcases has with rfl | ⟨rfl, hs⟩
    · simp [bindArgs, joinArgs]
    · simp [bindArgs, joinArgs, hs]
  have ha' : Below 16 (act.add .addOverload) := (ha.mono (by decide)).add (by decide)
  have hp : Plain (inParens (joinArgs o.params)) := h.params_plain.inParens
  have hsel : splitArgs 0 (o.specs ++ .comma :: [Macro.infosSpecs.tok, .comma, Macro.infosBasic.tok]) =
      [o.specs, [Macro.infosSpecs.tok], [Macro.infosBasic.tok]] := by
    rw [split_comma h.specs.arg]
    rfl
  refine E.call (m := .addOverload) (ha _ (by decide)) rfl (.join hargs) hbind
    (ts := invoke .selectInfos (o.specs ++ .comma :: [Macro.infosSpecs.tok, .comma, Macro.infosBasic.tok]) ++
      .lp :: (joinArgs [o.ret, inParens (joinArgs o.params), o.specs, []] ++ [.rp]))
    (Sub.conv (Sub.tok (Sub.tok (Sub.arg (.plain h.specs.plain) (Sub.tok (Sub.tok (Sub.tok (Sub.tok (Sub.tok (Sub.tok
      (Sub.arg (.plain h.ret.plain) (Sub.tok (Sub.arg (.plain hp) (Sub.tok (Sub.arg (.plain h.specs.plain) (Sub.tok (Sub.tok
        Sub.nil)))))))))))))))) (by simp [invoke, joinArgs])) ?_ h.infos_written.plain.settled
  refine E.chain (m := .selectInfos) (m' := .infosSpecs) (ha' _ (by decide)) (by decide) rfl rfl
    (raw := o.specs ++ .comma :: [Macro.infosSpecs.tok, .comma, Macro.infosBasic.tok])
    (h.specs.arg.bal.append (show Bal [.comma, Macro.infosSpecs.tok, .comma, Macro.infosBasic.tok] from rfl)) (by rw [hsel]; rfl) (Sub.conv (Sub.arg (e := [Macro.infosSpecs.tok]) ?_ Sub.nil) (by simp)) ?_
    (ha' _ (by decide))
  · exact E.name (ha' _ (by decide)) rfl (by simp) .nil
  · exact infosSpecs_E (ha'.mono (by decide)) h hlen

/-! ## The signatures -/

theorem Overload.Valid.signature_plain {o : Overload} (h : o.Valid) : Plain o.signature :=
  .append h.ret.plain (.append h.params_plain.inParens h.specs.plain)

theorem Overload.Valid.signature_bal {o : Overload} (h : o.Valid) : Bal o.signature :=
  h.ret.arg.bal.append (h.params_bal.inParens.bal.append h.specs.arg.bal)

theorem strip_infos {act : Active} (ha : Below 5 act) {o : Overload} (h : o.Valid) :
    E act (invoke .stripParens o.infos) (joinArgs o.parts) := by
  have := strip_plain (ha.mono (by decide)) h.infos_written
  have hm : meant o.infos = joinArgs o.parts := meant_parens _
  rwa [hm] at this

/-- InterfaceMock.hpp 209 -/
theorem makeSignature_E {act : Active} (ha : Below 5 act) {o : Overload} (h : o.Valid) :
    E act (invoke .makeSignature ([] ++ .comma :: (meant [] ++ .comma :: joinArgs o.parts))) o.signature := by
  have hsplit : splitArgs 0 ([] ++ .comma :: (meant [] ++ .comma :: joinArgs o.parts)) = [] :: [] :: o.parts := by
    rw [split_comma .nil]
    show _ :: splitArgs 0 ([] ++ .comma :: joinArgs o.parts) = _
    rw [split_comma .nil, split_join h.parts_arg (by simp [Overload.parts])]
  refine E.call (m := .makeSignature) (ha _ (by decide)) rfl (bal_three .nil (show Bal (meant []) from .nil) (.join h.parts_arg))
    (args := [[], [], o.ret, inParens (joinArgs o.params), o.specs,
      joinArgs [inParens (joinArgs o.parameters), inParens (joinArgs o.forwards)]])
    (by rw [hsplit]; simp [bindArgs, Overload.parts]) (ts := o.signature)
    (Sub.conv (Sub.arg (.plain h.ret.plain) (Sub.arg (.plain h.params_plain.inParens) (Sub.arg (.plain h.specs.plain) Sub.nil)))
      (by simp [Overload.signature])) (.plain h.signature_plain) h.signature_plain.settled

/-- The loop over the signatures (InterfaceMock.hpp 215-222). -/
def signatureLoop : Loop Overload where
  mac := .makeSignature
  dl := .commaDelimiter
  pj := .stripParens
  tk := []
  sq := fun _ => []
  bd := []
  dt := [.comma]
  ok := Overload.Valid
  text := Overload.infos
  proj := fun o => joinArgs o.parts
  res := fun _ o => o.signature
  macParams := (5, true)
  dlParams := (0, false)
  pjParams := (1, false)
  mac_params := rfl
  dl_params := rfl
  pj_params := rfl
  mac_level := by decide
  dl_level := by decide
  pj_level := by decide
  tk_plain := .nil
  tk_arg := rfl
  sq_zero := rfl
  sq_succ := fun _ => rfl
  sq_plain := fun _ => .nil
  sq_arg := fun _ => rfl
  bd_written := .empty
  dt_plain := .cons rfl .nil
  dt_bal := rfl
  text_plain := fun _ h => h.infos_written.plain
  text_arg := fun _ h => h.infos_written.arg
  text_ne := fun _ _ => by simp [Overload.infos, inParens]
  res_plain := fun _ _ h => h.signature_plain
  res_bal := fun _ _ h => h.signature_bal
  delim := comma_delimiter
  project := fun ha _ h => strip_infos ha h
  apply := fun ha _ _ h => makeSignature_E ha h

/-! ## The overrides -/

/-- The name of the mock and of the method. -/
def bound (fn mock : Tok) : List Tok := inParens [mock, .comma, fn]

theorem Overload.Valid.method_bal {o : Overload} (h : o.Valid) {fn mock : List Char} : Bal (o.method (.id fn false) (.id mock false)) :=
  Bal.append (xs := [word "inline"]) rfl (h.ret.meant_bal.append (Bal.append (xs := [.id fn false]) rfl
    (h.parameters_bal.inParens.bal.append (h.specs.meant_bal.append (Bal.append rfl (h.forwards_bal.inParens.bal.append rfl))))))

theorem words_plain : Plain [word "override", punct "{", word "return"] := by
  intro t ht
  simp only [List.mem_cons, List.not_mem_nil, or_false] at ht
  rcases ht with rfl | rfl | rfl <;> first | rfl | exact lookup_other (by decide) (by decide) _

theorem Overload.Valid.method_plain {o : Overload} (h : o.Valid) {fn mock : Tok} (hf : fn.macro = none) (hm : mock.macro = none) :
    Plain (o.method fn mock) :=
  .cons (lookup_other (by decide) (by decide) _) (.append h.ret.meant_plain (.cons hf (.append h.parameters_plain.inParens
    (.append h.specs.meant_plain (.append (.append (xs := [word "override", punct "{", word "return"]) words_plain (.cons hm .nil))
      (.append h.forwards_plain.inParens (.cons rfl (.cons rfl .nil))))))))

/-- InterfaceMock.hpp 367-371 -/
theorem methodOverride_E {act : Active} (ha : Below 5 act) {o : Overload} (h : o.Valid) {fn mock : List Char}
    (hf : (Tok.id fn false).macro = none) (hm : (Tok.id mock false).macro = none) :
    E act (invoke .methodOverride ([] ++ .comma :: (meant (bound (.id fn false) (.id mock false)) ++ .comma :: joinArgs o.parts)))
      (o.method (.id fn false) (.id mock false)) := by
  have hmb : meant (bound (.id fn false) (.id mock false)) = [.id mock false] ++ .comma :: [.id fn false] := meant_parens _
  rw [hmb]
  have hsplit : splitArgs 0 ([] ++ .comma :: (([.id mock false] ++ .comma :: [.id fn false]) ++ .comma :: joinArgs o.parts)) =
      [] :: [.id mock false] :: [.id fn false] :: o.parts := by
    rw [split_comma .nil]
    show _ :: splitArgs 0 ([.id mock false] ++ .comma :: ([.id fn false] ++ .comma :: joinArgs o.parts)) = _
    rw [split_comma (Arg.word _ _), split_comma (Arg.word _ _), split_join h.parts_arg (by simp [Overload.parts])]
  have ha' : Below 4 (act.add .methodOverride) := (ha.mono (by decide)).add (by decide)
  have hfp : Plain [Tok.id fn false] := .cons hf .nil
  have hmp : Plain [Tok.id mock false] := .cons hm .nil
  have hfw : Written (inParens (joinArgs o.forwards)) := .inParens h.forwards_plain h.forwards_bal
  refine E.call (m := .methodOverride) (ha _ (by decide)) rfl (bal_three .nil
      (show Bal ([.id mock false] ++ .comma :: [.id fn false]) from rfl) (.join h.parts_arg))
    (args := [[], [.id mock false], [.id fn false], o.ret, inParens (joinArgs o.params), o.specs, inParens (joinArgs o.parameters),
      inParens (joinArgs o.forwards), []])
    (by rw [hsplit]; simp [bindArgs, Overload.parts, joinArgs])
    (ts := word "inline" :: (invoke .stripParens o.ret ++ .id fn false :: (inParens (joinArgs o.parameters) ++
      (invoke .stripParens o.specs ++ ([word "override", punct "{", word "return", .id mock false] ++
        (inParens (invoke .stripParens (inParens (joinArgs o.forwards))) ++ [punct ";", punct "}"]))))))
    (Sub.conv (Sub.tok (Sub.tok (Sub.tok (Sub.arg (.plain h.ret.plain) (Sub.tok (Sub.arg (.plain hfp)
      (Sub.arg (.plain h.parameters_plain.inParens) (Sub.tok (Sub.tok (Sub.arg (.plain h.specs.plain) (Sub.tok (Sub.tok (Sub.tok
        (Sub.tok (Sub.arg (.plain hmp) (Sub.tok (Sub.tok (Sub.tok (Sub.arg (.plain h.forwards_plain.inParens) (Sub.tok (Sub.tok
          (Sub.tok (Sub.tok Sub.nil))))))))))))))))))))))) (by simp [invoke, inParens])) ?_ (h.method_plain hf hm).settled
  refine .cons (t := word "inline") (lookup_other (by decide) (by decide) _) (E.append (strip_plain ha' h.ret) h.ret.meant_plain.settled
    (.cons hf (E.append (.plain h.parameters_plain.inParens) h.parameters_plain.inParens.settled
      (E.append (strip_plain ha' h.specs) h.specs.meant_plain.settled (E.append (.plain ?_) ?_ (E.append ?_
        h.forwards_plain.inParens.settled (.plain (.cons rfl (.cons rfl .nil)))))))))
  · exact .append (xs := [word "override", punct "{", word "return"]) words_plain hmp
  · exact Plain.settled (.append (xs := [word "override", punct "{", word "return"]) words_plain hmp)
  · have := strip_plain ha' hfw
    rw [meant_parens] at this
    exact .cons rfl (E.append this h.forwards_plain.settled (.plain (.cons rfl .nil)))

/-- The loop over the overrides (InterfaceMock.hpp 379-386). -/
def overrideLoop (fn mock : List Char) (hf : (Tok.id fn false).macro = none) (hm : (Tok.id mock false).macro = none) :
    Loop Overload where
  mac := .methodOverride
  dl := .noDelimiter
  pj := .stripParens
  tk := []
  sq := fun _ => []
  bd := bound (.id fn false) (.id mock false)
  dt := []
  ok := Overload.Valid
  text := Overload.infos
  proj := fun o => joinArgs o.parts
  res := fun _ o => o.method (.id fn false) (.id mock false)
  macParams := (8, true)
  dlParams := (0, false)
  pjParams := (1, false)
  mac_params := rfl
  dl_params := rfl
  pj_params := rfl
  mac_level := by decide
  dl_level := by decide
  pj_level := by decide
  tk_plain := .nil
  tk_arg := rfl
  sq_zero := rfl
  sq_succ := fun _ => rfl
  sq_plain := fun _ => .nil
  sq_arg := fun _ => rfl
  bd_written := .inParens (.cons hm (.cons rfl (.cons hf .nil))) rfl
  dt_plain := .nil
  dt_bal := rfl
  text_plain := fun _ h => h.infos_written.plain
  text_arg := fun _ h => h.infos_written.arg
  text_ne := fun _ _ => by simp [Overload.infos, inParens]
  res_plain := fun _ _ h => h.method_plain hf hm
  res_bal := fun _ _ h => h.method_bal
  delim := no_delimiter
  project := fun ha _ h => strip_infos ha h
  apply := fun ha _ _ h => methodOverride_E ha h hf hm

/-! ## Everything together -/

theorem infos_plain {os : List Overload} (h : ∀ o ∈ os, o.Valid) : Plain (joinArgs (os.map Overload.infos)) := by
  refine .join (fun a ha => ?_)
  obtain ⟨o, ho, rfl⟩ := List.mem_map.mp ha
  exact (h o ho).infos_written.plain

theorem infos_bal {os : List Overload} (h : ∀ o ∈ os, o.Valid) : Bal (joinArgs (os.map Overload.infos)) := by
  refine .join (fun a ha => ?_)
  obtain ⟨o, ho, rfl⟩ := List.mem_map.mp ha
  exact (h o ho).infos_written.arg

/-- InterfaceMock.hpp 215-222 -/
theorem signatureList_E {act : Active} (ha : Below 14 act) {os : List Overload} (h : ∀ o ∈ os, o.Valid) :
    E act (invoke .makeSignatureList (joinArgs (os.map Overload.infos))) (signatureLoop.state 0 86 os) := by
  refine E.call (m := .makeSignatureList) (ha _ (by decide)) rfl (infos_bal h) (bind_va _)
    (ts := invoke .forEach (signatureLoop.input os))
    (Sub.conv (Sub.tok (Sub.tok (Sub.tok (Sub.tok (Sub.tok (Sub.tok (Sub.tok (Sub.tok (Sub.tok (Sub.tok
      (Sub.arg (.plain (infos_plain h)) (Sub.tok Sub.nil)))))))))))) ?_) ?_ (signatureLoop.state_settled 0 86 h)
  · simp [invoke, Loop.input, signatureLoop]
  · exact signatureLoop.forEach ((ha.mono (by decide)).add (by decide)) h

theorem signatures_join {os : List Overload} (hlen : os.length ≤ 86) :
    signatureLoop.state 0 86 os = joinArgs (os.map Overload.signature) := by
  rw [signatureLoop.state_emit 0 86 hlen, signatureLoop.emit_join rfl 0 os]
  congr 1
  rw [List.mapIdx_eq_iff]
  intro i
  simp [signatureLoop]

/-- InterfaceMock.hpp 379-386 -/
theorem overrides_E {act : Active} (ha : Below 14 act) {os : List Overload} (h : ∀ o ∈ os, o.Valid) {fn mock : List Char}
    (hf : (Tok.id fn false).macro = none) (hm : (Tok.id mock false).macro = none) :
    E act (invoke .methodOverrides (.id mock false :: .comma :: .id fn false :: .comma :: joinArgs (os.map Overload.infos)))
      ((overrideLoop fn mock hf hm).state 0 86 os) := by
  have hsplit : splitArgs 0 (.id mock false :: .comma :: .id fn false :: .comma :: joinArgs (os.map Overload.infos)) =
      [.id mock false] :: [.id fn false] :: splitArgs 0 (joinArgs (os.map Overload.infos)) := by
    show splitArgs 0 ([.id mock false] ++ .comma :: ([.id fn false] ++ .comma :: joinArgs (os.map Overload.infos))) = _
    rw [split_comma (Arg.word _ _), split_comma (Arg.word _ _)]
  refine E.call (m := .methodOverrides) (ha _ (by decide)) rfl
    (raw := .id mock false :: .comma :: .id fn false :: .comma :: joinArgs (os.map Overload.infos))
    (Bal.append (xs := [.id mock false, .comma, .id fn false, .comma]) rfl (infos_bal h))
    (args := [[.id mock false], [.id fn false], joinArgs (os.map Overload.infos)])
    (by rw [hsplit]; simp [bindArgs, join_split])
    (ts := invoke .forEach ((overrideLoop fn mock hf hm).input os))
    (Sub.conv (Sub.tok (Sub.tok (Sub.tok (Sub.tok (Sub.tok (Sub.tok (Sub.tok (Sub.tok (Sub.tok (Sub.tok
      (Sub.arg (.plain (.cons hm .nil)) (Sub.tok (Sub.arg (.plain (.cons hf .nil)) (Sub.tok (Sub.tok
        (Sub.arg (.plain (infos_plain h)) (Sub.tok Sub.nil))))))))))))))))) ?_) ?_ ((overrideLoop fn mock hf hm).state_settled 0 86 h)
  · simp [invoke, Loop.input, overrideLoop, bound, inParens]
  · exact (overrideLoop fn mock hf hm).forEach ((ha.mono (by decide)).add (by decide)) h

theorem overrides_flat {os : List Overload} (hlen : os.length ≤ 86) {fn mock : List Char}
    (hf : (Tok.id fn false).macro = none) (hm : (Tok.id mock false).macro = none) :
    (overrideLoop fn mock hf hm).state 0 86 os = os.flatMap (fun o => o.method (.id fn false) (.id mock false)) := by
  rw [(overrideLoop fn mock hf hm).state_emit 0 86 hlen]
  exact (overrideLoop fn mock hf hm).emit_flat rfl _ (fun _ _ => rfl) 0 os

theorem mockHead_plain : Plain [punct "::", word "mimicpp", punct "::", word "Mock", punct "<"] := by
  intro t ht
  simp only [List.mem_cons, List.not_mem_nil, or_false] at ht
  rcases ht with rfl | rfl | rfl | rfl | rfl <;> first | rfl | exact lookup_other (by decide) (by decide) _ | decide

/-- InterfaceMock.hpp 230-231 -/
theorem overloadedMock_E {act : Active} (ha : Below 5 act) {sigs : List (List Tok)} (hs : Plain (joinArgs sigs))
    (hb : Bal (joinArgs sigs)) {mock : List Char} (hm : (Tok.id mock false).macro = none) {X : List Tok} (hX : E act X (joinArgs sigs))
    (hXb : Bal X) :
    E act (invoke .makeOverloadedMock (.id mock false :: .comma :: inParens X)) (mockMember sigs (.id mock false)) := by
  have hsplit : splitArgs 0 (.id mock false :: .comma :: inParens X) = [[.id mock false], inParens X] := by
    show splitArgs 0 ([.id mock false] ++ .comma :: inParens X) = _
    rw [split_comma (Arg.word _ _), split_last hXb.inParens]
  have htail : Plain [punct ">", .id mock false, punct "{", punct "}"] := .cons rfl (.cons hm (.cons rfl (.cons rfl .nil)))
  have hout : Plain (mockMember sigs (.id mock false)) := .append (.append mockHead_plain hs) htail
  have hargE : E act (inParens X) (inParens (joinArgs sigs)) :=
    .cons rfl (E.append hX hs.settled (.plain (.cons rfl .nil)))
  refine E.call (m := .makeOverloadedMock) (ha _ (by decide)) rfl (raw := .id mock false :: .comma :: inParens X)
    (args := [[.id mock false], inParens X]) (Bal.append (xs := [.id mock false, .comma]) rfl hXb.inParens.bal)
    (by rw [hsplit]; rfl)
    (ts := ([punct "::", word "mimicpp", punct "::", word "Mock", punct "<"] ++ invoke .stripParens (inParens (joinArgs sigs))) ++
      [punct ">", .id mock false, punct "{", punct "}"])
    (Sub.conv (Sub.tok (Sub.tok (Sub.tok (Sub.tok (Sub.tok (Sub.tok (Sub.tok (Sub.arg hargE (Sub.tok (Sub.tok
      (Sub.arg (.plain (.cons hm .nil)) (Sub.tok (Sub.tok Sub.nil))))))))))))) (by simp [invoke])) ?_ hout.settled
  have := strip_plain ((ha.mono (by decide)).add (m := .makeOverloadedMock) (by decide)) (.inParens hs hb)
  rw [meant_parens] at this
  exact E.append (E.append (.plain mockHead_plain) mockHead_plain.settled this) (Plain.settled (.append mockHead_plain hs)) (.plain htail)

theorem Overload.Source.E {act : Active} (ha : Below 20 act) {o : Overload} (h : o.Valid) (hlen : o.params.length ≤ 86)
    {text : List Tok} (hs : o.Source text) : Pp.E act text o.infos := by
  have key : ∀ {m : Macro}, m = .addOverload ∨ m = .addOverloadShort → ∀ {as : List (List Tok)},
      (as = [o.ret, inParens (joinArgs o.params), o.specs] ∨ (as = [o.ret, inParens (joinArgs o.params)] ∧ o.specs = [])) →
      Pp.E act (invoke m (joinArgs as)) o.infos := by
    intro m hm as has
    have h1 := addOverload_E (ha.mono (by decide)) h hlen has
    rcases hm with rfl | rfl
    · exact h1
    · exact E.chainObject (m := .addOverloadShort) (m' := .addOverload) (ha _ (by decide)) (by decide) rfl rfl rfl h1
        (ha _ (by decide))
  cases hs with
  | specs hm => exact key hm (Or.inl rfl)
  | noSpecs hm hs => exact key hm (Or.inr ⟨rfl, hs⟩)

theorem Overload.Source.arg {o : Overload} (h : o.Valid) {text : List Tok} (hs : o.Source text) : Arg text := by
  cases hs with
  | specs hm =>
    refine Bal.invoke (.join (fun a ha => ?_))
    simp only [List.mem_cons, List.not_mem_nil, or_false] at ha
    rcases ha with rfl | rfl | rfl
    · exact h.ret.arg
    · exact h.params_bal.inParens
    · exact h.specs.arg
  | noSpecs hm hs =>
    refine Bal.invoke (.join (fun a ha => ?_))
    simp only [List.mem_cons, List.not_mem_nil, or_false] at ha
    rcases ha with rfl | rfl
    · exact h.ret.arg
    · exact h.params_bal.inParens

theorem Sources.arg {os : List Overload} {texts : List (List Tok)} (hs : Sources os texts) (h : ∀ o ∈ os, o.Valid) :
    ∀ a ∈ texts, Arg a := by
  induction hs with
  | nil => simp
  | cons hs _ ih =>
    intro a ha
    rcases List.mem_cons.mp ha with rfl | ha
    · exact hs.arg (h _ (by simp))
    · exact ih (fun o ho => h o (by simp [ho])) a ha

theorem Sources.E {act : Active} (ha : Below 20 act) {os : List Overload} {texts : List (List Tok)} (hs : Sources os texts)
    (h : ∀ o ∈ os, o.Valid) (hlen : ∀ o ∈ os, o.params.length ≤ 86) :
    Pp.E act (joinArgs texts) (joinArgs (os.map Overload.infos)) := by
  induction hs with
  | nil => exact .nil
  | @cons o text os texts ho hs ih =>
    have h1 := ho.E ha (h o (by simp)) (hlen o (by simp))
    have h2 := ih (fun o ho => h o (by simp [ho])) (fun o ho => hlen o (by simp [ho]))
    cases hs with
    | nil => exact h1
    | cons _ _ =>
      exact E.append h1 (h o (by simp)).infos_written.plain.settled (.cons rfl h2)

theorem signatures_plain {os : List Overload} (h : ∀ o ∈ os, o.Valid) : Plain (joinArgs (os.map Overload.signature)) := by
  refine .join (fun a ha => ?_)
  obtain ⟨o, ho, rfl⟩ := List.mem_map.mp ha
  exact (h o ho).signature_plain

theorem signatures_bal {os : List Overload} (h : ∀ o ∈ os, o.Valid) : Bal (joinArgs (os.map Overload.signature)) := by
  refine .join' (fun a ha => ?_)
  obtain ⟨o, ho, rfl⟩ := List.mem_map.mp ha
  exact (h o ho).signature_bal

theorem mockMember_plain {sigs : List (List Tok)} (hs : Plain (joinArgs sigs)) {mock : Tok} (hm : mock.macro = none) :
    Plain (mockMember sigs mock) :=
  .append (.append mockHead_plain hs) (.cons rfl (.cons hm (.cons rfl (.cons rfl .nil))))

/-- InterfaceMock.hpp 398-402: the beginning of the expansion. -/
theorem mockOverloaded_sub {act : Active} {os : List Overload} {fn : List Char}
    (hf : (Tok.id fn false).macro = none) {X : List Tok} (hX : E act X (joinArgs (os.map Overload.infos))) :
    Sub act [[Tok.id fn false], X] Macro.mockOverloaded.define.body
      (invoke .methodOverrides (.id (fn ++ ['_']) false :: .comma :: .id fn false :: .comma :: joinArgs (os.map Overload.infos)) ++
        invoke .makeOverloadedMock (.id (fn ++ ['_']) false :: .comma ::
          inParens (invoke .makeSignatureList (joinArgs (os.map Overload.infos))))) :=
  Sub.conv (Sub.tok (Sub.tok (Sub.cat (g := [.id (fn ++ ['_']) false]) rfl (Sub.tok (Sub.arg (.plain (.cons hf .nil)) (Sub.tok
    (Sub.arg hX (Sub.tok (Sub.tok (Sub.tok (Sub.cat (g := [.id (fn ++ ['_']) false]) rfl (Sub.tok (Sub.tok (Sub.tok (Sub.tok
      (Sub.arg hX (Sub.tok (Sub.tok (Sub.tok Sub.nil))))))))))))))))))) (by simp [invoke, inParens])

/-- InterfaceMock.hpp 398-402 -/
theorem mockOverloaded_E {act : Active} (ha : Below 18 act) {os : List Overload} (h : ∀ o ∈ os, o.Valid) (hlen : os.length ≤ 86)
    {fn : List Char} (hf : (Tok.id fn false).macro = none) (hm : (Tok.id (fn ++ ['_']) false).macro = none) {X : List Tok}
    (hX : E act X (joinArgs (os.map Overload.infos))) (hb : Bal X) :
    E act (invoke .mockOverloaded (.id fn false :: .comma :: X))
      (os.flatMap (fun o => o.method (.id fn false) (.id (fn ++ ['_']) false)) ++
        mockMember (os.map Overload.signature) (.id (fn ++ ['_']) false)) := by
  have hsplit : splitArgs 0 (.id fn false :: .comma :: X) = [.id fn false] :: splitArgs 0 X := split_comma (xs := [.id fn false]) rfl X
  have ha' : Below 17 (act.add .mockOverloaded) := (ha.mono (by decide)).add (by decide)
  have hsp := signatures_plain h
  refine E.call (m := .mockOverloaded) (ha _ (by decide)) rfl (raw := .id fn false :: .comma :: X) (Bal.append (xs := [.id fn false, .comma]) rfl hb)
    (args := [[.id fn false], X]) (by rw [hsplit]; simp [bindArgs, join_split]) (mockOverloaded_sub hf hX) ?_ ?_
  · rw [← overrides_flat hlen hf hm]
    refine E.append (overrides_E (ha'.mono (by decide)) h hf hm) ((overrideLoop fn (fn ++ ['_']) hf hm).state_settled 0 86 h) ?_
    refine overloadedMock_E (ha'.mono (by decide)) hsp (signatures_bal h) hm ?_ (infos_bal h).invoke.bal
    rw [← signatures_join hlen]
    exact signatureList_E (ha'.mono (by decide)) h
  · exact Settled.append (mockMember_plain hsp hm).settled (by simp [mockMember])

/-- InterfaceMock.hpp 414-417 -/
theorem mockMethod_E {act : Active} (ha : Below 19 act) {o : Overload} (h : o.Valid) (hlen : o.params.length ≤ 86)
    {fn : List Char} (hf : (Tok.id fn false).macro = none) (hm : (Tok.id (fn ++ ['_']) false).macro = none)
    {as : List (List Tok)} (has : as = [[.id fn false], o.ret, inParens (joinArgs o.params), o.specs] ∨
      (as = [[.id fn false], o.ret, inParens (joinArgs o.params)] ∧ o.specs = [])) :
    E act (invoke .mockMethod (joinArgs as))
      (o.method (.id fn false) (.id (fn ++ ['_']) false) ++ mockMember [o.signature] (.id (fn ++ ['_']) false)) := by
  have hargs : ∀ a ∈ as, Arg a := by
    intro a ha
    have : a ∈ [[.id fn false], o.ret, inParens (joinArgs o.params), o.specs] := by
      rcases has with rfl | ⟨rfl, _⟩
      · exact ha
      · simp only [List.mem_cons, List.not_mem_nil, or_false] at ha ⊢
        rcases ha with h | h | h
        · exact Or.inl h
        · exact Or.inr (Or.inl h)
        · exact Or.inr (Or.inr (Or.inl h))
    simp only [List.mem_cons, List.not_mem_nil, or_false] at this
    rcases this with rfl | rfl | rfl | rfl
    · rfl
    · exact h.ret.arg
    · exact h.params_bal.inParens
    · exact h.specs.arg
  have hne : as ≠ [] := by rcases has with rfl | ⟨rfl, _⟩ <;> simp
  have hbind : bindArgs 3 true (splitArgs 0 (joinArgs as)) =
      some [[.id fn false], o.ret, inParens (joinArgs o.params), o.specs] := by
    rw [split_join hargs hne]
    rcases has with rfl | ⟨rfl, hs⟩
    · simp [bindArgs, joinArgs]
    · simp [bindArgs, joinArgs, hs]
  have hp : Plain (inParens (joinArgs o.params)) := h.params_plain.inParens
  have ha' : Below 18 (act.add .mockMethod) := (ha.mono (by decide)).add (by decide)
  have ha'' : Below 17 (act.add .mockMethod) := ha'.mono (by decide)
  have hout := signatures_plain (os := [o]) (by simpa using h)
  have hset : Settled (o.method (.id fn false) (.id (fn ++ ['_']) false) ++ mockMember [o.signature] (.id (fn ++ ['_']) false)) :=
    Settled.append (mockMember_plain hout hm).settled (by simp [mockMember])
  have hfin : ∀ {as : List (List Tok)}, (as = [o.ret, inParens (joinArgs o.params), o.specs] ∨
      (as = [o.ret, inParens (joinArgs o.params)] ∧ o.specs = [])) →
      (∀ a ∈ as, Arg a) →
      E (act.add .mockMethod) (invoke .mockOverloaded (.id fn false :: .comma :: invoke .addOverload (joinArgs as)))
        (o.method (.id fn false) (.id (fn ++ ['_']) false) ++ mockMember [o.signature] (.id (fn ++ ['_']) false)) := by
    intro as has hargs
    have h1 := addOverload_E ha'' h hlen has
    have := mockOverloaded_E (os := [o]) ha' (by simpa using h) (by simp) hf hm h1 (Bal.join hargs).invoke.bal
    simpa using this
  have hargs3 : ∀ a ∈ [o.ret, inParens (joinArgs o.params), o.specs], Arg a := by
    intro a ha
    simp only [List.mem_cons, List.not_mem_nil, or_false] at ha
    rcases ha with rfl | rfl | rfl
    · exact h.ret.arg
    · exact h.params_bal.inParens
    · exact h.specs.arg
  have htail : Sub act [[.id fn false], o.ret, inParens (joinArgs o.params), o.specs] (plainBody [.arg 3, Tok.rp, Tok.rp])
      (o.specs ++ [.rp, .rp]) := Sub.arg (.plain h.specs.plain) (Sub.tok (Sub.tok Sub.nil))
  have hhead : Sub act [[.id fn false], o.ret, inParens (joinArgs o.params), o.specs]
      (plainBody [Macro.mockOverloaded, Tok.lp, .arg 0, Tok.comma, Macro.addOverload, Tok.lp, .arg 1, Tok.comma, .arg 2])
      (Macro.mockOverloaded.tok :: .lp :: .id fn false :: .comma :: Macro.addOverload.tok :: .lp :: (o.ret ++ .comma ::
        inParens (joinArgs o.params))) :=
    Sub.conv (Sub.tok (Sub.tok (Sub.arg (.plain (.cons hf .nil)) (Sub.tok (Sub.tok (Sub.tok (Sub.arg (.plain h.ret.plain) (Sub.tok
      (Sub.arg (.plain hp) Sub.nil))))))))) (by simp)
  by_cases hs : o.specs = []
  · refine E.call (m := .mockMethod) (ha _ (by decide)) rfl (.join hargs) hbind
      (ts := invoke .mockOverloaded (.id fn false :: .comma :: invoke .addOverload (joinArgs [o.ret, inParens (joinArgs o.params)])))
      ?_ (hfin (Or.inr ⟨rfl, hs⟩) (fun a ha => hargs3 a (by grind))) hset
    refine Sub.conv (Sub.append hhead (Sub.opt_none (a := o.specs) (by rw [hs]; exact .nil) htail)) ?_
    simp [invoke, joinArgs, hs]
  · refine E.call (m := .mockMethod) (ha _ (by decide)) rfl (.join hargs) hbind
      (ts := invoke .mockOverloaded (.id fn false :: .comma ::
        invoke .addOverload (joinArgs [o.ret, inParens (joinArgs o.params), o.specs])))
      ?_ (hfin (Or.inl rfl) hargs3) hset
    refine Sub.conv (Sub.append hhead (Sub.opt_some (a := o.specs) (.plain h.specs.plain) hs (us := [.comma]) (Sub.tok Sub.nil) htail)) ?_
    simp [invoke, joinArgs]

/-- More overloads than scans. -/
theorem mockOverloaded_left {os : List Overload} (h : ∀ o ∈ os, o.Valid) (hlen : 86 < os.length)
    {fn : List Char} (hf : (Tok.id fn false).macro = none) (hm : (Tok.id (fn ++ ['_']) false).macro = none) {X : List Tok}
    (hX : E (fun _ => false) X (joinArgs (os.map Overload.infos))) (hb : Bal X) {f : Nat} {out : List Tok}
    (hout : preprocess f (invoke .mockOverloaded (.id fn false :: .comma :: X)) = some out) : Macro.again.tok ∈ out := by
  have hsplit : splitArgs 0 (.id fn false :: .comma :: X) = [.id fn false] :: splitArgs 0 X := split_comma (xs := [.id fn false]) rfl X
  obtain ⟨out', rfl⟩ := call_begins (m := .mockOverloaded) rfl (raw := .id fn false :: .comma :: X)
    (Bal.append (xs := [.id fn false, .comma]) rfl hb) (args := [[.id fn false], X]) (by rw [hsplit]; simp [bindArgs, join_split])
    (mockOverloaded_sub hf hX) (overrides_E ((Below.none 14).add (by decide)) h hf hm)
    ((overrideLoop fn (fn ++ ['_']) hf hm).state_settled 0 86 h) hout
  exact List.mem_append_left _ ((overrideLoop fn (fn ++ ['_']) hf hm).state_left 0 86 hlen)

theorem OverloadedSource.E {os : List Overload} (h : ∀ o ∈ os, o.Valid) (hlen : os.length ≤ 86)
    (hps : ∀ o ∈ os, o.params.length ≤ 86) (hne : os ≠ []) {fn : List Char} (hf : (Tok.id fn false).macro = none)
    (hm : (Tok.id (fn ++ ['_']) false).macro = none) {text : List Tok} (hs : OverloadedSource (.id fn false) os text) :
    Pp.E (fun _ => false) text (os.flatMap (fun o => o.method (.id fn false) (.id (fn ++ ['_']) false)) ++
      mockMember (os.map Overload.signature) (.id (fn ++ ['_']) false)) := by
  cases hs with
  | @text m hmac texts hs =>
    have hX := hs.E (Below.none 20) h hps
    have h1 := mockOverloaded_E (Below.none 18) h hlen hf hm hX (.join (hs.arg h))
    have ht : joinArgs ([Tok.id fn false] :: texts) = .id fn false :: .comma :: joinArgs texts := by
      cases hs with
      | nil => exact absurd rfl hne
      | cons _ _ => rfl
    rw [ht]
    rcases hmac with rfl | rfl
    · exact h1
    · exact E.chainObject (m := .mockOverloadedShort) (m' := .mockOverloaded) rfl (by decide) rfl rfl rfl h1 rfl

theorem MethodSource.E {o : Overload} (h : o.Valid) (hlen : o.params.length ≤ 86) {fn : List Char}
    (hf : (Tok.id fn false).macro = none) (hm : (Tok.id (fn ++ ['_']) false).macro = none) {text : List Tok}
    (hs : MethodSource (.id fn false) o text) :
    Pp.E (fun _ => false) text (o.method (.id fn false) (.id (fn ++ ['_']) false) ++
      mockMember [o.signature] (.id (fn ++ ['_']) false)) := by
  have key : ∀ {m : Macro}, m = .mockMethod ∨ m = .mockMethodShort → ∀ {as : List (List Tok)},
      (as = [[.id fn false], o.ret, inParens (joinArgs o.params), o.specs] ∨
        (as = [[.id fn false], o.ret, inParens (joinArgs o.params)] ∧ o.specs = [])) →
      Pp.E (fun _ => false) (invoke m (joinArgs as)) (o.method (.id fn false) (.id (fn ++ ['_']) false) ++
        mockMember [o.signature] (.id (fn ++ ['_']) false)) := by
    intro m hmac as has
    have h1 := mockMethod_E (Below.none 19) h hlen hf hm has
    rcases hmac with rfl | rfl
    · exact h1
    · exact E.chainObject (m := .mockMethodShort) (m' := .mockMethod) rfl (by decide) rfl rfl rfl h1 rfl
  cases hs with
  | specs hm => exact key hm (Or.inl rfl)
  | noSpecs hm hs => exact key hm (Or.inr ⟨rfl, hs⟩)

theorem E.preprocess {xs ys : List Tok} (h : Pp.E (fun _ => false) xs ys) :
    ∃ fuel, ∀ f, fuel ≤ f → Pp.preprocess f xs = some ys := by
  obtain ⟨g, hg⟩ := h
  exact ⟨g, fun f hf => expand_mono hf hg⟩

theorem E.preprocess_unique {xs ys zs : List Tok} (h : Pp.E (fun _ => false) xs ys) {f : Nat}
    (h' : Pp.preprocess f xs = some zs) : zs = ys := E.unique (act := fun _ => false) ⟨f, h'⟩ h

theorem paramName_inj {k l : Nat} (h : paramName k = paramName l) : k = l := by
  simp only [paramName, Tok.id.injEq, and_true, List.append_cancel_left_eq] at h
  have := congrArg List.length h
  simpa using this

theorem length_meant {w : List Tok} : (meant w).length ≤ w.length := by
  unfold meant
  split
  · simp; omega
  · exact Nat.le_refl _

theorem length_join {as bs : List (List Tok)} {f : List Tok → List Tok} (hb : bs = as.map f)
    (h : ∀ a, (f a).length ≤ a.length) : (joinArgs bs).length ≤ (joinArgs as).length := by
  induction as generalizing bs with
  | nil => subst hb; simp [joinArgs]
  | cons a as ih =>
    cases as with
    | nil => subst hb; simpa [joinArgs] using h a
    | cons a' as =>
      subst hb
      have := ih rfl
      have := h a
      simp only [List.map_cons, joinArgs, List.length_append, List.length_cons] at *
      omega

theorem Plain.check {xs : List Tok} (h : xs.all (fun t => t.macro.isNone) = true) : Plain xs := by
  intro t ht
  simpa using List.all_eq_true.mp h t ht

end Mimic.Pp
