import Verif.Spec.Descriptions
import Verif.Proofs.Calls
import Verif.Proofs.Outcome

/-!
# Lemmas about descriptions that throw
-/

set_option autoImplicit false

namespace Mimic

variable {α : Type}

theorem describeAll_none (ps : List (DPolicy α)) : describeAll ps = none ↔ ∃ p ∈ ps, p.describe = none := by
  induction ps with
  | nil => simp [describeAll]
  | cons p ps ih =>
    unfold describeAll
    cases hp : p.describe with
    | none => simp [hp]
    | some d =>
      cases hd : describeAll ps with
      | none => simp [hp, ih.mp hd]
      | some ds => simp [hp, ← ih, hd]

theorem matchAndDescribe_none (a : α) (ps : List (DPolicy α)) :
    matchAndDescribe a ps = none ↔ ∃ p ∈ ps, p.accepts a = none ∨ p.describe = none := by
  induction ps with
  | nil => simp [matchAndDescribe]
  | cons p ps ih =>
    unfold matchAndDescribe
    cases hp : p.accepts a with
    | none => simp [hp]
    | some b =>
      cases hd : p.describe with
      | none => simp [hd]
      | some d =>
        cases hm : matchAndDescribe a ps with
        | none => simp only [true_iff]; obtain ⟨q, hq, h⟩ := ih.mp hm; exact ⟨q, by simp [hq], h⟩
        | some rs =>
          rw [hm] at ih
          simp only [reduceCtorEq, false_iff, List.mem_cons, exists_eq_or_imp, hp, hd, or_self, false_or] at ih ⊢
          exact ih

theorem lookAt_terminates (a : α) (ps : List (DPolicy α)) :
    lookAt a ps = .terminates ↔ ∃ p ∈ ps, p.describe = none := by
  unfold lookAt
  cases hm : matchAndDescribe a ps with
  | some rs =>
    simp only [reduceCtorEq, false_iff]
    intro ⟨p, hp, h⟩
    have := (matchAndDescribe_none a ps).mpr ⟨p, hp, Or.inr h⟩
    rw [hm] at this; simp at this
  | none =>
    cases hd : describeAll ps with
    | none => simpa using (describeAll_none ps).mp hd
    | some ds =>
      simp only [reduceCtorEq, false_iff]
      intro h
      rw [(describeAll_none ps).mpr h] at hd; simp at hd

/-- Without throwing descriptions, policies are looked at as in `World`. -/
theorem matchAndDescribe_eq (a : α) (ps : List (DPolicy α)) (h : ∀ p ∈ ps, p.describe ≠ none) :
    matchAndDescribe a ps = evalPolicies a (ps.map DPolicy.toPolicy) := by
  induction ps with
  | nil => rfl
  | cons p ps ih =>
    have h1 := h p (by simp)
    have h2 := ih (fun q hq => h q (by simp [hq]))
    cases hd : p.describe with
    | none => exact absurd hd h1
    | some d =>
      simp only [matchAndDescribe, List.map_cons, evalPolicies, DPolicy.toPolicy, hd, Option.join_some, ← h2]
      cases p.accepts a with
      | none => rfl
      | some b => cases matchAndDescribe a ps <;> rfl

theorem dbase_snoc (tr : DTrace α) (op : DOp α) (l : DLog) :
    DTrace.base (tr ++ [(op, l)]) = tr.base ++ [(op.base, l.ev)] := by simp [DTrace.base]

/-- What a step does to the world. -/
theorem dstep_base {dw dw' : DWorld α} {op : DOp α} {l : DLog} (hs : dw.step op = .ok (dw', l)) :
    dw.w.step op.base = .ok (dw'.w, l.ev) := by
  cases op <;> simp only [DWorld.step, bind, Except.bind, pure, Except.pure] at hs <;> simp only [DOp.base] <;> grind

theorem dstep_policies {dw dw' : DWorld α} {op : DOp α} {l : DLog} (hs : dw.step op = .ok (dw', l)) :
    dw'.policies = match op with
      | .expect _ _ _ _ ps => if l.ev = [.rejected] then dw.policies else dw.policies ++ [ps]
      | _ => dw.policies := by
  cases op <;> simp only [DWorld.step, bind, Except.bind, pure, Except.pure] at hs <;> simp only <;> grind

structure DInv (tr : DTrace α) (dw : DWorld α) : Prop where
  reach : Reach tr.base dw.w
  len : dw.policies.length = dw.w.exps.length
  created : ∀ e ps, tr.created e ps ↔ dw.policies[e]? = some ps

theorem created_snoc (tr : DTrace α) (op : DOp α) (l : DLog) (e : Nat) (ps : List (DPolicy α)) :
    DTrace.created (tr ++ [(op, l)]) e ps ↔
      tr.created e ps ∨ (∃ c min max tags, op = .expect c min max tags ps) ∧ Event.created e ∈ l.ev := by
  unfold DTrace.created
  constructor
  · rintro ⟨c, mn, mx, tags, l', hm, he⟩
    rw [List.mem_append, List.mem_singleton] at hm
    rcases hm with hm | hm
    · exact Or.inl ⟨c, mn, mx, tags, l', hm, he⟩
    · simp only [Prod.mk.injEq] at hm
      obtain ⟨rfl, rfl⟩ := hm
      exact Or.inr ⟨⟨c, mn, mx, tags, rfl⟩, he⟩
  · rintro (⟨c, mn, mx, tags, l', hm, he⟩ | ⟨⟨c, mn, mx, tags, rfl⟩, he⟩)
    · exact ⟨c, mn, mx, tags, l', by simp [hm], he⟩
    · exact ⟨c, mn, mx, tags, l, by simp, he⟩

theorem dexpect_events {w w' : World α} {c : Nat} {mn mx : Int} {tags : List Nat} {ps : List (Policy α)}
    {ev : List Event} (hs : w.step (.expect c mn mx tags ps) = .ok (w', ev)) :
    ev = [.rejected] ∨ ev = [.created w.exps.length] := by
  simp only [World.step, World.expect, bind, Except.bind, pure, Except.pure] at hs
  grind

theorem DReach.inv {tr : DTrace α} {dw : DWorld α} (h : DReach tr dw) : DInv tr dw := by
  induction h with
  | init => exact ⟨.init, rfl, by intro e ps; simp [DTrace.created, DWorld.init]⟩
  | @step tr dw dw' op l _ hs ih =>
    have hb := dstep_base hs
    have hp := dstep_policies hs
    have hl := (step_lengths ih.reach hb).1
    refine ⟨by rw [dbase_snoc]; exact ih.reach.step hb, ?_, ?_⟩
    · rw [hl, hp, ← ih.len]
      cases op <;> simp only [DOp.base, Op.newExps, Nat.add_zero]
      split <;> simp
    · intro e ps
      rw [created_snoc, ih.created, hp]
      cases op with
      | expect c mn mx tags qs =>
        rcases dexpect_events hb with he | he
        · simp [he]
        · simp only [he, List.cons.injEq, reduceCtorEq, false_and, if_false]
          rw [List.getElem?_append, ih.len]
          simp only [DOp.expect.injEq, List.mem_cons, Event.created.injEq, List.not_mem_nil, or_false]
          by_cases hlt : e < dw.w.exps.length
          · rw [if_pos hlt]; grind
          · rw [if_neg hlt]
            have hnone : dw.policies[e]? = none := List.getElem?_eq_none_iff.mpr (by rw [ih.len]; omega)
            rw [hnone]
            constructor
            · rintro (h | ⟨⟨_, _, _, _, _, _, _, _, rfl⟩, rfl⟩)
              · simp at h
              · simp
            · intro h
              have : e - dw.w.exps.length = 0 := by
                have := (List.getElem?_eq_some_iff.mp h).1; simp at this; omega
              rw [this] at h
              simp only [List.getElem?_cons_zero, Option.some.injEq] at h
              exact Or.inr ⟨⟨c, mn, mx, tags, rfl, rfl, rfl, rfl, h⟩, by omega⟩
      | _ => simp

/-- The storages hold the living expectations. -/
theorem mem_storage {tr : Trace α} {w : World α} (h : Reach tr w) {m : Nat} {es : List Nat} (hm : w.colls[m]? = some es)
    (e : Nat) : e ∈ es ↔ tr.live e ∧ ∃ d, tr.decl e = some d ∧ d.mock = m := by
  rw [h.view.2.candidates_iff m e, h.view.1.colls m es hm]
  simp only [List.mem_map, candidates_mem, List.mem_filter, Bool.and_eq_true, beq_iff_eq]

theorem DInv.broken_iff {tr : DTrace α} {dw : DWorld α} (h : DInv tr dw) (e : Nat) :
    tr.broken e ↔ ∃ p ∈ dw.policiesOf e, p.describe = none := by
  unfold DTrace.broken DWorld.policiesOf
  simp only [h.created, List.getD_eq_getElem?_getD]
  cases hp : dw.policies[e]? with
  | none => simp
  | some ps => simp

theorem DInv.created_decl {tr : DTrace α} {dw : DWorld α} (h : DReach tr dw) {e : Nat} {ps : List (DPolicy α)}
    (hc : tr.created e ps) : ∃ d, tr.base.decl e = some d ∧ d.policies = ps.map DPolicy.toPolicy := by
  induction h with
  | init => simp [DTrace.created] at hc
  | @step tr dw dw' op l hr hs ih =>
    rw [created_snoc] at hc
    rw [dbase_snoc]
    rcases hc with hc | ⟨⟨c, mn, mx, tags, rfl⟩, he⟩
    · obtain ⟨d, h1, h2⟩ := ih hc
      exact ⟨d, decl_mono h1, h2⟩
    · have hi := hr.inv
      have hb := dstep_base hs
      have hn : tr.base.decl e = none := by
        rcases dexpect_events hb with h1 | h1
        · rw [h1] at he; simp at he
        · rw [h1] at he
          simp only [List.mem_singleton, Event.created.injEq] at he
          cases hd : tr.base.decl e with
          | none => rfl
          | some d =>
            have := hi.reach.view.2.decl_lt.mp ⟨d, hd⟩
            rw [abs_exps_length] at this
            omega
      refine ⟨⟨c, mn, mx, tags, ps.map DPolicy.toPolicy⟩, ?_, rfl⟩
      unfold Trace.decl at hn ⊢
      rw [List.findSome?_append, hn]
      simp [DOp.base, he]

theorem vformatChars_escaped (l : List Char) : vformatChars l [] ≠ none ↔ Escaped l := by
  constructor
  · intro h
    generalize hn : l.length = n
    induction n using Nat.strongRecOn generalizing l with
    | ind n ih =>
      match l, h, hn with
      | [], _, _ => exact .nil
      | c :: r, h, hn =>
        simp only [List.length_cons] at hn
        by_cases h1 : c = '{'
        · subst h1
          match r, h, hn with
          | [], h, _ => simp [vformatChars] at h
          | d :: r, h, hn =>
            by_cases h2 : d = '{'
            · subst h2
              exact .opened (ih r.length (by simp at hn; omega) r (by simpa [vformatChars] using h) rfl)
            · exact absurd (by simp [vformatChars, h2]) h
        · by_cases h2 : c = '}'
          · subst h2
            match r, h, hn with
            | [], h, _ => simp [vformatChars] at h
            | d :: r, h, hn =>
              by_cases h3 : d = '}'
              · subst h3
                exact .closed (ih r.length (by simp at hn; omega) r (by simpa [vformatChars] using h) rfl)
              · exact absurd (by simp [vformatChars, h3]) h
          · exact .char h1 h2 (ih r.length (by omega) r (by simpa [vformatChars, h1, h2] using h) rfl)
  · intro h
    induction h with
    | nil => simp [vformatChars]
    | @char c l h1 h2 _ ih =>
      unfold vformatChars
      split <;> simp_all
    | opened _ ih => simpa [vformatChars] using ih
    | closed _ ih => simpa [vformatChars] using ih

end Mimic
