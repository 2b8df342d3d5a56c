import Verif.Spec.Lives
import Verif.Proofs.Ends
import Verif.Proofs.View

/-! # When an expectation ends: lemmas -/

set_option autoImplicit false

namespace Mimic.Lives

open Finish

variable {α : Type}

/-- What is known about every state. -/
structure Sound (S : Spec.State α) : Prop where
  good : Good S
  valid : ∀ x ∈ S.exps, ∀ s ∈ x.seqs, s < S.seqs.length

/-- The expectation after its end. -/
def gone (e : Nat) (x : Spec.Exp α) : Spec.Exp α := if x.id = e then { x with alive := false } else x

theorem withdraw_exps (S : Spec.State α) (e : Nat) : (S.withdraw e).exps = S.exps.map (gone e) := rfl

theorem gone_id (e : Nat) (x : Spec.Exp α) : (gone e x).id = x.id := by unfold gone; split <;> rfl
theorem gone_seqs (e : Nat) (x : Spec.Exp α) : (gone e x).seqs = x.seqs := by unfold gone; split <;> rfl
theorem gone_min (e : Nat) (x : Spec.Exp α) : (gone e x).min = x.min := by unfold gone; split <;> rfl
theorem gone_count (e : Nat) (x : Spec.Exp α) : (gone e x).count = x.count := by unfold gone; split <;> rfl
theorem gone_of_ne {e : Nat} {x : Spec.Exp α} (h : x.id ≠ e) : gone e x = x := by unfold gone; rw [if_neg h]

theorem attached_withdraw (S : Spec.State α) (e s : Nat) : (S.withdraw e).attached s = (S.attached s).map (gone e) := by
  unfold Spec.State.attached
  rw [withdraw_exps, List.filter_map]
  congr 1
  exact List.filter_congr fun x _ => by simp [gone_seqs]

theorem applicable_withdraw (S : Spec.State α) (e : Nat) (x : Spec.Exp α) : (S.withdraw e).applicable x = S.applicable x := by
  unfold Spec.State.applicable
  congr 1
  congr 1
  funext s
  rw [attached_withdraw, List.all_map]
  congr 1
  funext y
  simp [gone_id, gone_min, gone_count]

theorem select_withdraw (S : Spec.State α) (e : Nat) (x : Spec.Exp α) (l : List (Spec.Exp α)) :
    (S.withdraw e).select x l = S.select x l := by
  induction l generalizing x with
  | nil => rfl
  | cons y l ih =>
    simp only [Spec.State.select, ih]
    rfl

theorem candidates_withdraw (S : Spec.State α) (e m : Nat) :
    (S.withdraw e).candidates m = (S.candidates m).filter (fun x => x.id != e) := by
  unfold Spec.State.candidates
  rw [withdraw_exps, List.filter_map, List.filter_reverse, List.filter_filter, ← List.map_reverse]
  have h1 : S.exps.filter ((fun x => x.alive && x.mock == m) ∘ gone e) =
      S.exps.filter (fun x => x.id != e && (x.alive && x.mock == m)) := by
    refine List.filter_congr fun x _ => ?_
    simp only [Function.comp, gone]
    by_cases h : x.id = e
    · simp [h]
    · have : (x.id != e) = true := by simpa using h
      simp [h, this]
  rw [h1]
  conv => rhs; rw [← List.map_id (List.reverse _)]
  refine List.map_congr_left fun x hx => ?_
  simp only [List.mem_reverse, List.mem_filter, Bool.and_eq_true, bne_iff_ne] at hx
  exact gone_of_ne hx.2.1

theorem countMatch_withdraw (S : Spec.State α) (e b : Nat) : (S.withdraw e).countMatch b = (S.countMatch b).withdraw e := by
  simp only [Spec.State.countMatch, Spec.State.withdraw, List.map_map, Spec.State.mk.injEq, true_and, and_true]
  refine List.map_congr_left fun x _ => ?_
  simp only [Function.comp]
  grind

/-- The expectation is not used by a call. -/
def Idle (S : Spec.State α) (e : Nat) (ops : List (Op α)) : Prop :=
  ∀ x ∈ S.exps, x.id = e → x.max ≤ x.count ∨ ∀ a, .call x.mock a ∈ ops → x.accepts a = false

theorem owned_countMatch (S : Spec.State α) (b s : Nat) : (S.countMatch b).owned s = S.owned s := by
  unfold Spec.State.owned Spec.State.countMatch
  congr 1
  simp only [List.any_map]
  congr 1
  funext x
  simp only [Function.comp]
  split <;> rfl

/-- A sequence nobody refers to does not notice calls. -/
theorem sequenceEnd_countMatch {S : Spec.State α} (hg : Good S) {x : Spec.Exp α} (hx : x ∈ S.exps) (ha : x.alive = true) {s : Nat}
    (hs : S.owned s = false) : (S.countMatch x.id).sequenceEnd s = S.sequenceEnd s := by
  have hn : ∀ y ∈ S.attached s, y.id ≠ x.id := by
    intro y hy he
    obtain ⟨h1, h2⟩ := List.mem_filter.mp hy
    obtain rfl := hg.same h1 hx he
    have : S.owned s = true := by
      unfold Spec.State.owned
      rw [Bool.or_eq_true]
      right
      rw [List.any_eq_true]
      exact ⟨y, h1, by rw [ha, h2]; rfl⟩
    rw [hs] at this
    cases this
  have : (S.countMatch x.id).attached s = S.attached s := by
    unfold Spec.State.attached Spec.State.countMatch
    simp only [List.filter_map]
    have h1 : S.exps.filter ((fun y => y.seqs.contains s) ∘ fun y => if y.id = x.id then { y with count := y.count + 1 } else y) =
        S.attached s := by
      unfold Spec.State.attached
      refine List.filter_congr fun y _ => ?_
      simp only [Function.comp]
      split <;> rfl
    rw [h1]
    conv => rhs; rw [← List.map_id (List.filter _ _)]
    refine List.map_congr_left fun y hy => ?_
    rw [if_neg (hn y hy)]
    rfl
  unfold Spec.State.sequenceEnd
  rw [this]

theorem release_countMatch {S : Spec.State α} (hg : Good S) {x : Spec.Exp α} (hx : x ∈ S.exps) (ha : x.alive = true) (ss : List Nat) :
    (S.countMatch x.id).release ss = S.release ss := by
  unfold Spec.State.release
  congr 1
  funext s
  rw [owned_countMatch]
  split
  · rfl
  · rename_i h
    exact sequenceEnd_countMatch hg hx ha (by simpa using h)

theorem select_mem (S : Spec.State α) (x : Spec.Exp α) (l : List (Spec.Exp α)) : S.select x l ∈ x :: l := by
  induction l generalizing x with
  | nil => simp [Spec.State.select]
  | cons y l ih =>
    simp only [Spec.State.select]
    split
    · have := ih y; grind
    · have := ih x; grind

/-- A call, with and without an expectation that cannot resolve it. -/
theorem call_withdraw {S : Spec.State α} (hS : Sound S) {e m : Nat} {a : α} {x : Spec.Exp α} (hx : x ∈ S.exps) (hid : x.id = e)
    (hi : Idle S e [.call m a]) :
    ((S.withdraw e).call m a).1 = (S.call m a).1.withdraw e ∧
    (S.call m a).2.1.filterMap (blur e) = ((S.withdraw e).call m a).2.1.filterMap (blur e) ∧
    (S.call m a).2.1.filterMap outcome = ((S.withdraw e).call m a).2.1.filterMap outcome ∧
    x ∈ (S.call m a).1.exps ∧
    ((S.call m a).1.withdraw e).release x.seqs = (S.withdraw e).release x.seqs := by
  have hfull : (((S.withdraw e).candidates m).filter (·.accepts a)).filter (S.withdraw e).applicable =
      ((S.candidates m).filter (·.accepts a)).filter S.applicable := by
    rw [candidates_withdraw]
    simp only [List.filter_filter]
    refine List.filter_congr fun y hy => ?_
    rw [applicable_withdraw]
    by_cases he : y.id = e
    · have hy' : y ∈ S.exps ∧ y.alive = true ∧ y.mock = m := by
        unfold Spec.State.candidates at hy
        simpa using hy
      have : (S.applicable y && y.accepts a) = false := by
        rcases hi y hy'.1 he with h1 | h1
        · have : S.applicable y = false := by
            unfold Spec.State.applicable
            have : decide ((y.count : Int) < y.max) = false := by simpa using h1
            rw [this]
            rfl
          rw [this]
          rfl
        · rw [h1 a (by simp [hy'.2.2])]
          simp
      have h2 : (y.id != e) = false := by simp [he]
      rw [h2, ← Bool.and_assoc, this]
      simp
    · have h2 : (y.id != e) = true := by simpa using he
      rw [h2]
      simp
  have hun : (((S.candidates m).filter (·.throws a)).map (fun x => Event.unhandled x.id)).filterMap (blur e) =
      ((((S.withdraw e).candidates m).filter (·.throws a)).map (fun x => Event.unhandled x.id)).filterMap (blur e) := by
    rw [candidates_withdraw]
    simp only [List.filter_filter]
    generalize S.candidates m = l
    induction l with
    | nil => rfl
    | cons y l ih =>
      by_cases h1 : y.throws a = true <;> by_cases h2 : y.id = e
      · have h3 : (y.id != e) = false := by simp [h2]
        simp [List.filter_cons, h1, h3, List.filterMap_cons, blur, h2, ih]
      · have h3 : (y.id != e) = true := by simpa using h2
        simp [List.filter_cons, h1, h3, List.filterMap_cons, blur, h2, ih]
      · have h1' : y.throws a = false := by simpa using h1
        simp [List.filter_cons, h1', ih]
      · have h1' : y.throws a = false := by simpa using h1
        simp [List.filter_cons, h1', ih]
  have hout : ∀ l : List (Spec.Exp α), (l.map (fun x => Event.unhandled x.id)).filterMap outcome = [] := by
    intro l
    induction l with
    | nil => rfl
    | cons y l ih => simp [outcome, ih]
  unfold Spec.State.call
  simp only
  rw [hfull]
  cases hl : ((S.candidates m).filter (·.accepts a)).filter S.applicable with
  | cons y older =>
    have hb := select_mem S y older
    rw [← hl] at hb
    simp only [List.mem_filter] at hb
    obtain ⟨⟨hb1, hb2⟩, hb3⟩ := hb
    generalize hsel : S.select y older = b at *
    have hb' : b ∈ S.exps ∧ b.alive = true ∧ b.mock = m := by
      unfold Spec.State.candidates at hb1
      simpa using hb1
    have hne : b.id ≠ e := by
      intro he
      rcases hi b hb'.1 he with h1 | h1
      · unfold Spec.State.applicable at hb3
        simp only [Bool.and_eq_true, decide_eq_true_eq] at hb3
        omega
      · rw [h1 a (by simp [hb'.2.2])] at hb2
        cases hb2
    have hb'' : b ∈ (S.withdraw e).exps := by
      rw [withdraw_exps]
      exact List.mem_map.mpr ⟨b, hb'.1, gone_of_ne hne⟩
    have hgood : Good (S.withdraw e) := hS.good.after (.destroy e)
    simp only [select_withdraw, hsel]
    refine ⟨countMatch_withdraw S e b.id, ?_, ?_, ?_, ?_⟩
    · rw [List.filterMap_append, List.filterMap_append, hun]
    · rw [List.filterMap_append, List.filterMap_append, hout, hout]
    · refine List.mem_map.mpr ⟨x, hx, ?_⟩
      rw [if_neg (by omega)]
    · rw [← countMatch_withdraw]
      exact release_countMatch hgood hb'' hb'.2.1 _
  | nil =>
    simp only
    by_cases h1 : ((S.candidates m).filter (·.accepts a)).isEmpty = true <;>
      by_cases h2 : (((S.withdraw e).candidates m).filter (·.accepts a)).isEmpty = true
    all_goals
      first | rw [if_pos h1] | rw [if_neg h1]
      first | rw [if_pos h2] | rw [if_neg h2]
      refine ⟨rfl, ?_, ?_, hx, rfl⟩
      · simp only [List.filterMap_append, hun]; rfl
      · simp only [List.filterMap_append, hout]; rfl

theorem hasHandle_withdraw (S : Spec.State α) (e : Nat) : (S.withdraw e).hasHandle = S.hasHandle := rfl

theorem owned_of_handle {S : Spec.State α} {s : Nat} (h : S.hasHandle s = true) : S.owned s = true := by
  unfold Spec.State.owned
  rw [Bool.or_eq_true]
  exact Or.inl h

/-- An operation that ends nothing, with and without an expectation that cannot resolve a call. -/
theorem step_withdraw {S : Spec.State α} (hS : Sound S) {e : Nat} {op : Op α} (ho : ends op = false) {x : Spec.Exp α} (hx : x ∈ S.exps)
    (hid : x.id = e) (hi : Idle S e [op]) :
    (S.step op = none ∧ (S.withdraw e).step op = none) ∨
    ∃ S' ev ev', S.step op = some (S', ev) ∧ (S.withdraw e).step op = some (S'.withdraw e, ev') ∧
      ev.filterMap (blur e) = ev'.filterMap (blur e) ∧ ev.filterMap outcome = ev'.filterMap outcome ∧ x ∈ S'.exps ∧
      (S'.withdraw e).release x.seqs = (S.withdraw e).release x.seqs := by
  cases op with
  | destroy e => simp [ends] at ho
  | dropSequence s => simp [ends] at ho
  | newMock =>
    exact Or.inr ⟨_, _, _, rfl, rfl, rfl, rfl, hx, rfl⟩
  | newSequence st =>
    refine Or.inr ⟨_, _, _, rfl, rfl, rfl, rfl, hx, ?_⟩
    unfold Spec.State.release
    rw [List.flatMap_def, List.flatMap_def]
    congr 1
    refine List.map_congr_left fun s hs => ?_
    have hlt := hS.valid x hx s hs
    have h1 : (({ S with seqs := S.seqs ++ [{ strategy := st, handle := true }] } : Spec.State α).withdraw e).owned s =
        (S.withdraw e).owned s := by
      unfold Spec.State.owned Spec.State.withdraw
      simp only
      rw [List.getElem?_append_left hlt]
    rw [h1]
    rfl
  | call m a =>
    simp only [Spec.State.step]
    have hm : (S.withdraw e).mocks = S.mocks := rfl
    rw [hm]
    by_cases hc : m < S.mocks
    · rw [if_pos hc, if_pos hc]
      right
      obtain ⟨h1, h2, h3, h4, h5⟩ := call_withdraw hS hx hid hi
      exact ⟨_, _, _, rfl, by rw [h1], h2, h3, h4, h5⟩
    · rw [if_neg hc, if_neg hc]
      exact Or.inl ⟨rfl, rfl⟩
  | expect m min max tags ps =>
    simp only [Spec.State.step, hasHandle_withdraw]
    have hm : (S.withdraw e).mocks = S.mocks := rfl
    have hlen : (S.withdraw e).exps.length = S.exps.length := by rw [withdraw_exps, List.length_map]
    rw [hm, hlen]
    by_cases hc : m < S.mocks ∧ tags.all S.hasHandle = true ∧ isInt min = true ∧ isInt max = true
    · rw [if_pos hc, if_pos hc]
      right
      by_cases hv : Spec.validTimes min max ∧ tags.Nodup
      · rw [if_pos hv, if_pos hv]
        obtain ⟨i, hi'⟩ := List.mem_iff_getElem?.mp hx
        have hei : e < S.exps.length := by
          rw [← hid, hS.good.ids i x hi']
          exact (List.getElem?_eq_some_iff.mp hi').1
        have hw : ({ S with exps := S.exps ++ [⟨S.exps.length, m, min, max, tags, ps, 0, true⟩] } : Spec.State α).withdraw e =
            { S.withdraw e with exps := (S.withdraw e).exps ++ [⟨S.exps.length, m, min, max, tags, ps, 0, true⟩] } := by
          simp only [Spec.State.withdraw, List.map_append, List.map_cons, List.map_nil, Spec.State.mk.injEq, true_and, and_true]
          rw [if_neg (by omega)]
        refine ⟨_, _, _, rfl, by rw [hw]; rfl, rfl, rfl, by simp [hx], ?_⟩
        rw [hw]
        unfold Spec.State.release
        congr 1
        funext s
        by_cases hs : s ∈ tags
        · have h1 : S.hasHandle s = true := by
            have := hc.2.1
            rw [List.all_eq_true] at this
            exact this s hs
          have h2 : (S.withdraw e).owned s = true := owned_of_handle (by rw [hasHandle_withdraw]; exact h1)
          have h3 : ({ S.withdraw e with exps := (S.withdraw e).exps ++ [⟨S.exps.length, m, min, max, tags, ps, 0, true⟩] } :
              Spec.State α).owned s = true := owned_of_handle h1
          rw [h2, h3]
          rfl
        · have h0 : tags.contains s = false := by simpa using hs
          have h1 : ({ S.withdraw e with exps := (S.withdraw e).exps ++ [⟨S.exps.length, m, min, max, tags, ps, 0, true⟩] } :
              Spec.State α).owned s = (S.withdraw e).owned s := by
            unfold Spec.State.owned
            simp [hs]
          have h2 : ({ S.withdraw e with exps := (S.withdraw e).exps ++ [⟨S.exps.length, m, min, max, tags, ps, 0, true⟩] } :
              Spec.State α).attached s = (S.withdraw e).attached s := by
            unfold Spec.State.attached
            simp [hs]
          rw [h1]
          unfold Spec.State.sequenceEnd
          rw [h2]
      · rw [if_neg hv, if_neg hv]
        exact ⟨_, _, _, rfl, rfl, rfl, rfl, hx, rfl⟩
    · rw [if_neg hc, if_neg hc]
      exact Or.inl ⟨rfl, rfl⟩

theorem Agree.of_eq {e : Nat} {a b c : List Event} (h1 : b.filterMap (blur e) = c.filterMap (blur e))
    (h2 : b.filterMap outcome = c.filterMap outcome) (h3 : a.filterMap outcome = []) : Agree e (a ++ c) (b ++ a) := by
  refine ⟨?_, ?_⟩
  · rw [List.filterMap_append, List.filterMap_append, h1]
    exact List.perm_append_comm
  · rw [List.filterMap_append, List.filterMap_append, h2, h3]
    simp

theorem Agree.symm {e : Nat} {a b : List Event} (h : Agree e a b) : Agree e b a := ⟨h.1.symm, h.2.symm⟩

theorem Agree.refl (e : Nat) (a : List Event) : Agree e a a := ⟨.refl _, rfl⟩

theorem Agree.trans {e : Nat} {a b c : List Event} (h : Agree e a b) (h' : Agree e b c) : Agree e a c :=
  ⟨h.1.trans h'.1, h.2.trans h'.2⟩

theorem Agree.append {e : Nat} {a b c d : List Event} (h : Agree e a b) (h' : Agree e c d) : Agree e (a ++ c) (b ++ d) := by
  refine ⟨?_, ?_⟩
  · rw [List.filterMap_append, List.filterMap_append]
    exact h.1.append h'.1
  · rw [List.filterMap_append, List.filterMap_append, h.2, h'.2]

theorem release_outcome (S : Spec.State α) (ss : List Nat) : (S.release ss).filterMap outcome = [] := by
  unfold Spec.State.release
  induction ss with
  | nil => rfl
  | cons s ss ih =>
    rw [List.flatMap_cons, List.filterMap_append, ih, List.append_nil]
    split
    · rfl
    · unfold Spec.State.sequenceEnd
      split <;> rfl

theorem own_outcome (S : Spec.State α) (op : Op α) : (own S op).filterMap outcome = [] := by
  unfold own
  split
  · split
    · rfl
    · split <;> rfl
  · rfl

/-- What is known stays known. -/
theorem Sound.step {S S' : Spec.State α} (hS : Sound S) {op : Op α} {ev : List Event} (h : S.step op = some (S', ev)) : Sound S' := by
  by_cases ho : ends op = true
  · have hab := able_of_step ho h
    rw [step_of_able hab] at h
    simp only [Option.some.injEq, Prod.mk.injEq] at h
    obtain ⟨rfl, -⟩ := h
    refine ⟨hS.good.after op, ?_⟩
    cases op <;> simp [ends] at ho
    · rename_i s
      intro x hx t ht
      have : (after S (.dropSequence s)).seqs.length = S.seqs.length := by
        simp [after, drop]
      rw [this]
      exact hS.valid x hx t ht
    · rename_i e
      intro x hx t ht
      simp only [after, withdraw_exps, List.mem_map] at hx
      obtain ⟨y, hy, rfl⟩ := hx
      rw [gone_seqs] at ht
      exact hS.valid y hy t ht
  · cases op with
    | destroy e => simp [ends] at ho
    | dropSequence s => simp [ends] at ho
    | newMock =>
      simp only [Spec.State.step, Option.some.injEq, Prod.mk.injEq] at h
      obtain ⟨rfl, -⟩ := h
      exact ⟨⟨hS.good.ids, hS.good.nodup⟩, hS.valid⟩
    | newSequence st =>
      simp only [Spec.State.step, Option.some.injEq, Prod.mk.injEq] at h
      obtain ⟨rfl, -⟩ := h
      refine ⟨⟨hS.good.ids, hS.good.nodup⟩, ?_⟩
      intro x hx s hs
      have := hS.valid x hx s hs
      simp only [List.length_append, List.length_cons, List.length_nil]
      omega
    | call m a =>
      simp only [Spec.State.step] at h
      by_cases hc : m < S.mocks
      · rw [if_pos hc] at h
        simp only [Option.some.injEq, Prod.mk.injEq] at h
        obtain ⟨rfl, -⟩ := h
        have hcm : ∀ b, Sound (S.countMatch b) := by
          intro b
          have hmem : ∀ x ∈ (S.countMatch b).exps, ∃ y ∈ S.exps, x.seqs = y.seqs := by
            intro x hx
            simp only [Spec.State.countMatch, List.mem_map] at hx
            obtain ⟨y, hy, rfl⟩ := hx
            refine ⟨y, hy, ?_⟩
            split <;> rfl
          refine ⟨⟨?_, ?_⟩, ?_⟩
          · intro i x hx
            simp only [Spec.State.countMatch, List.getElem?_map] at hx
            cases hy : S.exps[i]? with
            | none => rw [hy] at hx; simp at hx
            | some y =>
              rw [hy] at hx
              simp only [Option.map_some, Option.some.injEq] at hx
              rw [← hx, ← hS.good.ids i y hy]
              split <;> rfl
          · intro x hx
            obtain ⟨y, hy, he⟩ := hmem x hx
            rw [he]
            exact hS.good.nodup y hy
          · intro x hx s hs
            obtain ⟨y, hy, he⟩ := hmem x hx
            rw [he] at hs
            exact hS.valid y hy s hs
        unfold Spec.State.call
        simp only
        split
        · exact hcm _
        · split <;> exact hS
      · rw [if_neg hc] at h
        cases h
    | expect m min max tags ps =>
      simp only [Spec.State.step] at h
      by_cases hc : m < S.mocks ∧ tags.all S.hasHandle = true ∧ isInt min = true ∧ isInt max = true
      · rw [if_pos hc] at h
        by_cases hv : Spec.validTimes min max ∧ tags.Nodup
        · rw [if_pos hv] at h
          simp only [Option.some.injEq, Prod.mk.injEq] at h
          obtain ⟨rfl, -⟩ := h
          refine ⟨⟨?_, ?_⟩, ?_⟩
          · intro i x hx
            simp only at hx
            rw [List.getElem?_append] at hx
            split at hx
            · exact hS.good.ids i x hx
            · rename_i hlt
              have : i - S.exps.length = 0 := by
                cases hk : i - S.exps.length with
                | zero => rfl
                | succ k => rw [hk] at hx; simp at hx
              rw [this] at hx
              simp only [List.getElem?_cons_zero, Option.some.injEq] at hx
              rw [← hx]
              simp only
              omega
          · intro x hx
            simp only [List.mem_append, List.mem_singleton] at hx
            rcases hx with hx | rfl
            · exact hS.good.nodup x hx
            · exact hv.2
          · intro x hx s hs
            simp only [List.mem_append, List.mem_singleton] at hx
            rcases hx with hx | rfl
            · exact hS.valid x hx s hs
            · have h1 := hc.2.1
              rw [List.all_eq_true] at h1
              have h2 := h1 s hs
              unfold Spec.State.hasHandle at h2
              cases hq : S.seqs[s]? with
              | none => rw [hq] at h2; simp at h2
              | some q => exact (List.getElem?_eq_some_iff.mp hq).1
        · rw [if_neg hv] at h
          simp only [Option.some.injEq, Prod.mk.injEq] at h
          obtain ⟨rfl, -⟩ := h
          exact hS
      · rw [if_neg hc] at h
        cases h

/-- The end of an expectation and the operation after it may change places. -/
theorem swap {S : Spec.State α} (hS : Sound S) {e : Nat} {x : Spec.Exp α} (hx : S.exps.find? (fun x => x.id == e && x.alive) = some x)
    {op : Op α} (hne : ∀ e', op = .destroy e' → e' ≠ e) (hi : Idle S e [op]) :
    (S.run [.destroy e, op] = none ∧ S.run [op, .destroy e] = none) ∨
    ∃ T ev ev', S.run [.destroy e, op] = some (T, ev) ∧ S.run [op, .destroy e] = some (T, ev') ∧ Agree e ev ev' := by
  by_cases ho : ends op = true
  · have hends : ∀ o ∈ [Op.destroy e, op], ends o = true := by
      intro o ho'
      simp only [List.mem_cons, List.not_mem_nil, or_false] at ho'
      rcases ho' with rfl | rfl
      · rfl
      · exact ho
    have hends' : ∀ o ∈ [op, Op.destroy e], ends o = true := fun o h => hends o (by simpa [or_comm] using h)
    have hnone : ∀ {l : List (Op α)}, (∀ o ∈ l, ends o = true) → ∀ {S T : Spec.State α} {ev : List Event}, S.run l = some (T, ev) →
        ev.filterMap outcome = [] := by
      intro l hl
      induction l with
      | nil =>
        intro S T ev h
        simp only [Spec.State.run, Option.some.injEq, Prod.mk.injEq] at h
        rw [← h.2]
        rfl
      | cons o l ih =>
        intro S T ev h
        simp only [Spec.State.run] at h
        cases hs : S.step o with
        | none => simp [hs] at h
        | some r =>
          obtain ⟨S1, e1⟩ := r
          simp only [hs] at h
          cases hr : S1.run l with
          | none => simp [hr] at h
          | some r =>
            obtain ⟨S2, e2⟩ := r
            simp only [hr, Option.some.injEq, Prod.mk.injEq] at h
            rw [← h.2, List.filterMap_append, ih (fun o ho => hl o (by simp [ho])) hr, List.append_nil]
            have hab := able_of_step (hl o (by simp)) hs
            rw [step_of_able hab] at hs
            simp only [Option.some.injEq, Prod.mk.injEq] at hs
            rw [← hs.2, List.filterMap_append, own_outcome, release_outcome]
            rfl
    cases h1 : S.run [.destroy e, op] with
    | some r =>
      obtain ⟨T, ev⟩ := r
      obtain ⟨ev', h2, h3⟩ := run_perm (List.Perm.swap op (Op.destroy e) []) hends hS.good h1
      exact Or.inr ⟨T, ev, ev', rfl, h2, h3.filterMap _, by rw [hnone hends h1, hnone hends' h2]⟩
    | none =>
      cases h2 : S.run [op, .destroy e] with
      | none => exact Or.inl ⟨rfl, rfl⟩
      | some r =>
        obtain ⟨T, ev⟩ := r
        obtain ⟨ev', h3, _⟩ := run_perm (List.Perm.swap (Op.destroy e) op []) hends' hS.good h2
        rw [h1] at h3
        cases h3
  · have ho : ends op = false := by simpa using ho
    have hm := List.mem_of_find?_eq_some hx
    have hp := List.find?_some hx
    simp only [Bool.and_eq_true, beq_iff_eq] at hp
    have hfirst : S.step (.destroy e) = some (S.withdraw e, own S (.destroy e) ++ (S.withdraw e).release x.seqs) := by
      have := step_of_able (S := S) (op := .destroy e) (by simp [able, hx])
      rw [this]
      simp only [after, lost, hx]
    rcases step_withdraw hS ho hm hp.1 hi with ⟨h1, h2⟩ | ⟨S', ev, ev', h1, h2, h3, h4, h5, h6⟩
    · left
      constructor
      · simp only [Spec.State.run, hfirst, h2]
      · simp only [Spec.State.run, h1]
    · right
      have hx' : ∃ x', S'.exps.find? (fun x => x.id == e && x.alive) = some x' := by
        cases hf : S'.exps.find? (fun x => x.id == e && x.alive) with
        | some x' => exact ⟨x', rfl⟩
        | none =>
          have := List.find?_eq_none.mp hf x h5
          simp [hp.1, hp.2] at this
      obtain ⟨x', hx'⟩ := hx'
      have hS' := hS.step h1
      have hp' := List.find?_some hx'
      simp only [Bool.and_eq_true, beq_iff_eq] at hp'
      obtain rfl : x' = x := hS'.good.same (List.mem_of_find?_eq_some hx') h5 (hp'.1.trans hp.1.symm)
      have hlast : S'.step (.destroy e) = some (S'.withdraw e, own S' (.destroy e) ++ (S'.withdraw e).release x'.seqs) := by
        have := step_of_able (S := S') (op := .destroy e) (by simp [able, hx'])
        rw [this]
        simp only [after, lost, hx']
      have hown : own S' (.destroy e) = own S (.destroy e) := by simp only [own, hx, hx']
      refine ⟨S'.withdraw e, own S (.destroy e) ++ (S.withdraw e).release x'.seqs ++ ev',
        ev ++ (own S (.destroy e) ++ (S.withdraw e).release x'.seqs), ?_, ?_, ?_⟩
      · simp only [Spec.State.run, hfirst, h2, List.append_nil]
      · simp only [Spec.State.run, h1, hlast, List.append_nil, hown, h6]
      · refine Agree.of_eq h3 h4 ?_
        rw [List.filterMap_append, own_outcome, release_outcome]
        rfl

/-- The expectation that cannot resolve a call is as before after any operation but its end. -/
theorem stays {S S' : Spec.State α} (hS : Sound S) {e : Nat} {x : Spec.Exp α} (hx : x ∈ S.exps) (hid : x.id = e) {op : Op α}
    (hne : ∀ e', op = .destroy e' → e' ≠ e) (hi : Idle S e [op]) {ev : List Event} (h : S.step op = some (S', ev)) : x ∈ S'.exps := by
  by_cases ho : ends op = true
  · have hab := able_of_step ho h
    rw [step_of_able hab] at h
    simp only [Option.some.injEq, Prod.mk.injEq] at h
    obtain ⟨rfl, -⟩ := h
    cases op <;> simp [ends] at ho
    · exact hx
    · rename_i e'
      simp only [after, withdraw_exps, List.mem_map]
      exact ⟨x, hx, gone_of_ne (by rw [hid]; exact (hne e' rfl).symm)⟩
  · have ho : ends op = false := by simpa using ho
    rcases step_withdraw hS ho hx hid hi with ⟨h1, -⟩ | ⟨S1, ev1, ev', h1, -, -, -, h5, -⟩
    · rw [h1] at h
      cases h
    · rw [h1] at h
      simp only [Option.some.injEq, Prod.mk.injEq] at h
      rw [← h.1]
      exact h5

theorem find_of_mem {S : Spec.State α} (hS : Sound S) {e : Nat} {x : Spec.Exp α} (hx : x ∈ S.exps) (hid : x.id = e) (ha : x.alive = true) :
    S.exps.find? (fun x => x.id == e && x.alive) = some x := by
  cases hf : S.exps.find? (fun x => x.id == e && x.alive) with
  | some y =>
    have hp := List.find?_some hf
    simp only [Bool.and_eq_true, beq_iff_eq] at hp
    rw [hS.good.same (List.mem_of_find?_eq_some hf) hx (hp.1.trans hid.symm)]
  | none =>
    have := List.find?_eq_none.mp hf x hx
    simp [hid, ha] at this

theorem step_destroy {S : Spec.State α} {e : Nat} {x : Spec.Exp α} (hx : S.exps.find? (fun x => x.id == e && x.alive) = some x) :
    ∃ ev, S.step (.destroy e) = some (S.withdraw e, ev) :=
  ⟨_, step_of_able (S := S) (op := .destroy e) (by simp [able, hx])⟩

/-- The same, operation by operation. -/
theorem swap_steps {S : Spec.State α} (hS : Sound S) {e : Nat} {x : Spec.Exp α} (hx : x ∈ S.exps) (hid : x.id = e) (ha : x.alive = true)
    {op : Op α} (hne : ∀ e', op = .destroy e' → e' ≠ e) (hi : Idle S e [op]) :
    ∃ evd, S.step (.destroy e) = some (S.withdraw e, evd) ∧
    ((S.step op = none ∧ (S.withdraw e).step op = none) ∨
    ∃ S' ev1 ev2 evd', S.step op = some (S', ev1) ∧ (S.withdraw e).step op = some (S'.withdraw e, ev2) ∧
      S'.step (.destroy e) = some (S'.withdraw e, evd') ∧ Agree e (evd ++ ev2) (ev1 ++ evd') ∧ x ∈ S'.exps ∧ Sound S') := by
  have hf := find_of_mem hS hx hid ha
  obtain ⟨evd, hd⟩ := step_destroy hf
  refine ⟨evd, hd, ?_⟩
  cases hs : S.step op with
  | none =>
    left
    refine ⟨rfl, ?_⟩
    rcases swap hS hf hne hi with ⟨h1, -⟩ | ⟨T, ev, ev', -, h2, -⟩
    · simp only [Spec.State.run, hd] at h1
      cases ht : (S.withdraw e).step op with
      | none => rfl
      | some r => simp [ht] at h1
    · simp [Spec.State.run, hs] at h2
  | some r =>
    obtain ⟨S', ev1⟩ := r
    right
    have hS' := hS.step hs
    have hx' := stays hS hx hid hne hi hs
    obtain ⟨evd', hd'⟩ := step_destroy (find_of_mem hS' hx' hid ha)
    rcases swap hS hf hne hi with ⟨-, h1⟩ | ⟨T, ev, ev', h1, h2, h3⟩
    · simp [Spec.State.run, hs, hd'] at h1
    · simp only [Spec.State.run, hs, hd', Option.some.injEq, Prod.mk.injEq, List.append_nil] at h2
      obtain ⟨rfl, rfl⟩ := h2
      simp only [Spec.State.run, hd] at h1
      cases ht : (S.withdraw e).step op with
      | none => simp [ht] at h1
      | some r =>
        obtain ⟨T, ev2⟩ := r
        simp only [ht, Option.some.injEq, Prod.mk.injEq, List.append_nil] at h1
        obtain ⟨rfl, rfl⟩ := h1
        exact ⟨S', ev1, ev2, evd', rfl, rfl, hd', h3, hx', hS'⟩

theorem full_withdraw (S : Spec.State α) (e : Nat) (op : Op α) : (S.withdraw e).full op ↔ S.full op := by
  cases op <;> simp [Spec.State.full, attached_withdraw]

theorem Idle.tail {S S' : Spec.State α} (hS' : Sound S') {e : Nat} {x : Spec.Exp α} (hx : x ∈ S.exps) (hid : x.id = e) (hx' : x ∈ S'.exps)
    {op : Op α} {ops : List (Op α)} (hi : Idle S e (op :: ops)) : Idle S' e ops := by
  intro y hy he
  obtain rfl := hS'.good.same hy hx' (he.trans hid.symm)
  rcases hi y hx hid with h | h
  · exact Or.inl h
  · exact Or.inr fun a ha => h a (by simp [ha])

/-- The end of an expectation may be moved past operations during which it cannot resolve a call. -/
theorem moves {S : Spec.State α} (hS : Sound S) {e : Nat} {x : Spec.Exp α} (hx : x ∈ S.exps) (hid : x.id = e) (ha : x.alive = true)
    {mid : List (Op α)} (hm : .destroy e ∉ mid) (hi : Idle S e mid) :
    (∀ T ev, S.run (.destroy e :: mid) = some (T, ev) → ∃ ev', S.run (mid ++ [.destroy e]) = some (T, ev') ∧ Agree e ev ev') ∧
    (∀ T ev', S.run (mid ++ [.destroy e]) = some (T, ev') → ∃ ev, S.run (.destroy e :: mid) = some (T, ev) ∧ Agree e ev ev') ∧
    (S.fits (.destroy e :: mid) ↔ S.fits (mid ++ [.destroy e])) := by
  induction mid generalizing S with
  | nil => exact ⟨fun T ev h => ⟨ev, h, .refl _ _⟩, fun T ev h => ⟨ev, h, .refl _ _⟩, Iff.rfl⟩
  | cons op mid ih =>
    have hne : ∀ e', op = .destroy e' → e' ≠ e := by
      rintro e' rfl rfl
      exact hm (by simp)
    have hi1 : Idle S e [op] := fun y hy he => (hi y hy he).imp id fun h a ha => h a (by simp only [List.mem_singleton] at ha; simp [ha])
    obtain ⟨evd, hd, h⟩ := swap_steps hS hx hid ha hne hi1
    rcases h with ⟨h1, h2⟩ | ⟨S', ev1, ev2, evd', h1, h2, h3, h4, h5, h6⟩
    · refine ⟨?_, ?_, ?_⟩
      · intro T ev h
        simp [Spec.State.run, hd, h2] at h
      · intro T ev h
        simp [Spec.State.run, h1] at h
      · simp only [List.cons_append, Spec.State.fits, hd, h1, h2]
        simp only [Spec.State.fits, Option.some.injEq, Prod.mk.injEq, h2, full_withdraw]
        constructor
        · rintro ⟨_, h⟩
          have := (h _ _ ⟨rfl, rfl⟩).1
          rw [full_withdraw] at this
          exact ⟨this, by simp⟩
        · rintro ⟨h, _⟩
          refine ⟨by simp [Spec.State.full], ?_⟩
          rintro T ev ⟨rfl, rfl⟩
          rw [full_withdraw]
          exact ⟨h, by simp [h2]⟩
    · obtain ⟨i1, i2, i3⟩ := ih h6 h5 (fun h => hm (by simp [h])) (hi.tail h6 hx hid h5)
      refine ⟨?_, ?_, ?_⟩
      · intro T ev h
        simp only [Spec.State.run, hd, h2] at h
        cases hr : (S'.withdraw e).run mid with
        | none => simp [hr] at h
        | some r =>
          obtain ⟨T', ev3⟩ := r
          simp only [hr, Option.some.injEq, Prod.mk.injEq] at h
          obtain ⟨rfl, rfl⟩ := h
          obtain ⟨ev', h7, h8⟩ := i1 T' (evd' ++ ev3) (by simp only [Spec.State.run, h3, hr])
          refine ⟨ev1 ++ ev', by simp only [List.cons_append, Spec.State.run, h1, h7], ?_⟩
          have := (h4.append (.refl e ev3)).trans (by rw [List.append_assoc]; exact (Agree.refl e ev1).append h8)
          rwa [List.append_assoc] at this
      · intro T ev h
        simp only [List.cons_append, Spec.State.run, h1] at h
        cases hr : S'.run (mid ++ [.destroy e]) with
        | none => simp [hr] at h
        | some r =>
          obtain ⟨T', ev3⟩ := r
          simp only [hr, Option.some.injEq, Prod.mk.injEq] at h
          obtain ⟨rfl, rfl⟩ := h
          obtain ⟨ev', h7, h8⟩ := i2 T' ev3 hr
          simp only [Spec.State.run, h3] at h7
          cases hq : (S'.withdraw e).run mid with
          | none => simp [hq] at h7
          | some r =>
            obtain ⟨T1, ev4⟩ := r
            simp only [hq, Option.some.injEq, Prod.mk.injEq] at h7
            obtain ⟨rfl, rfl⟩ := h7
            refine ⟨evd ++ (ev2 ++ ev4), by simp only [Spec.State.run, hd, h2, hq], ?_⟩
            have := (h4.append (.refl e ev4)).trans (by rw [List.append_assoc]; exact (Agree.refl e ev1).append h8)
            rwa [List.append_assoc] at this
      · have e1 : S.fits (.destroy e :: op :: mid) ↔ ¬ S.full op ∧ (S'.withdraw e).fits mid := by
          constructor
          · intro h
            have h' := h.2 _ _ hd
            exact ⟨fun hf => h'.1 ((full_withdraw S e op).mpr hf), h'.2 _ _ h2⟩
          · rintro ⟨h, h'⟩
            refine ⟨fun hf => hf, ?_⟩
            intro T ev hT
            rw [hd] at hT
            simp only [Option.some.injEq, Prod.mk.injEq] at hT
            obtain ⟨rfl, -⟩ := hT
            refine ⟨fun hf => h ((full_withdraw S e op).mp hf), ?_⟩
            intro T ev hT
            rw [h2] at hT
            simp only [Option.some.injEq, Prod.mk.injEq] at hT
            obtain ⟨rfl, -⟩ := hT
            exact h'
        have e2 : S'.fits (.destroy e :: mid) ↔ (S'.withdraw e).fits mid := by
          constructor
          · intro h
            exact h.2 _ _ h3
          · intro h
            refine ⟨fun hf => hf, ?_⟩
            intro T ev hT
            rw [h3] at hT
            simp only [Option.some.injEq, Prod.mk.injEq] at hT
            obtain ⟨rfl, -⟩ := hT
            exact h
        rw [e1, ← e2, i3]
        constructor
        · rintro ⟨h, h'⟩
          refine ⟨h, ?_⟩
          intro T ev hT
          rw [h1] at hT
          simp only [Option.some.injEq, Prod.mk.injEq] at hT
          obtain ⟨rfl, -⟩ := hT
          exact h'
        · intro h
          exact ⟨h.1, h.2 _ _ h1⟩

end Mimic.Lives
