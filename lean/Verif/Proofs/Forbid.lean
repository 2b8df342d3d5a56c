import Verif.Spec.Forbid
import Verif.Proofs.Unused
import Verif.Proofs.Ends
import Verif.Proofs.Kinds

/-! # Tests without a forbidding expectation: lemmas -/

set_option autoImplicit false

namespace Mimic.Forbid

open Unused (down)

variable {α : Type} {e : Nat}

/-- An expectation with its number in the test without `e`. -/
def re (e : Nat) (x : Spec.Exp α) : Spec.Exp α := { x with id := down e x.id }

/-- Those that are left. -/
def rest (e : Nat) (l : List (Spec.Exp α)) : List (Spec.Exp α) := (l.filter (fun x => x.id ≠ e)).map (re e)

/-- The state of the test without `e`. -/
def lessen (e : Nat) (S : Spec.State α) : Spec.State α := { S with exps := rest e S.exps }

/-- What is known about the states of the test: the numbers are positions, and `e` forbids calls. -/
structure Ok (e : Nat) (S : Spec.State α) : Prop where
  ids : ∀ (i : Nat) (x : Spec.Exp α), S.exps[i]? = some x → x.id = i
  forbids : ∀ x ∈ S.exps, x.id = e → x.min ≤ 0 ∧ x.max ≤ 0 ∧ x.count = 0

theorem rest_filter (p : Spec.Exp α → Bool) (hp : ∀ x, p (re e x) = p x) (l : List (Spec.Exp α)) :
    (rest e l).filter p = rest e (l.filter p) := by
  unfold rest
  rw [List.filter_map, List.filter_filter, List.filter_filter]
  congr 1
  apply List.filter_congr
  intro x _
  simp [hp, Bool.and_comm]

theorem rest_reverse (l : List (Spec.Exp α)) : (rest e l).reverse = rest e l.reverse := by
  simp [rest, List.filter_reverse]

theorem attached_lessen (S : Spec.State α) (s : Nat) : (lessen e S).attached s = rest e (S.attached s) :=
  rest_filter _ (fun _ => rfl) _

theorem candidates_lessen (S : Spec.State α) (m : Nat) : (lessen e S).candidates m = rest e (S.candidates m) := by
  unfold Spec.State.candidates
  rw [← rest_reverse]
  congr 1
  exact rest_filter _ (fun _ => rfl) _

theorem down_lt {i j : Nat} (hi : i ≠ e) (hj : j ≠ e) : down e i < down e j ↔ i < j := by
  unfold down; grind

theorem mem_rest {l : List (Spec.Exp α)} {y : Spec.Exp α} : y ∈ rest e l ↔ ∃ x ∈ l, x.id ≠ e ∧ re e x = y := by
  simp [rest, and_assoc]

theorem applicable_lessen {S : Spec.State α} (h : Ok e S) {x : Spec.Exp α} (hx : x.id ≠ e) :
    (lessen e S).applicable (re e x) = S.applicable x := by
  rw [Bool.eq_iff_iff]
  unfold Spec.State.applicable
  simp only [Bool.and_eq_true, List.all_eq_true, attached_lessen, mem_rest]
  have hc : (decide (((re e x).count : Int) < (re e x).max) = true) ↔ (decide ((x.count : Int) < x.max) = true) := Iff.rfl
  rw [hc]
  refine and_congr_right fun _ => ?_
  have hs : (re e x).seqs = x.seqs := rfl
  rw [hs]
  constructor
  · intro H s hs y hy
    by_cases hye : y.id = e
    · have hm := (List.mem_filter.mp hy).1
      obtain ⟨h1, h2, h3⟩ := h.forbids y hm hye
      simp [h3]
      omega
    · have := H s hs (re e y) ⟨y, hy, hye, rfl⟩
      have e1 := down_lt (e := e) hye hx
      have e2 := down_lt (e := e) hx hye
      simp only [re] at this
      simp only [e1, e2] at this
      exact this
  · rintro H s hs _ ⟨y, hy, hye, rfl⟩
    have := H s hs y hy
    have e1 := down_lt (e := e) hye hx
    have e2 := down_lt (e := e) hx hye
    simp only [re, e1, e2]
    exact this

theorem select_lessen (S : Spec.State α) (x : Spec.Exp α) (l : List (Spec.Exp α)) :
    (lessen e S).select (re e x) (l.map (re e)) = re e (S.select x l) := by
  induction l generalizing x with
  | nil => rfl
  | cons y l ih =>
    simp only [List.map_cons, Spec.State.select]
    have : (lessen e S).displaces (re e y) (re e x) = S.displaces y x := rfl
    rw [this]
    split
    · exact ih y
    · exact ih x

theorem rest_of_ne {l : List (Spec.Exp α)} (h : ∀ x ∈ l, x.id ≠ e) : rest e l = l.map (re e) := by
  unfold rest
  rw [List.filter_eq_self.mpr (by simpa using h)]

theorem rest_map (l : List (Spec.Exp α)) (f : Spec.Exp α → Spec.Exp α) (hi : ∀ x, (f x).id = x.id) (g : Spec.Exp α → Spec.Exp α)
    (hg : ∀ x, x.id ≠ e → g (re e x) = re e (f x)) : (rest e l).map g = rest e (l.map f) := by
  unfold rest
  rw [List.filter_map, List.map_map, List.map_map]
  have : ((fun x : Spec.Exp α => decide (x.id ≠ e)) ∘ f) = (fun x => decide (x.id ≠ e)) := by
    funext x; simp [hi]
  rw [this]
  apply List.map_congr_left
  intro x hx
  have := (List.mem_filter.mp hx).2
  simp only [Function.comp]
  exact hg x (by simpa using this)

theorem upd_lessen {k : Nat} (hk : k ≠ e) (g : Spec.Exp α → Spec.Exp α) (hi : ∀ x, (g x).id = x.id) (hg : ∀ x, g (re e x) = re e (g x))
    (l : List (Spec.Exp α)) :
    (rest e l).map (fun x => if x.id = down e k then g x else x) = rest e (l.map (fun x => if x.id = k then g x else x)) := by
  refine rest_map l (fun x => if x.id = k then g x else x) (fun x => by split <;> simp [hi]) _ ?_
  intro x hx
  have : (re e x).id = down e k ↔ x.id = k := Unused.down_inj hx hk
  by_cases hxk : x.id = k
  · rw [if_pos (this.mpr hxk), if_pos hxk, hg]
  · rw [if_neg (fun h => hxk (this.mp h)), if_neg hxk]

theorem countMatch_lessen (S : Spec.State α) {k : Nat} (hk : k ≠ e) : (lessen e S).countMatch (down e k) = lessen e (S.countMatch k) := by
  simp only [Spec.State.countMatch, lessen, Spec.State.mk.injEq, true_and, and_true]
  exact upd_lessen hk (fun x => { x with count := x.count + 1 }) (fun _ => rfl) (fun _ => rfl) _

theorem withdraw_lessen (S : Spec.State α) {k : Nat} (hk : k ≠ e) : (lessen e S).withdraw (down e k) = lessen e (S.withdraw k) := by
  simp only [Spec.State.withdraw, lessen, Spec.State.mk.injEq, true_and, and_true]
  exact upd_lessen hk (fun x => { x with alive := false }) (fun _ => rfl) (fun _ => rfl) _

theorem withdraw_same (S : Spec.State α) : lessen e (S.withdraw e) = lessen e S := by
  simp only [Spec.State.withdraw, lessen, Spec.State.mk.injEq, true_and, and_true]
  unfold rest
  induction S.exps with
  | nil => rfl
  | cons x l ih =>
    by_cases hx : x.id = e
    · simp [hx] at ih ⊢
      exact ih
    · simp [hx] at ih ⊢
      exact ih

/-- The verdicts of the events, without `e`. -/
def brief (e : Nat) (ev : List Event) : List Event := (ev.filterMap (Unused.event e)).filterMap verdict

theorem brief_append (a b : List Event) : brief e (a ++ b) = brief e a ++ brief e b := by simp [brief]

theorem brief_unhandled (l : List (Spec.Exp α)) :
    ((rest e l).map (fun x => Event.unhandled x.id)).filterMap verdict = brief e (l.map (fun x => Event.unhandled x.id)) := by
  induction l with
  | nil => rfl
  | cons x l ih =>
    unfold brief rest at *
    by_cases hx : x.id = e
    · simp [hx, Unused.event] at ih ⊢
      exact ih
    · simp [hx, Unused.event, verdict, re] at ih ⊢
      exact ih

theorem call_lessen {S : Spec.State α} (h : Ok e S) (m : Nat) (a : α) :
    ((lessen e S).call m a).1 = lessen e (S.call m a).1 ∧
    ((lessen e S).call m a).2.1.filterMap verdict = brief e (S.call m a).2.1 := by
  have hf : ∀ x ∈ ((S.candidates m).filter (·.accepts a)).filter S.applicable, x.id ≠ e := by
    intro x hx hxe
    have hap := (List.mem_filter.mp hx).2
    have hm : x ∈ S.exps := by
      have := (List.mem_filter.mp (List.mem_filter.mp hx).1).1
      unfold Spec.State.candidates at this
      exact (List.mem_filter.mp (List.mem_reverse.mp this)).1
    obtain ⟨h1, h2, h3⟩ := h.forbids x hm hxe
    unfold Spec.State.applicable at hap
    simp [h3] at hap
    omega
  rw [Kinds.call_outcome, Kinds.call_outcome, candidates_lessen]
  rw [rest_filter (fun x => x.throws a) (fun _ => rfl), rest_filter (fun x => x.accepts a) (fun _ => rfl),
    rest_filter (fun x => !x.throws a) (fun _ => rfl)]
  have hl : (rest e ((S.candidates m).filter (·.accepts a))).filter (lessen e S).applicable =
      (((S.candidates m).filter (·.accepts a)).filter S.applicable).map (re e) := by
    rw [← rest_of_ne hf]
    unfold rest
    rw [List.filter_map]
    congr 1
    simp only [List.filter_filter]
    apply List.filter_congr
    intro x _
    by_cases hx : x.id = e
    · simp [hx]
    · simp [hx, applicable_lessen h hx]
  rw [hl]
  generalize ((S.candidates m).filter (·.accepts a)).filter S.applicable = L at hf ⊢
  generalize (S.candidates m).filter (·.accepts a) = A
  generalize (S.candidates m).filter (·.throws a) = U
  generalize (S.candidates m).filter (fun x => !x.throws a) = K
  cases L with
  | nil =>
    simp only [List.map_nil, Kinds.outcome]
    constructor
    · split <;> split <;> rfl
    · have last : ∀ x : Event, (∃ ns, x = .noMatch ns ∨ x = .inapplicable ns) → [x].filterMap verdict = [.noMatch []] ∧ brief e [x] = [.noMatch []] := by
        rintro x ⟨ns, rfl | rfl⟩ <;> simp [verdict, brief, Unused.event]
      split <;> split <;>
        simp only [List.filterMap_append, brief_append, brief_unhandled] <;>
        rw [(last _ ⟨_, by first | exact .inl rfl | exact .inr rfl⟩).1, (last _ ⟨_, by first | exact .inl rfl | exact .inr rfl⟩).2]
  | cons x l =>
    simp only [List.map_cons, Kinds.outcome, select_lessen]
    have hb := hf _ (select_mem' S x l)
    generalize S.select x l = b at hb ⊢
    refine ⟨countMatch_lessen S hb, ?_⟩
    simp only [List.filterMap_append, brief_append, brief_unhandled]
    congr 1
    simp [verdict, brief, Unused.event, hb, re]

theorem release_verdict (S : Spec.State α) (ss : List Nat) : (S.release ss).filterMap verdict = [] ∧ brief e (S.release ss) = [] := by
  have : ∀ x ∈ S.release ss, verdict x = none ∧ (Unused.event e x).bind verdict = none := by
    intro x hx
    unfold Spec.State.release Spec.State.sequenceEnd at hx
    obtain ⟨s, -, hs⟩ := List.mem_flatMap.mp hx
    split at hs
    · cases hs
    · split at hs <;> simp at hs <;> grind [verdict, Unused.event]
  constructor
  · rw [List.filterMap_eq_nil_iff]; exact fun x hx => (this x hx).1
  · unfold brief
    rw [List.filterMap_filterMap, List.filterMap_eq_nil_iff]
    exact fun x hx => (this x hx).2

theorem length_lessen {S : Spec.State α} (h : Ok e S) (hl : e < S.exps.length) : (lessen e S).exps.length = S.exps.length - 1 := by
  have : S.exps.filter (fun x => x.id ≠ e) = S.exps.eraseIdx e := by
    have key : ∀ (l : List (Spec.Exp α)) (n : Nat), (∀ (i : Nat) (x : Spec.Exp α), l[i]? = some x → x.id = n + i) → ∀ k,
        l.filter (fun x => x.id ≠ n + k) = l.eraseIdx k := by
      intro l
      induction l with
      | nil => intros; rfl
      | cons x l ih =>
        intro n hi k
        have hx := hi 0 x rfl
        have ht : ∀ (i : Nat) (y : Spec.Exp α), l[i]? = some y → y.id = (n + 1) + i := by
          intro i y hy
          have := hi (i + 1) y (by simpa using hy)
          omega
        cases k with
        | zero =>
          have : l.filter (fun y => decide (y.id ≠ n + 0)) = l := by
            rw [List.filter_eq_self]
            intro y hy
            obtain ⟨i, hy⟩ := List.mem_iff_getElem?.mp hy
            have := ht i y hy
            simp; omega
          simp [hx] at this ⊢
          exact this
        | succ k =>
          have := ih (n + 1) ht k
          have e1 : n + 1 + k = n + (k + 1) := by omega
          rw [e1] at this
          rw [List.filter_cons, this]
          simp [hx]
    have := key S.exps 0 (by intro i x hx; rw [h.ids i x hx]; omega) e
    simpa using this
  simp only [lessen, rest, List.length_map, this, List.length_eraseIdx, if_pos hl]

theorem lessen_small {S : Spec.State α} (h : Ok e S) (hl : S.exps.length ≤ e) : lessen e S = S := by
  have : ∀ x ∈ S.exps, x.id < e := by
    intro x hx
    obtain ⟨i, hi⟩ := List.mem_iff_getElem?.mp hx
    have h1 := h.ids i x hi
    have h2 := (List.getElem?_eq_some_iff.mp hi).1
    omega
  have h2 : rest e S.exps = S.exps := by
    rw [rest_of_ne (fun x hx => by have := this x hx; omega)]
    conv => rhs; rw [← List.map_id S.exps]
    apply List.map_congr_left
    intro x hx
    have := this x hx
    unfold re down
    rw [if_neg (by omega)]
    rfl
  unfold lessen
  rw [h2]

theorem find_lessen {k : Nat} (hk : k ≠ e) (l : List (Spec.Exp α)) :
    (rest e l).find? (fun x => x.id == down e k && x.alive) = (l.find? (fun x => x.id == k && x.alive)).map (re e) := by
  induction l with
  | nil => rfl
  | cons x l ih =>
    by_cases hx : x.id = e
    · have h1 : rest e (x :: l) = rest e l := by simp [rest, hx]
      have h2 : (x.id == k) = false := by simp; omega
      rw [h1, ih, List.find?_cons, h2]
      rfl
    · have h1 : rest e (x :: l) = re e x :: rest e l := by simp [rest, hx]
      have h2 : ((re e x).id == down e k) = (x.id == k) := by
        rw [Bool.eq_iff_iff]
        simp only [beq_iff_eq]
        exact Unused.down_inj hx hk
      have h3 : (re e x).alive = x.alive := rfl
      rw [h1, List.find?_cons, List.find?_cons, h2, h3, ih]
      split <;> rfl

/-- One step. -/
theorem step_lessen {S : Spec.State α} (h : Ok e S) {op : Op α} {T : Spec.State α} {ev : List Event} (hT : Ok e T)
    (hs : S.step op = some (T, ev)) :
    ((Event.created e ∈ ev ∨ Unused.op e op = none) ∧ lessen e T = lessen e S) ∨
    (Event.created e ∉ ev ∧ ∃ op' ev', Unused.op e op = some op' ∧ (lessen e S).step op' = some (lessen e T, ev') ∧
      ev'.filterMap verdict = brief e ev) := by
  have hh : (lessen e S).hasHandle = S.hasHandle := rfl
  cases op with
  | newSequence st =>
    simp only [Spec.State.step, Option.some.injEq, Prod.mk.injEq] at hs
    obtain ⟨rfl, rfl⟩ := hs
    exact .inr ⟨by simp, _, _, rfl, rfl, rfl⟩
  | newMock =>
    simp only [Spec.State.step, Option.some.injEq, Prod.mk.injEq] at hs
    obtain ⟨rfl, rfl⟩ := hs
    exact .inr ⟨by simp, _, _, rfl, rfl, rfl⟩
  | dropSequence s =>
    simp only [Spec.State.step] at hs
    split at hs
    · rename_i hc
      simp only [Option.some.injEq, Prod.mk.injEq] at hs
      obtain ⟨rfl, rfl⟩ := hs
      refine .inr ⟨?_, _, ((lessen e { S with seqs := S.seqs.modify s (fun q => { q with handle := false }) }).release [s]), rfl, ?_, ?_⟩
      · intro hm
        have := (release_verdict (e := e + 1) { S with seqs := S.seqs.modify s (fun q => { q with handle := false }) } [s]).1
        rw [List.filterMap_eq_nil_iff] at this
        have := this _ hm
        simp [verdict] at this
      · simp only [Spec.State.step, hh, if_pos hc]
        rfl
      · rw [(release_verdict (e := e) _ _).1, (release_verdict _ _).2]
    · cases hs
  | call m a =>
    simp only [Spec.State.step] at hs
    split at hs
    · rename_i hc
      simp only [Option.some.injEq, Prod.mk.injEq] at hs
      obtain ⟨rfl, rfl⟩ := hs
      obtain ⟨h1, h2⟩ := call_lessen h m a
      refine .inr ⟨?_, .call m a, ((lessen e S).call m a).2.1, rfl, ?_, h2⟩
      · rw [Kinds.call_outcome]
        generalize ((S.candidates m).filter (·.accepts a)).filter S.applicable = L
        cases L with
        | nil => simp only [Kinds.outcome]; split <;> simp
        | cons x l => simp [Kinds.outcome]
      · simp only [Spec.State.step, if_pos (show m < (lessen e S).mocks from hc), ← h1]
    · cases hs
  | expect m min max tags ps =>
    simp only [Spec.State.step] at hs
    split at hs
    · rename_i hc
      split at hs
      · rename_i hv
        simp only [Option.some.injEq, Prod.mk.injEq] at hs
        obtain ⟨rfl, rfl⟩ := hs
        by_cases hl : S.exps.length = e
        · refine .inl ⟨.inl (by simp [hl]), ?_⟩
          simp [lessen, rest, hl]
        · refine .inr ⟨by simp; omega, .expect m min max tags ps, [.created (lessen e S).exps.length], rfl, ?_, ?_⟩
          · simp only [Spec.State.step, hh, if_pos (show m < (lessen e S).mocks ∧ _ from hc), if_pos hv, Option.some.injEq, Prod.mk.injEq, and_true]
            simp only [lessen, Spec.State.mk.injEq, true_and, and_true]
            unfold rest
            simp only [List.filter_append, List.map_append]
            congr 1
            have : down e S.exps.length = (lessen e S).exps.length := by
              by_cases hlt : e < S.exps.length
              · rw [length_lessen h hlt]; unfold down; rw [if_pos hlt]
              · rw [lessen_small h (by omega)]; unfold down; rw [if_neg hlt]
            simp only [lessen, rest] at this
            simp [hl, re, this]
          · have : down e S.exps.length = (lessen e S).exps.length := by
              by_cases hlt : e < S.exps.length
              · rw [length_lessen h hlt]; unfold down; rw [if_pos hlt]
              · rw [lessen_small h (by omega)]; unfold down; rw [if_neg hlt]
            simp [verdict, brief, Unused.event, hl, this]
      · rename_i hv
        simp only [Option.some.injEq, Prod.mk.injEq] at hs
        obtain ⟨rfl, rfl⟩ := hs
        refine .inr ⟨by simp, .expect m min max tags ps, [.rejected], rfl, ?_, rfl⟩
        simp only [Spec.State.step, hh, if_pos (show m < (lessen e S).mocks ∧ _ from hc), if_neg hv]
    · cases hs
  | destroy k =>
    simp only [Spec.State.step] at hs
    split at hs
    · cases hs
    · rename_i x hx
      simp only [Option.some.injEq, Prod.mk.injEq] at hs
      obtain ⟨rfl, rfl⟩ := hs
      by_cases hk : k = e
      · subst hk
        exact .inl ⟨.inr (by simp [Unused.op]), withdraw_same S⟩
      · refine .inr ⟨?_, .destroy (down e k), .destroyed (down e k) :: (if x.unfulfilled || !(x.policies.all (·.isSatisfied)) then
            [Event.unfulfilled (down e k)] else []) ++ (lessen e (S.withdraw k)).release x.seqs, by simp [Unused.op, hk], ?_, ?_⟩
        · intro hm
          rcases List.mem_append.mp hm with hm | hm
          · split at hm <;> simp at hm
          · have := (release_verdict (e := e + 1) (S.withdraw k) x.seqs).1
            rw [List.filterMap_eq_nil_iff] at this
            have := this _ hm
            simp [verdict] at this
        · have hf : (lessen e S).exps.find? (fun x => x.id == down e k && x.alive) = some (re e x) := by
            have := find_lessen hk S.exps
            rw [hx] at this
            exact this
          simp only [Spec.State.step, hf, withdraw_lessen S hk]
          rfl
        · rw [List.filterMap_append, brief_append, (release_verdict (e := e) _ _).1, (release_verdict _ _).2]
          split <;> simp [verdict, brief, Unused.event, hk]

theorem rest_length (l : List (Spec.Exp α)) : (rest e l).length ≤ l.length := by
  unfold rest
  rw [List.length_map]
  exact List.length_filter_le _ _

theorem full_lessen {S : Spec.State α} {op op' : Op α} (ho : Unused.op e op = some op') (h : ¬ S.full op) : ¬ (lessen e S).full op' := by
  cases op with
  | expect m min max tags ps =>
    simp only [Unused.op, Option.some.injEq] at ho
    subst ho
    rintro ⟨h1, h2, s, hs, h3⟩
    refine h ⟨h1, h2, s, hs, fun hc => h3 ?_⟩
    rw [attached_lessen]
    have := rest_length (e := e) (S.attached s)
    omega
  | destroy k =>
    simp only [Unused.op] at ho
    split at ho
    · cases ho
    · simp only [Option.some.injEq] at ho
      subst ho
      exact id
  | _ =>
    simp only [Unused.op, Option.some.injEq] at ho
    subst ho
    exact id

theorem Ok.of_reach {tr : Trace α} {w : World α} (h : Reach tr w) (hd : ∀ d, tr.decl e = some d → d.max = 0) : Ok e (abs w) where
  ids := (Finish.Good.of_reach h).ids
  forbids := by
    intro x hx hxe
    have h1 := h.view.1.ok x hx
    obtain ⟨d, h2, h3⟩ := h.view.2.get hx
    rw [hxe] at h2
    have h4 := hd d h2
    have h5 : x.max = d.max := by rw [h3]; rfl
    have := h1.min_le_max
    have := h1.count_le
    omega

theorem reach_lessen {tr : Trace α} {w : World α} (h : Reach tr w) (hd : ∀ d, tr.decl e = some d → d.max = 0) :
    ∃ tr' w', Reach tr' w' ∧ abs w' = lessen e (abs w) ∧ verdicts tr' = verdicts (Unused.without e tr) := by
  induction h with
  | init => exact ⟨[], _, .init, by rw [abs_init]; rfl, rfl⟩
  | @step tr w w1 op ev hr hs ih =>
    have hd' : ∀ d, tr.decl e = some d → d.max = 0 := fun d hx => hd d (decl_mono hx)
    obtain ⟨tr', w', h1, h2, h3⟩ := ih hd'
    have hsp := hr.spec_step hs
    rw [Unused.without_snoc]
    rcases step_lessen (Ok.of_reach hr hd') (Ok.of_reach (hr.step hs) hd) hsp with ⟨hc, he⟩ | ⟨hc, op', ev', ho, hst, hev⟩
    · refine ⟨tr', w', h1, by rw [h2, he], ?_⟩
      rw [h3]
      rcases hc with hc | hc
      · rw [if_pos hc, List.append_nil]
      · rw [hc]; split <;> simp
    · rw [← h2] at hst
      obtain ⟨w2, h4, h5⟩ := h1.step_of_spec hst (by rw [h2]; exact full_lessen ho (hr.not_full hs))
      refine ⟨tr' ++ [(op', ev')], w2, h1.step h4, h5, ?_⟩
      rw [if_neg hc, ho]
      simp only [verdicts, Option.map_some, Option.toList_some, List.map_append, List.map_cons, List.map_nil] at h3 ⊢
      rw [h3, hev]
      rfl

theorem kind_iff {tr : Trace α} {S : Spec.State α} (h : View tr S) (s : Nat) : (∃ st, tr.kind s st) ↔ s < S.seqs.length := by
  constructor
  · rintro ⟨st, hst⟩
    refine Classical.byContradiction fun hn => ?_
    exact (h.freshSeq s (by omega)).1 st hst
  · intro hs
    have := (h.seqs s _ (List.getElem?_eq_getElem hs)).1
    exact ⟨_, (this _).mpr rfl⟩

theorem ended_lessen {tr tr' : Trace α} {w w' : World α} (h : Reach tr w) (h' : Reach tr' w') (ha : abs w' = lessen e (abs w))
    (he : Event.destroyed e ∈ tr.events) (s : Nat) :
    ((∃ st, tr'.kind s st) ∧ ¬ tr'.referenced s) ↔ ((∃ st, tr.kind s st) ∧ ¬ tr.referenced s) := by
  rw [kind_iff h.view.2, kind_iff h'.view.2, ← h.view.2.owned_iff, ← h'.view.2.owned_iff, ha]
  have : (lessen e (abs w)).owned s = (abs w).owned s := by
    have hdead : ∀ x ∈ (abs w).exps, x.id = e → x.alive = false := by
      intro x hx hxe
      cases hal : x.alive with
      | false => rfl
      | true =>
        have := (h.view.2.live_iff e).mpr ⟨x, hx, hxe, hal⟩
        exact absurd he this.2
    unfold Spec.State.owned
    congr 1
    rw [Bool.eq_iff_iff, List.any_eq_true, List.any_eq_true]
    constructor
    · rintro ⟨y, hy, hc⟩
      obtain ⟨x, hx, -, rfl⟩ := mem_rest.mp hy
      exact ⟨x, hx, hc⟩
    · rintro ⟨x, hx, hc⟩
      refine ⟨re e x, mem_rest.mpr ⟨x, hx, ?_, rfl⟩, hc⟩
      intro hxe
      simp [hdead x hx hxe] at hc
  rw [this]
  rfl

theorem short_iff {tr : Trace α} {S : Spec.State α} (h : View tr S) (s : Nat) :
    (∃ k, tr.attached k s ∧ tr.tooFew k) ↔ ∃ x ∈ S.attached s, x.unfulfilled = true := by
  constructor
  · rintro ⟨k, ⟨d, h1, h2⟩, d', h3, h4⟩
    rw [h1, Option.some.injEq] at h3
    subst h3
    refine ⟨viewExp tr k d, List.mem_filter.mpr ⟨h.mem h1, by simpa [viewExp] using h2⟩, ?_⟩
    simpa [Spec.Exp.unfulfilled, viewExp] using h4
  · rintro ⟨x, hx, hu⟩
    obtain ⟨hx, hs⟩ := List.mem_filter.mp hx
    obtain ⟨d, h1, h2⟩ := h.get hx
    rw [h2] at hs hu
    refine ⟨x.id, ⟨d, h1, by simpa [viewExp] using hs⟩, d, h1, by simpa [Spec.Exp.unfulfilled, viewExp] using hu⟩

theorem short_lessen {tr tr' : Trace α} {w w' : World α} (h : Reach tr w) (h' : Reach tr' w') (ha : abs w' = lessen e (abs w))
    (hd : ∀ d, tr.decl e = some d → d.max = 0) (s : Nat) :
    (∃ k, tr'.attached k s ∧ tr'.tooFew k) ↔ ∃ k, tr.attached k s ∧ tr.tooFew k := by
  rw [short_iff h.view.2, short_iff h'.view.2, ha, attached_lessen]
  constructor
  · rintro ⟨y, hy, hu⟩
    obtain ⟨x, hx, -, rfl⟩ := mem_rest.mp hy
    exact ⟨x, hx, hu⟩
  · rintro ⟨x, hx, hu⟩
    refine ⟨re e x, mem_rest.mpr ⟨x, hx, ?_, rfl⟩, hu⟩
    intro hxe
    obtain ⟨h1, h2, h3⟩ := (Ok.of_reach h hd).forbids x (List.mem_filter.mp hx).1 hxe
    simp [Spec.Exp.unfulfilled, h3] at hu
    omega

end Mimic.Forbid
