import Verif.Proofs.Tell
import Verif.Proofs.Merge
import Verif.Proofs.Language

/-!
# Expectations that never accept a call

Only one thing about their limits matters: whether at least one call is demanded.
-/

set_option autoImplicit false

namespace Mimic.Tell

variable {α : Type}

/-- Expectation number `j` with other limits. -/
def limit (j : Nat) (lo hi : Int) (x : Spec.Exp α) : Spec.Exp α := if x.id = j then { x with min := lo, max := hi } else x

/-- The same for the state. -/
def relimit (j : Nat) (lo hi : Int) (S : Spec.State α) : Spec.State α := { S with exps := S.exps.map (limit j lo hi) }

/-- Expectation number `j` never accepts a call, and `lo` demands a call just if its lower limit does. -/
structure Quiet (j : Nat) (lo : Int) (S : Spec.State α) : Prop where
  never : ∀ x ∈ S.exps, x.id = j → ∀ a, x.accepts a = false
  zero : ∀ x ∈ S.exps, x.id = j → x.count = 0
  demand : ∀ x ∈ S.exps, x.id = j → (0 < x.min ↔ 0 < lo)
  known : j < S.exps.length

section limit

variable (j : Nat) (lo hi : Int)

theorem limit_of_ne {x : Spec.Exp α} (h : x.id ≠ j) : limit j lo hi x = x := by simp [limit, h]
theorem limit_id (x : Spec.Exp α) : (limit j lo hi x).id = x.id := by unfold limit; split <;> rfl
theorem limit_mock (x : Spec.Exp α) : (limit j lo hi x).mock = x.mock := by unfold limit; split <;> rfl
theorem limit_seqs (x : Spec.Exp α) : (limit j lo hi x).seqs = x.seqs := by unfold limit; split <;> rfl
theorem limit_policies (x : Spec.Exp α) : (limit j lo hi x).policies = x.policies := by unfold limit; split <;> rfl
theorem limit_count (x : Spec.Exp α) : (limit j lo hi x).count = x.count := by unfold limit; split <;> rfl
theorem limit_alive (x : Spec.Exp α) : (limit j lo hi x).alive = x.alive := by unfold limit; split <;> rfl
theorem limit_throws (x : Spec.Exp α) (a : α) : (limit j lo hi x).throws a = x.throws a := by
  unfold Spec.Exp.throws; rw [limit_policies]
theorem limit_accepts (x : Spec.Exp α) (a : α) : (limit j lo hi x).accepts a = x.accepts a := by
  unfold Spec.Exp.accepts; rw [limit_policies]

theorem filter_limit (p : Spec.Exp α → Bool) (hp : ∀ x, p (limit j lo hi x) = p x) (l : List (Spec.Exp α)) :
    (l.map (limit j lo hi)).filter p = (l.filter p).map (limit j lo hi) := by
  rw [List.filter_map]
  congr 1
  exact List.filter_congr fun x _ => hp x

end limit

variable {j : Nat} {lo hi : Int} {S : Spec.State α}

theorem attached_relimit (s : Nat) : (relimit j lo hi S).attached s = (S.attached s).map (limit j lo hi) :=
  filter_limit j lo hi _ (fun x => by rw [limit_seqs]) _

theorem Quiet.low (h : Quiet j lo S) {y : Spec.Exp α} (hy : y ∈ S.exps) :
    decide ((limit j lo hi y).min ≤ ((limit j lo hi y).count : Int)) = decide (y.min ≤ (y.count : Int)) := by
  by_cases hj : y.id = j
  · have h1 := h.zero y hy hj
    have h2 := h.demand y hy hj
    have h3 : limit j lo hi y = { y with min := lo, max := hi } := by simp [limit, hj]
    rw [h3]
    simp only [h1, decide_eq_decide]
    omega
  · rw [limit_of_ne j lo hi hj]

theorem Quiet.unfulfilled (h : Quiet j lo S) {y : Spec.Exp α} (hy : y ∈ S.exps) :
    (limit j lo hi y).unfulfilled = y.unfulfilled := by
  have := h.low (hi := hi) hy
  unfold Spec.Exp.unfulfilled
  simp only [decide_eq_decide] at this ⊢
  omega

theorem Quiet.applicable (h : Quiet j lo S) {x : Spec.Exp α} (hj : x.id ≠ j) :
    (relimit j lo hi S).applicable (limit j lo hi x) = S.applicable x := by
  rw [limit_of_ne j lo hi hj]
  unfold Spec.State.applicable
  congr 1
  rw [Bool.eq_iff_iff, List.all_eq_true, List.all_eq_true]
  refine forall_congr' fun s => imp_congr_right fun _ => ?_
  rw [attached_relimit, List.all_map]
  have : ∀ (l : List (Spec.Exp α)), (∀ y ∈ l, y ∈ S.exps) →
      l.all ((fun y => (!decide (y.id < x.id) || decide (y.min ≤ (y.count : Int))) && (!decide (x.id < y.id) || y.count == 0)) ∘
        limit j lo hi) =
      l.all (fun y => (!decide (y.id < x.id) || decide (y.min ≤ (y.count : Int))) && (!decide (x.id < y.id) || y.count == 0)) := by
    intro l hl
    induction l with
    | nil => rfl
    | cons y l ih =>
      simp only [List.all_cons]
      rw [ih (fun z hz => hl z (List.mem_cons_of_mem _ hz))]
      congr 1
      simp only [Function.comp]
      rw [h.low (hl y (List.mem_cons_self ..)), limit_id, limit_count]
  rw [this (S.attached s) (fun y hy => (List.mem_filter.mp hy).1)]

theorem candidates_relimit (m : Nat) : (relimit j lo hi S).candidates m = (S.candidates m).map (limit j lo hi) := by
  unfold Spec.State.candidates
  rw [List.map_reverse]
  congr 1
  exact filter_limit j lo hi _ (fun x => by rw [limit_alive, limit_mock]) _

theorem displaces_relimit (x y : Spec.Exp α) :
    (relimit j lo hi S).displaces (limit j lo hi y) (limit j lo hi x) = S.displaces y x := by
  unfold Spec.State.displaces Spec.State.kindCount
  rw [limit_seqs, limit_seqs]
  rfl

theorem select_relimit (x : Spec.Exp α) (ys : List (Spec.Exp α)) :
    (relimit j lo hi S).select (limit j lo hi x) (ys.map (limit j lo hi)) = limit j lo hi (S.select x ys) := by
  induction ys generalizing x with
  | nil => rfl
  | cons y ys ih =>
    simp only [List.map_cons, Spec.State.select, displaces_relimit]
    split
    · exact ih y
    · exact ih x

theorem select_mem (S : Spec.State α) (x : Spec.Exp α) (ys : List (Spec.Exp α)) : S.select x ys ∈ x :: ys := by
  induction ys generalizing x with
  | nil => simp [Spec.State.select]
  | cons y ys ih =>
    simp only [Spec.State.select]
    split
    · exact List.mem_cons_of_mem _ (ih y)
    · rcases List.mem_cons.mp (ih x) with h | h
      · rw [h]; simp
      · exact List.mem_cons_of_mem _ (List.mem_cons_of_mem _ h)

theorem countMatch_relimit (e : Nat) : (relimit j lo hi S).countMatch e = relimit j lo hi (S.countMatch e) := by
  unfold Spec.State.countMatch relimit
  simp only [List.map_map]
  congr 1
  refine List.map_congr_left fun x _ => ?_
  simp only [Function.comp, limit_id]
  by_cases h1 : x.id = e <;> by_cases h2 : x.id = j <;> simp [limit, h1, h2]
  all_goals (try subst h2)
  all_goals (try simp_all)

theorem withdraw_relimit (e : Nat) : (relimit j lo hi S).withdraw e = relimit j lo hi (S.withdraw e) := by
  unfold Spec.State.withdraw relimit
  simp only [List.map_map]
  congr 1
  refine List.map_congr_left fun x _ => ?_
  simp only [Function.comp, limit_id]
  by_cases h1 : x.id = e <;> by_cases h2 : x.id = j <;> simp [limit, h1, h2]
  all_goals (try subst h2)
  all_goals (try simp_all)

theorem owned_relimit (s : Nat) : (relimit j lo hi S).owned s = S.owned s := by
  unfold Spec.State.owned relimit
  congr 1
  simp only [List.any_map]
  congr 1
  funext x
  simp only [Function.comp, limit_alive, limit_seqs]

theorem Quiet.sequenceEnd (h : Quiet j lo S) (s : Nat) : (relimit j lo hi S).sequenceEnd s = S.sequenceEnd s := by
  unfold Spec.State.sequenceEnd
  rw [attached_relimit, List.length_map]
  have : ∀ l : List (Spec.Exp α), (∀ y ∈ l, y ∈ S.exps) →
      (l.map (limit j lo hi)).findIdx? (·.unfulfilled) = l.findIdx? (·.unfulfilled) := by
    intro l hl
    induction l with
    | nil => rfl
    | cons y l ih =>
      simp only [List.map_cons, List.findIdx?_cons]
      rw [ih (fun z hz => hl z (List.mem_cons_of_mem _ hz)), h.unfulfilled (hl y (List.mem_cons_self ..))]
  rw [this (S.attached s) (fun y hy => (List.mem_filter.mp hy).1)]

theorem Quiet.release (h : Quiet j lo S) (ss : List Nat) : (relimit j lo hi S).release ss = S.release ss := by
  unfold Spec.State.release
  congr 1
  funext s
  rw [owned_relimit, h.sequenceEnd]

/-- An expectation changes in what does not concern its requirements and limits. -/
theorem Quiet.map (h : Quiet j lo S) (f : Spec.Exp α → Spec.Exp α)
    (hf : ∀ x ∈ S.exps, (f x).id = x.id ∧ (f x).min = x.min ∧ (f x).policies = x.policies ∧ (x.id = j → (f x).count = x.count)) :
    Quiet j lo { S with exps := S.exps.map f } := by
  refine ⟨?_, ?_, ?_, by simpa using h.known⟩
  · intro x hx hj a
    obtain ⟨y, hy, rfl⟩ := List.mem_map.mp hx
    obtain ⟨f1, f2, f3, f4⟩ := hf y hy
    have := h.never y hy (by rw [← f1]; exact hj) a
    unfold Spec.Exp.accepts at this ⊢
    rw [f3]; exact this
  · intro x hx hj
    obtain ⟨y, hy, rfl⟩ := List.mem_map.mp hx
    obtain ⟨f1, f2, f3, f4⟩ := hf y hy
    rw [f4 (by rw [← f1]; exact hj)]
    exact h.zero y hy (by rw [← f1]; exact hj)
  · intro x hx hj
    obtain ⟨y, hy, rfl⟩ := List.mem_map.mp hx
    obtain ⟨f1, f2, f3, f4⟩ := hf y hy
    rw [f2]
    exact h.demand y hy (by rw [← f1]; exact hj)

theorem Quiet.withdraw (h : Quiet j lo S) (e : Nat) : Quiet j lo (S.withdraw e) :=
  h.map _ fun x _ => by split <;> simp

theorem Quiet.call (h : Quiet j lo S) (m : Nat) (a : α) :
    (relimit j lo hi S).call m a = (relimit j lo hi (S.call m a).1, (S.call m a).2) ∧ Quiet j lo (S.call m a).1 := by
  have hacc : ((relimit j lo hi S).candidates m).filter (·.accepts a) = ((S.candidates m).filter (·.accepts a)).map (limit j lo hi) := by
    rw [candidates_relimit]
    exact filter_limit j lo hi _ (fun x => limit_accepts j lo hi x a) _
  have hthr : (((relimit j lo hi S).candidates m).filter (·.throws a)).map (fun x => Event.unhandled x.id) =
      ((S.candidates m).filter (·.throws a)).map (fun x => Event.unhandled x.id) := by
    rw [candidates_relimit, filter_limit j lo hi _ (fun x => limit_throws j lo hi x a), List.map_map]
    exact List.map_congr_left fun x _ => by simp only [Function.comp, limit_id]
  have hnot : (((relimit j lo hi S).candidates m).filter (fun x => !x.throws a)).map (·.id) =
      ((S.candidates m).filter (fun x => !x.throws a)).map (·.id) := by
    rw [candidates_relimit, filter_limit j lo hi (fun x => !x.throws a) (fun x => by rw [limit_throws j lo hi x a]), List.map_map]
    exact List.map_congr_left fun x _ => by simp only [Function.comp, limit_id]
  have hin : ∀ x ∈ (S.candidates m).filter (·.accepts a), x ∈ S.exps ∧ x.id ≠ j := by
    intro x hx
    obtain ⟨h1, h2⟩ := List.mem_filter.mp hx
    have hm : x ∈ S.exps := (List.mem_filter.mp (List.mem_reverse.mp h1)).1
    refine ⟨hm, fun hj => ?_⟩
    rw [h.never x hm hj a] at h2
    cases h2
  have happ : (((S.candidates m).filter (·.accepts a)).map (limit j lo hi)).filter (relimit j lo hi S).applicable =
      (((S.candidates m).filter (·.accepts a)).filter S.applicable).map (limit j lo hi) := by
    rw [List.filter_map]
    congr 1
    exact List.filter_congr fun x hx => h.applicable (hin x hx).2
  have hids : ∀ l : List (Spec.Exp α), (l.map (limit j lo hi)).map (·.id) = l.map (·.id) := by
    intro l
    rw [List.map_map]
    exact List.map_congr_left fun x _ => by simp only [Function.comp, limit_id]
  unfold Spec.State.call
  simp only [hacc, hthr, hnot, happ]
  cases hc : ((S.candidates m).filter (·.accepts a)).filter S.applicable with
  | nil =>
    simp only [List.map_nil, List.isEmpty_map, hids]
    split
    · exact ⟨rfl, h⟩
    · exact ⟨rfl, h⟩
  | cons x older =>
    simp only [List.map_cons, select_relimit, limit_id, countMatch_relimit, true_and]
    refine h.map _ fun y hy => ?_
    split
    · rename_i he
      refine ⟨rfl, rfl, rfl, fun hj => ?_⟩
      have hs := select_mem S x older
      rw [← hc] at hs
      exact absurd (he.symm.trans hj) (hin _ (List.mem_filter.mp hs).1).2
    · exact ⟨rfl, rfl, rfl, fun _ => rfl⟩

/-- Other limits of an expectation that never accepts a call change nothing. -/
theorem Quiet.step (h : Quiet j lo S) (o : Op α) :
    (relimit j lo hi S).step o = (S.step o).map (fun r => (relimit j lo hi r.1, r.2)) ∧
      (∀ T ev, S.step o = some (T, ev) → Quiet j lo T) ∧ ((relimit j lo hi S).full o ↔ S.full o) := by
  have hlen : (relimit j lo hi S).exps.length = S.exps.length := by simp [relimit]
  cases o with
  | newSequence st =>
    refine ⟨rfl, fun T ev ht => ?_, Iff.rfl⟩
    simp only [Spec.State.step, Option.some.injEq, Prod.mk.injEq] at ht
    obtain ⟨rfl, -⟩ := ht
    exact ⟨h.never, h.zero, h.demand, h.known⟩
  | newMock =>
    refine ⟨rfl, fun T ev ht => ?_, Iff.rfl⟩
    simp only [Spec.State.step, Option.some.injEq, Prod.mk.injEq] at ht
    obtain ⟨rfl, -⟩ := ht
    exact ⟨h.never, h.zero, h.demand, h.known⟩
  | dropSequence s =>
    have hq : Quiet j lo { S with seqs := S.seqs.modify s (fun q => { q with handle := false }) } :=
      ⟨h.never, h.zero, h.demand, h.known⟩
    refine ⟨?_, fun T ev ht => ?_, Iff.rfl⟩
    · simp only [Spec.State.step]
      have : (relimit j lo hi S).hasHandle s = S.hasHandle s := rfl
      rw [this]
      split
      · simp only [Option.map_some, Option.some.injEq, Prod.mk.injEq]
        exact ⟨rfl, hq.release (hi := hi) [s]⟩
      · rfl
    · simp only [Spec.State.step] at ht
      split at ht
      · simp only [Option.some.injEq, Prod.mk.injEq] at ht
        rw [← ht.1]; exact hq
      · cases ht
  | expect m min max tags ps =>
    refine ⟨?_, fun T ev ht => ?_, ?_⟩
    · simp only [Spec.State.step, hlen]
      have h1 : (relimit j lo hi S).hasHandle = S.hasHandle := rfl
      have h2 : (relimit j lo hi S).mocks = S.mocks := rfl
      rw [h1, h2]
      split
      · split
        · simp only [Option.map_some, Option.some.injEq, Prod.mk.injEq, and_true]
          simp only [relimit, List.map_append, List.map_cons, List.map_nil]
          rw [limit_of_ne]
          simpa using (Nat.ne_of_gt h.known)
        · rfl
      · rfl
    · simp only [Spec.State.step] at ht
      split at ht
      · split at ht
        · simp only [Option.some.injEq, Prod.mk.injEq] at ht
          rw [← ht.1]
          have key : ∀ x ∈ S.exps ++ [({ id := S.exps.length, mock := m, min := min, max := max, seqs := tags, policies := ps, count := 0, alive := true } : Spec.Exp α)], x.id = j → x ∈ S.exps := by
            intro x hx hj
            rcases List.mem_append.mp hx with h' | h'
            · exact h'
            · rw [List.mem_singleton.mp h'] at hj
              exact absurd hj (Nat.ne_of_gt h.known)
          exact ⟨fun x hx hj => h.never x (key x hx hj) hj, fun x hx hj => h.zero x (key x hx hj) hj,
            fun x hx hj => h.demand x (key x hx hj) hj, by have := h.known; simp; omega⟩
        · simp only [Option.some.injEq, Prod.mk.injEq] at ht
          rw [← ht.1]; exact h
      · cases ht
    · simp only [Spec.State.full, attached_relimit, List.length_map]
  | call m a =>
    obtain ⟨h1, h2⟩ := h.call (hi := hi) m a
    refine ⟨?_, fun T ev ht => ?_, Iff.rfl⟩
    · simp only [Spec.State.step, h1]
      have : (relimit j lo hi S).mocks = S.mocks := rfl
      rw [this]
      split <;> rfl
    · simp only [Spec.State.step] at ht
      split at ht
      · simp only [Option.some.injEq, Prod.mk.injEq] at ht
        rw [← ht.1]; exact h2
      · cases ht
  | destroy e =>
    have hfind : (relimit j lo hi S).exps.find? (fun x => x.id == e && x.alive) =
        (S.exps.find? (fun x => x.id == e && x.alive)).map (limit j lo hi) := by
      simp only [relimit, List.find?_map]
      congr 2
      funext x
      simp only [Function.comp, limit_id, limit_alive]
    refine ⟨?_, fun T ev ht => ?_, Iff.rfl⟩
    · simp only [Spec.State.step, hfind]
      cases hx : S.exps.find? (fun x => x.id == e && x.alive) with
      | none => rfl
      | some x =>
        simp only [Option.map_some, withdraw_relimit, limit_policies, limit_seqs, (h.withdraw e).release]
        rw [h.unfulfilled (List.mem_of_find?_eq_some hx)]
    · simp only [Spec.State.step] at ht
      split at ht
      · cases ht
      · simp only [Option.some.injEq, Prod.mk.injEq] at ht
        rw [← ht.1]; exact h.withdraw e

theorem Quiet.run (h : Quiet j lo S) (ops : List (Op α)) {T : Spec.State α} {evs : List Event} (hg : Go S ops evs T) :
    Go (relimit j lo hi S) ops evs (relimit j lo hi T) := by
  induction ops generalizing S evs with
  | nil =>
    have h1 := hg.1
    simp only [Spec.State.run, Option.some.injEq, Prod.mk.injEq] at h1
    obtain ⟨rfl, rfl⟩ := h1
    exact .nil _
  | cons o ops ih =>
    obtain ⟨h1, h2, h3⟩ := hg
    simp only [Spec.State.run] at h1
    cases hs : S.step o with
    | none => simp [hs] at h1
    | some v =>
      obtain ⟨S₁, ev⟩ := v
      simp only [hs] at h1
      cases hr : S₁.run ops with
      | none => simp [hr] at h1
      | some v =>
        obtain ⟨S₂, ev'⟩ := v
        simp only [hr, Option.some.injEq, Prod.mk.injEq] at h1
        obtain ⟨rfl, rfl⟩ := h1
        obtain ⟨q1, q2, q3⟩ := h.step (hi := hi) o
        exact Go.cons (by rw [q1, hs]; rfl) (fun hf => h2 (q3.mp hf)) (ih (q2 _ _ hs) ⟨hr, h3 S₁ ev hs⟩)

theorem Go.split {S S'' : Spec.State α} {ops ops' : List (Op α)} {evs : List Event} (h : Go S (ops ++ ops') evs S'') :
    ∃ S' ev ev', Go S ops ev S' ∧ Go S' ops' ev' S'' ∧ evs = ev ++ ev' := by
  obtain ⟨S', ev, ev', h1, h2, h3⟩ := Language.spec_run_append h.1
  obtain ⟨f1, f2⟩ := (Merge.fits_append h1).mp h.2
  exact ⟨S', ev, ev', ⟨h1, f1⟩, ⟨h2, f2⟩, h3⟩

theorem Go.of_program {ops : List (Op α)} {evs : List Event} {w : World α} (h : runProgram ops = .ok (w, evs)) :
    ∃ S, Go Spec.State.init ops evs S := by
  obtain ⟨⟨S, h1⟩, h2⟩ := (run_iff_spec (tr := []) (w := World.init) .init (ops := ops) (evs := evs)).mp ⟨w, h⟩
  exact ⟨S, h1, h2⟩

/-- The limits of a declaration that accepts no call may be replaced. -/
theorem quiet_replaceable {d : Decl α} {lo hi : Int} (hd : Proper d) (hd' : Proper { d with min := lo, max := hi })
    (hn : ∀ a, Policy.says d.policies a ≠ some true) (hz : d.min = 0 ↔ lo = 0) : Replaceable d { d with min := lo, max := hi } := by
  intro before after w evs h
  obtain ⟨S, hg⟩ := Go.of_program h
  obtain ⟨S₀, ev₀, ev₁, g1, g2, rfl⟩ := hg.split
  have hids : ∀ x ∈ S₀.exps, x.id ≠ S₀.exps.length := by
    obtain ⟨w₀, hw₀⟩ := g1.program
    obtain ⟨tr, hr, ht, hev⟩ := (runProgram_iff _ _ _).mp hw₀
    have : abs w₀ = S₀ := by
      have h1 := Language.reach_spec_run hr
      rw [ht] at h1
      have h2 := g1.1
      rw [h1] at h2
      simp only [Option.some.injEq, Prod.mk.injEq] at h2
      exact h2.1
    intro x hx
    rw [← this, abs_exps_length]
    rw [← this] at hx
    obtain ⟨y, hy, -⟩ := (abs_mem_iff w₀ x).mp hx
    exact Nat.ne_of_lt (List.getElem?_eq_some_iff.mp hy).1
  have g2' : Go S₀ ([op d] ++ after) ev₁ S := g2
  obtain ⟨S₁, e1, e2, k1, k2, rfl⟩ := g2'.split
  obtain ⟨a1, a2, -⟩ := k1
  simp only [Spec.State.run] at a1
  cases hs : S₀.step (op d) with
  | none => simp [hs] at a1
  | some v =>
    obtain ⟨S₂, ev⟩ := v
    simp only [hs, Option.some.injEq, Prod.mk.injEq, List.append_nil] at a1
    obtain ⟨rfl, rfl⟩ := a1
    have hint : isInt lo = true ∧ isInt hi = true := by
      have h1 : 0 ≤ lo := hd'.low; have h2 : lo ≤ hi := hd'.order; have h3 : hi ≤ 2147483647 := hd'.high
      simp only [isInt, Bool.and_eq_true, decide_eq_true_eq]
      unfold intMin intMax at *
      omega
    simp only [op, Spec.State.step] at hs
    split at hs
    · rename_i hc
      rw [if_pos ⟨⟨hd.low, hd.order⟩, hd.distinct⟩] at hs
      simp only [Option.some.injEq, Prod.mk.injEq] at hs
      obtain ⟨rfl, rfl⟩ := hs
      have hstep : S₀.step (op { d with min := lo, max := hi }) =
          some (relimit S₀.exps.length lo hi { S₀ with exps := S₀.exps ++ [{ id := S₀.exps.length, mock := d.mock, min := d.min, max := d.max, seqs := d.seqs, policies := d.policies, count := 0, alive := true }] }, [.created S₀.exps.length]) := by
        simp only [op, Spec.State.step]
        rw [if_pos ⟨hc.1, hc.2.1, hint.1, hint.2⟩, if_pos ⟨⟨hd'.low, hd'.order⟩, hd.distinct⟩]
        simp only [relimit, List.map_append, List.map_cons, List.map_nil, limit, if_true, Option.some.injEq, Prod.mk.injEq, and_true]
        congr 2
        conv => lhs; rw [← List.map_id S₀.exps]
        exact List.map_congr_left fun x hx => by rw [limit_of_ne _ _ _ (hids x hx)]; rfl
      have hquiet : Quiet S₀.exps.length lo { S₀ with exps := S₀.exps ++ [{ id := S₀.exps.length, mock := d.mock, min := d.min, max := d.max, seqs := d.seqs, policies := d.policies, count := 0, alive := true }] } := by
        have key : ∀ x ∈ S₀.exps ++ [({ id := S₀.exps.length, mock := d.mock, min := d.min, max := d.max, seqs := d.seqs, policies := d.policies, count := 0, alive := true } : Spec.Exp α)], x.id = S₀.exps.length → x = entry S₀.exps.length d 0 true := by
          intro x hx hj
          rcases List.mem_append.mp hx with h' | h'
          · exact absurd hj (hids x h')
          · exact List.mem_singleton.mp h'
        refine ⟨fun x hx hj a => ?_, fun x hx hj => ?_, fun x hx hj => ?_, by simp⟩
        · rw [key x hx hj]
          obtain ⟨s1, s2, s3⟩ := says_cases d S₀.exps.length 0 true a
          cases hp : Policy.says d.policies a with
          | none => exact (s1 hp).2
          | some b =>
            cases b with
            | false => exact (s2 hp).2
            | true => exact absurd hp (hn a)
        · rw [key x hx hj]; rfl
        · rw [key x hx hj]
          have h1 := hd.low; have h2 : 0 ≤ lo := hd'.low
          simp only [entry]
          omega
      have hall := g1.append (Go.cons hstep ?_ (hquiet.run after k2))
      · obtain ⟨w', hw'⟩ := hall.program
        exact ⟨w', _, hw', .refl _⟩
      · intro hf
        apply a2
        simp only [op, Spec.State.full] at hf ⊢
        exact ⟨⟨hd.low, hd.order⟩, hf.2⟩
    · cases hs

theorem Replaceable.trans {d d' d'' : Decl α} (h : Replaceable d d') (h' : Replaceable d' d'') : Replaceable d d'' := by
  intro before after w evs hr
  obtain ⟨w1, ev1, h1, p1⟩ := h _ _ _ _ hr
  obtain ⟨w2, ev2, h2, p2⟩ := h' _ _ _ _ h1
  exact ⟨w2, ev2, h2, p1.trans p2⟩

theorem says_of_answers {d d' : Decl α} (hm : d.mock = d'.mock) (h : ∀ a, (answer d d.mock a).Perm (answer d' d.mock a)) (a : α) :
    Policy.says d.policies a = Policy.says d'.policies a := by
  have key := fun ev => (h a).mem_iff (a := ev)
  unfold answer at key
  rw [if_pos rfl, if_pos hm.symm] at key
  have k1 := key (.noMatch [])
  have k2 := key (.noMatch [0])
  cases hp : Policy.says d.policies a with
  | none =>
    cases hp' : Policy.says d'.policies a with
    | none => rfl
    | some b =>
      rw [hp, hp'] at k1
      cases b
      · simp at k1
      · by_cases hz : 0 < d'.max <;> simp [hz] at k1
  | some b =>
    cases hp' : Policy.says d'.policies a with
    | none =>
      rw [hp, hp'] at k1
      cases b
      · simp at k1
      · by_cases hz : 0 < d.max <;> simp [hz] at k1
    | some b' =>
      rw [hp, hp'] at k2
      cases b <;> cases b'
      · rfl
      · by_cases hz : 0 < d'.max <;> simp [hz] at k2
      · by_cases hz : 0 < d.max <;> simp [hz] at k2
      · rfl

end Mimic.Tell
