import Verif.Spec.Declare
import Verif.Spec.Language
import Verif.Proofs.TellQuiet
import Verif.Proofs.Merge

/-!
# Lemmas about the order of declarations
-/

set_option autoImplicit false

namespace Mimic.Declare

open Mimic.Tell

variable {α : Type}

theorem swap_swap (j k : Nat) : swap j (swap j k) = k := by unfold swap; grind
theorem swap_inj (j : Nat) {a b : Nat} (h : swap j a = swap j b) : a = b := by
  rw [← swap_swap j a, h, swap_swap]
theorem swap_lt (j : Nat) {a b : Nat} (h : ¬ (a = j ∧ b = j + 1)) (h' : ¬ (a = j + 1 ∧ b = j)) : swap j a < swap j b ↔ a < b := by
  unfold swap; grind

theorem Same.append {j : Nat} {a a' b b' : List Event} (h : Same j a a') (h' : Same j b b') : Same j (a ++ b) (a' ++ b') := by
  induction h with
  | nil => exact h'
  | cons h1 h2 h3 _ ih =>
    rw [List.append_assoc, List.append_assoc]
    exact .cons h1 h2 h3 ih

theorem Same.map (j : Nat) (l : List Event) : Same j l (l.map (rename j)) := by
  induction l with
  | nil => exact .nil
  | cons x l ih => exact .cons (us := []) (us' := []) (by simp) (by simp) (.same x) ih

theorem failure_rename (j : Nat) (x : Event) : Language.failure (rename j x) = Language.failure x := by
  cases x <;> rfl

theorem Like.failure {j : Nat} {x y : Event} (h : Like j x y) : Language.failure y = Language.failure x := by
  cases h with
  | same => exact failure_rename j x
  | noMatch _ => rfl

theorem Same.passes {j : Nat} {evs evs' : List Event} (h : Same j evs evs') : Language.passes evs ↔ Language.passes evs' := by
  induction h with
  | nil => exact Iff.rfl
  | @cons us us' evs evs' x y h1 h2 h3 _ ih =>
    have hu : ∀ u ∈ us, Language.failure u = false := fun u hu => by obtain ⟨e, rfl⟩ := h1 u hu; rfl
    have hu' : ∀ u ∈ us', Language.failure u = false := fun u hm => by
      obtain ⟨v, hv, rfl⟩ := List.mem_map.mp (h2.mem_iff.mp hm)
      rw [failure_rename]; exact hu v hv
    unfold Language.passes at ih ⊢
    have hxy := h3.failure
    constructor
    · intro h ev hm
      rcases List.mem_append.mp hm with hm | hm
      · exact hu' ev hm
      · rcases List.mem_cons.mp hm with rfl | hm
        · rw [hxy]; exact h x (by simp)
        · exact ih.mp (fun z hz => h z (by simp [hz])) ev hm
    · intro h ev hm
      rcases List.mem_append.mp hm with hm | hm
      · exact hu ev hm
      · rcases List.mem_cons.mp hm with rfl | hm
        · rw [← hxy]; exact h y (by simp)
        · exact ih.mpr (fun z hz => h z (by simp [hz])) ev hm

/-! ## The states -/

/-- The expectation with its other number. -/
def other (j : Nat) (x : Spec.Exp α) : Spec.Exp α := { x with id := swap j x.id }

/-- The two states during the tests. -/
structure Swapped (j : Nat) (S S' : Spec.State α) (pre : List (Spec.Exp α)) (A B : Spec.Exp α) (post : List (Spec.Exp α)) : Prop where
  seqs : S'.seqs = S.seqs
  mocks : S'.mocks = S.mocks
  exps : S.exps = pre ++ A :: B :: post
  exps' : S'.exps = pre ++ other j B :: other j A :: post
  len : pre.length = j
  ida : A.id = j
  idb : B.id = j + 1
  below : ∀ x ∈ pre, x.id < j
  above : ∀ x ∈ post, j + 1 < x.id
  apart : ∀ s ∈ A.seqs, s ∉ B.seqs
  calls : A.mock = B.mock → ∀ a, ¬ (A.accepts a = true ∧ B.accepts a = true)

variable {j : Nat} {S S' : Spec.State α} {pre post : List (Spec.Exp α)} {A B : Spec.Exp α}

theorem other_of_ne {x : Spec.Exp α} (h : x.id ≠ j) (h' : x.id ≠ j + 1) : other j x = x := by
  simp [other, swap, h, h']

theorem Swapped.map_other {l : List (Spec.Exp α)} (h : ∀ x ∈ l, x.id ≠ j ∧ x.id ≠ j + 1) : l.map (other j) = l := by
  conv => rhs; rw [← List.map_id l]
  exact List.map_congr_left fun x hx => other_of_ne (h x hx).1 (h x hx).2

theorem Swapped.map_pre (h : Swapped j S S' pre A B post) : pre.map (other j) = pre :=
  map_other fun x hx => by have := h.below x hx; omega

theorem Swapped.map_post (h : Swapped j S S' pre A B post) : post.map (other j) = post :=
  map_other fun x hx => by have := h.above x hx; omega

theorem Swapped.mem (h : Swapped j S S' pre A B post) {x : Spec.Exp α} (hx : x ∈ S.exps) :
    x = A ∨ x = B ∨ (x.id ≠ j ∧ x.id ≠ j + 1) := by
  rw [h.exps] at hx
  simp only [List.mem_append, List.mem_cons] at hx
  rcases hx with hx | rfl | rfl | hx
  · have := h.below x hx; exact .inr (.inr (by omega))
  · exact .inl rfl
  · exact .inr (.inl rfl)
  · have := h.above x hx; exact .inr (.inr (by omega))

/-- What concerns only one of the two. -/
theorem Swapped.filter_one (h : Swapped j S S' pre A B post) (p p' : Spec.Exp α → Bool) (hp : ∀ x, p' (other j x) = p x)
    (hn : ¬ (p A = true ∧ p B = true)) : S'.exps.filter p' = (S.exps.filter p).map (other j) := by
  have hf : ∀ l : List (Spec.Exp α), (l.filter p).map (other j) = (l.map (other j)).filter p' := fun l => by
    rw [List.filter_map]
    congr 1
    exact List.filter_congr fun x _ => (hp x).symm
  rw [h.exps, h.exps']
  simp only [List.filter_append, List.filter_cons, hp, List.map_append, hf pre, h.map_pre]
  by_cases ha : p A = true
  · have hb : ¬ p B = true := fun hb => hn ⟨ha, hb⟩
    simp only [ha, hb, if_true, Bool.false_eq_true, ↓reduceIte, List.map_cons, hf post, h.map_post]
  · by_cases hb : p B = true
    · simp only [ha, hb, if_true, Bool.false_eq_true, ↓reduceIte, List.map_cons, hf post, h.map_post]
    · simp only [ha, hb, Bool.false_eq_true, ↓reduceIte, hf post, h.map_post]

/-- What may concern both. -/
theorem Swapped.filter_perm (h : Swapped j S S' pre A B post) (p : Spec.Exp α → Bool) (hp : ∀ x, p (other j x) = p x) :
    (S'.exps.filter p).Perm ((S.exps.filter p).map (other j)) := by
  have hf : ∀ l : List (Spec.Exp α), (l.map (other j)).filter p = (l.filter p).map (other j) := fun l => by
    rw [List.filter_map]
    congr 1
    exact List.filter_congr fun x _ => hp x
  rw [← hf]
  apply List.Perm.filter
  rw [h.exps, h.exps']
  simp only [List.map_append, List.map_cons, h.map_pre, h.map_post]
  exact (List.Perm.swap ..).append_left pre

theorem Swapped.attached (h : Swapped j S S' pre A B post) (s : Nat) : S'.attached s = (S.attached s).map (other j) :=
  h.filter_one _ _ (fun _ => rfl) (by
    simp only [List.contains_iff_mem]
    exact fun hs => h.apart s hs.1 hs.2)

theorem Swapped.applicable (h : Swapped j S S' pre A B post) {x : Spec.Exp α} (hx : x ∈ S.exps) :
    S'.applicable (other j x) = S.applicable x := by
  unfold Spec.State.applicable
  have h1 : decide (((other j x).count : Int) < (other j x).max) = decide ((x.count : Int) < x.max) := rfl
  rw [h1]
  congr 1
  rw [Bool.eq_iff_iff, List.all_eq_true, List.all_eq_true]
  refine forall_congr' fun s => imp_congr_right fun hs => ?_
  have hs : s ∈ x.seqs := hs
  rw [h.attached, List.all_map, List.all_eq_true, List.all_eq_true]
  refine forall_congr' fun y => imp_congr_right fun hy => ?_
  obtain ⟨hy1, hy2⟩ := List.mem_filter.mp hy
  have hy2 : s ∈ y.seqs := by simpa using hy2
  have hab : ¬ (x.id = j ∧ y.id = j + 1) := by
    rintro ⟨e1, e2⟩
    rcases h.mem hx with rfl | rfl | hx'
    · rcases h.mem hy1 with rfl | rfl | hy'
      · omega
      · exact h.apart s hs hy2
      · omega
    · have := h.idb; omega
    · omega
  have hba : ¬ (x.id = j + 1 ∧ y.id = j) := by
    rintro ⟨e1, e2⟩
    rcases h.mem hx with rfl | rfl | hx'
    · have := h.ida; omega
    · rcases h.mem hy1 with rfl | rfl | hy'
      · exact h.apart s hy2 hs
      · omega
      · omega
    · omega
  have e1 : (other j y).id < (other j x).id ↔ y.id < x.id := swap_lt j (fun ⟨a, b⟩ => hba ⟨b, a⟩) (fun ⟨a, b⟩ => hab ⟨b, a⟩)
  have e2 : (other j x).id < (other j y).id ↔ x.id < y.id := swap_lt j hab hba
  simp only [Function.comp, e1, e2]
  exact Iff.rfl

theorem Swapped.displaces (h : Swapped j S S' pre A B post) (x y : Spec.Exp α) :
    S'.displaces (other j y) (other j x) = S.displaces y x := by
  unfold Spec.State.displaces Spec.State.kindCount
  rw [h.seqs]
  rfl

theorem Swapped.select (h : Swapped j S S' pre A B post) (x : Spec.Exp α) (ys : List (Spec.Exp α)) :
    S'.select (other j x) (ys.map (other j)) = other j (S.select x ys) := by
  induction ys generalizing x with
  | nil => rfl
  | cons y ys ih =>
    simp only [List.map_cons, Spec.State.select, h.displaces]
    split
    · exact ih y
    · exact ih x

/-- A change of one expectation that does not concern its declaration. -/
theorem Swapped.change (h : Swapped j S S' pre A B post) (e : Nat) (f : Spec.Exp α → Spec.Exp α)
    (hf : ∀ x, (f x).id = x.id ∧ (f x).mock = x.mock ∧ (f x).seqs = x.seqs ∧ (f x).policies = x.policies)
    (ho : ∀ x, f (other j x) = other j (f x)) :
    ∃ pre' A' B' post', Swapped j { S with exps := S.exps.map (fun x => if x.id = e then f x else x) }
      { S' with exps := S'.exps.map (fun x => if x.id = swap j e then f x else x) } pre' A' B' post' := by
  let g := fun x : Spec.Exp α => if x.id = e then f x else x
  have gid : ∀ x, (g x).id = x.id := fun x => by simp only [g]; split <;> simp [hf]
  have gmock : ∀ x, (g x).mock = x.mock := fun x => by simp only [g]; split <;> simp [hf]
  have gseqs : ∀ x, (g x).seqs = x.seqs := fun x => by simp only [g]; split <;> simp [hf]
  have gpol : ∀ x, (g x).policies = x.policies := fun x => by simp only [g]; split <;> simp [hf]
  have gother : ∀ x : Spec.Exp α, (if (other j x).id = swap j e then f (other j x) else other j x) = other j (g x) := by
    intro x
    by_cases hx : x.id = e
    · have h1 : (other j x).id = swap j e := by rw [← hx]; rfl
      rw [if_pos h1]
      simp only [g, if_pos hx]
      exact ho x
    · have : (other j x).id ≠ swap j e := fun hc => hx (swap_inj j hc)
      simp [g, hx, this]
  refine ⟨pre.map g, g A, g B, post.map g, h.seqs, h.mocks, ?_, ?_, by simpa using h.len, by rw [gid]; exact h.ida, by rw [gid]; exact h.idb, ?_, ?_, ?_, ?_⟩
  · simp [h.exps, g]
  · have hl : ∀ l : List (Spec.Exp α), l.map (other j) = l →
        l.map (fun x => if x.id = swap j e then f x else x) = l.map g := by
      intro l hl
      have hl' : (l.map g).map (other j) = l.map g := by
        rw [List.map_map]
        have : ∀ x ∈ l, other j x = x := by
          intro x hx
          have := List.map_inj_left.mp (hl.trans (List.map_id l).symm) x hx
          exact this
        refine List.map_congr_left fun x hx => ?_
        have h1 := this x hx
        have h2 : swap j x.id = x.id := congrArg Spec.Exp.id h1
        simp only [Function.comp]
        have h3 : (other j (g x)).id = (g x).id := by
          change swap j (g x).id = (g x).id
          rw [gid, h2]
        have h4 : other j (g x) = { g x with id := swap j (g x).id } := rfl
        rw [h4, gid, h2]
        have := gid x
        cases hgx : g x
        rw [hgx] at this
        simp only at this
        rw [this]
      rw [← hl', List.map_map]
      conv => lhs; rw [← hl]
      rw [List.map_map]
      exact List.map_congr_left fun x _ => gother x
    simp only [h.exps', List.map_append, List.map_cons, gother, hl pre h.map_pre, hl post h.map_post]
  · intro x hx
    obtain ⟨y, hy, rfl⟩ := List.mem_map.mp hx
    rw [gid]; exact h.below y hy
  · intro x hx
    obtain ⟨y, hy, rfl⟩ := List.mem_map.mp hx
    rw [gid]; exact h.above y hy
  · rw [gseqs, gseqs]; exact h.apart
  · rw [gmock, gmock]
    intro hm a hab
    refine h.calls hm a ?_
    unfold Spec.Exp.accepts at hab ⊢
    rw [gpol, gpol] at hab
    exact hab

theorem Swapped.owned (h : Swapped j S S' pre A B post) (s : Nat) : S'.owned s = S.owned s := by
  unfold Spec.State.owned
  rw [h.seqs]
  congr 1
  rw [h.exps, h.exps']
  have ha : ((other j A).alive && (other j A).seqs.contains s) = (A.alive && A.seqs.contains s) := rfl
  have hb : ((other j B).alive && (other j B).seqs.contains s) = (B.alive && B.seqs.contains s) := rfl
  simp only [List.any_append, List.any_cons, ha, hb]
  congr 1
  rw [← Bool.or_assoc, ← Bool.or_assoc, Bool.or_comm (B.alive && _)]

theorem Swapped.sequenceEnd (h : Swapped j S S' pre A B post) (s : Nat) : S'.sequenceEnd s = S.sequenceEnd s := by
  unfold Spec.State.sequenceEnd
  rw [h.attached, List.length_map, List.findIdx?_map]
  rfl

theorem Swapped.release (h : Swapped j S S' pre A B post) (ss : List Nat) : S'.release ss = S.release ss := by
  unfold Spec.State.release
  congr 1
  funext s
  rw [h.owned, h.sequenceEnd]

theorem rename_release (S : Spec.State α) (ss : List Nat) : (S.release ss).map (rename j) = S.release ss := by
  conv => rhs; rw [← List.map_id (S.release ss)]
  refine List.map_congr_left fun ev hev => ?_
  unfold Spec.State.release at hev
  obtain ⟨s, -, h⟩ := List.mem_flatMap.mp hev
  split at h
  · cases h
  · unfold Spec.State.sequenceEnd at h
    rcases List.mem_append.mp h with h | h
    · split at h
      · rw [List.mem_singleton.mp h]; rfl
      · cases h
    · rw [List.mem_singleton.mp h]; rfl

theorem Swapped.call (h : Swapped j S S' pre A B post) (m : Nat) (a : α) :
    (∃ pre' A' B' post', Swapped j (S.call m a).1 (S'.call m a).1 pre' A' B' post') ∧ Same j (S.call m a).2.1 (S'.call m a).2.1 := by
  have hcand : ∀ (T : Spec.State α) (p : Spec.Exp α → Bool), (T.candidates m).filter p =
      (T.exps.filter (fun x => p x && (x.alive && x.mock == m))).reverse := by
    intro T p
    unfold Spec.State.candidates
    rw [List.filter_reverse, List.filter_filter]
  have hacc : (S'.candidates m).filter (·.accepts a) = ((S.candidates m).filter (·.accepts a)).map (other j) := by
    rw [hcand, hcand, List.map_reverse]
    congr 1
    refine h.filter_one _ _ (fun _ => rfl) ?_
    simp only [Bool.and_eq_true, beq_iff_eq]
    rintro ⟨⟨h1, -, h2⟩, h3, -, h4⟩
    exact h.calls (h2.trans h4.symm) a ⟨h1, h3⟩
  have hperm : ∀ p : Spec.Exp α → Bool, (∀ x, p (other j x) = p x) →
      ((S'.candidates m).filter p).Perm (((S.candidates m).filter p).map (other j)) := by
    intro p hp
    rw [hcand, hcand, List.map_reverse]
    exact (List.reverse_perm _).trans ((h.filter_perm _ (fun x => by rw [hp]; rfl)).trans (List.reverse_perm _).symm)
  have hthr : (((S'.candidates m).filter (·.throws a)).map (fun x => Event.unhandled x.id)).Perm
      ((((S.candidates m).filter (·.throws a)).map (fun x => Event.unhandled x.id)).map (rename j)) := by
    have := (hperm (·.throws a) (fun _ => rfl)).map (fun x => Event.unhandled x.id)
    rw [List.map_map] at this ⊢
    exact this
  have hnot : (((S'.candidates m).filter (fun x => !x.throws a)).map (·.id)).Perm
      ((((S.candidates m).filter (fun x => !x.throws a)).map (·.id)).map (swap j)) := by
    have := (hperm (fun x => !x.throws a) (fun _ => rfl)).map (·.id)
    rw [List.map_map] at this ⊢
    exact this
  have happ : (((S.candidates m).filter (·.accepts a)).map (other j)).filter S'.applicable =
      (((S.candidates m).filter (·.accepts a)).filter S.applicable).map (other j) := by
    rw [List.filter_map]
    congr 1
    refine List.filter_congr fun x hx => h.applicable ?_
    exact (List.mem_filter.mp (List.mem_reverse.mp (List.mem_filter.mp hx).1)).1
  have hun : ∀ u ∈ ((S.candidates m).filter (·.throws a)).map (fun x => Event.unhandled x.id), ∃ e, u = .unhandled e := by
    intro u hu
    obtain ⟨x, -, rfl⟩ := List.mem_map.mp hu
    exact ⟨_, rfl⟩
  unfold Spec.State.call
  simp only [hacc, happ]
  cases hc : ((S.candidates m).filter (·.accepts a)).filter S.applicable with
  | nil =>
    simp only [List.map_nil, List.isEmpty_map]
    split
    · exact ⟨⟨_, _, _, _, h⟩, .cons hun hthr (.noMatch hnot) .nil⟩
    · refine ⟨⟨_, _, _, _, h⟩, .cons hun hthr ?_ .nil⟩
      have hl : (((S.candidates m).filter (·.accepts a)).map (other j)).map (·.id) =
          (((S.candidates m).filter (·.accepts a)).map (·.id)).map (swap j) := by
        rw [List.map_map, List.map_map]; rfl
      rw [hl]
      exact .same (.inapplicable _)
  | cons x older =>
    simp only [List.map_cons, h.select]
    refine ⟨?_, .cons hun hthr (.same (.fullMatch _)) .nil⟩
    exact h.change _ (fun x => { x with count := x.count + 1 }) (fun _ => ⟨rfl, rfl, rfl, rfl⟩) (fun _ => rfl)

theorem Swapped.step (h : Swapped j S S' pre A B post) {o : Op α} {T : Spec.State α} {ev : List Event} (ht : S.step o = some (T, ev)) :
    ∃ T' ev' pre' A' B' post', S'.step (renameOp j o) = some (T', ev') ∧ Swapped j T T' pre' A' B' post' ∧ Same j ev ev' := by
  have hlen : S'.exps.length = S.exps.length := by rw [h.exps, h.exps']; simp
  have hhand : S'.hasHandle = S.hasHandle := by
    funext s; unfold Spec.State.hasHandle; rw [h.seqs]
  cases o with
  | newSequence st =>
    simp only [Spec.State.step, Option.some.injEq, Prod.mk.injEq] at ht
    obtain ⟨rfl, rfl⟩ := ht
    refine ⟨_, _, pre, A, B, post, rfl, ⟨by rw [h.seqs], h.mocks, h.exps, h.exps', h.len, h.ida, h.idb, h.below, h.above, h.apart, h.calls⟩, ?_⟩
    rw [h.seqs]
    exact Same.map j [.sequenceCreated S.seqs.length st]
  | newMock =>
    simp only [Spec.State.step, Option.some.injEq, Prod.mk.injEq] at ht
    obtain ⟨rfl, rfl⟩ := ht
    refine ⟨_, _, pre, A, B, post, rfl, ⟨h.seqs, by simp only [h.mocks], h.exps, h.exps', h.len, h.ida, h.idb, h.below, h.above, h.apart, h.calls⟩, ?_⟩
    rw [h.mocks]
    exact Same.map j [.mockCreated S.mocks]
  | dropSequence s =>
    simp only [Spec.State.step] at ht
    split at ht
    · rename_i hh
      simp only [Option.some.injEq, Prod.mk.injEq] at ht
      obtain ⟨rfl, rfl⟩ := ht
      have hs : Swapped j { S with seqs := S.seqs.modify s (fun q => { q with handle := false }) }
          { S' with seqs := S'.seqs.modify s (fun q => { q with handle := false }) } pre A B post :=
        ⟨by simp only [h.seqs], h.mocks, h.exps, h.exps', h.len, h.ida, h.idb, h.below, h.above, h.apart, h.calls⟩
      refine ⟨_, Spec.State.release { S' with seqs := S'.seqs.modify s (fun q => { q with handle := false }) } [s], pre, A, B, post, ?_,
        hs, ?_⟩
      · simp only [renameOp, Spec.State.step, hhand, hh, if_true]
      · rw [hs.release]
        have := Same.map j (Spec.State.release { S with seqs := S.seqs.modify s (fun q => { q with handle := false }) } [s])
        rw [rename_release] at this
        exact this
    · cases ht
  | expect m min max tags ps =>
    simp only [Spec.State.step] at ht
    split at ht
    · rename_i hc
      split at ht
      · rename_i hv
        simp only [Option.some.injEq, Prod.mk.injEq] at ht
        obtain ⟨rfl, rfl⟩ := ht
        let x : Spec.Exp α :=
          { id := S.exps.length, mock := m, min := min, max := max, seqs := tags, policies := ps, count := 0, alive := true }
        have hbig : j + 1 < S.exps.length := by
          rw [h.exps]; simp [h.len]
        refine ⟨{ S' with exps := S'.exps ++ [x] }, [.created S.exps.length], pre, A, B, post ++ [x], ?_,
          ⟨h.seqs, h.mocks, ?_, ?_, h.len, h.ida, h.idb, h.below, ?_, h.apart, h.calls⟩, ?_⟩
        · simp only [renameOp, Spec.State.step, h.mocks, hhand, hlen]
          rw [if_pos hc, if_pos hv]
        · simp [h.exps, x]
        · simp [h.exps']
        · intro y hy
          rcases List.mem_append.mp hy with hy | hy
          · exact h.above y hy
          · rw [List.mem_singleton.mp hy]; exact hbig
        · have := Same.map j [.created S.exps.length]
          have hsw : swap j S.exps.length = S.exps.length := by unfold swap; grind
          simpa [rename, hsw] using this
      · rename_i hv
        simp only [Option.some.injEq, Prod.mk.injEq] at ht
        obtain ⟨rfl, rfl⟩ := ht
        refine ⟨S', [.rejected], pre, A, B, post, ?_, h, Same.map j [.rejected]⟩
        simp only [renameOp, Spec.State.step, h.mocks, hhand]
        rw [if_pos hc, if_neg hv]
    · cases ht
  | call m a =>
    simp only [Spec.State.step] at ht
    split at ht
    · rename_i hm
      simp only [Option.some.injEq, Prod.mk.injEq] at ht
      obtain ⟨rfl, rfl⟩ := ht
      obtain ⟨⟨pre', A', B', post', h1⟩, h2⟩ := h.call m a
      refine ⟨(S'.call m a).1, (S'.call m a).2.1, pre', A', B', post', ?_, h1, h2⟩
      simp only [renameOp, Spec.State.step, h.mocks, if_pos hm]
    · cases ht
  | destroy e =>
    have hfind : S'.exps.find? (fun x => x.id == swap j e && x.alive) =
        (S.exps.find? (fun x => x.id == e && x.alive)).map (other j) := by
      rw [← List.head?_filter, ← List.head?_filter, ← List.head?_map]
      congr 1
      refine h.filter_one _ _ (fun x => ?_) ?_
      · have : (swap j x.id == swap j e) = (x.id == e) := by
          rw [Bool.eq_iff_iff, beq_iff_eq, beq_iff_eq]
          exact ⟨swap_inj j, congrArg _⟩
        change (swap j x.id == swap j e && x.alive) = _
        rw [this]
      · simp only [Bool.and_eq_true, beq_iff_eq]
        have := h.ida; have := h.idb
        omega
    simp only [Spec.State.step] at ht
    split at ht
    · cases ht
    · rename_i x hx
      simp only [Option.some.injEq, Prod.mk.injEq] at ht
      obtain ⟨rfl, rfl⟩ := ht
      obtain ⟨pre', A', B', post', h1⟩ := h.change e (fun x => { x with alive := false }) (fun _ => ⟨rfl, rfl, rfl, rfl⟩) (fun _ => rfl)
      have h1 : Swapped j (S.withdraw e) (S'.withdraw (swap j e)) pre' A' B' post' := h1
      refine ⟨S'.withdraw (swap j e), _, pre', A', B', post', by simp only [renameOp, Spec.State.step, hfind, hx, Option.map_some]; rfl, h1, ?_⟩
      have := Same.map j (.destroyed e :: (if x.unfulfilled || !(x.policies.all (·.isSatisfied)) then [Event.unfulfilled e] else [])
        ++ (S.withdraw e).release x.seqs)
      rw [List.map_append, rename_release, ← h1.release] at this
      have he : (Event.destroyed e :: (if x.unfulfilled || !(x.policies.all (·.isSatisfied)) then [Event.unfulfilled e] else [])).map (rename j) =
          .destroyed (swap j e) :: (if (other j x).unfulfilled || !((other j x).policies.all (·.isSatisfied)) then [Event.unfulfilled (swap j e)] else []) := by
        have hu : (other j x).unfulfilled = x.unfulfilled := rfl
        have hp : (other j x).policies = x.policies := rfl
        rw [hu, hp]
        split <;> rfl
      rw [he] at this
      rw [h1.release] at this ⊢
      exact this

theorem Swapped.full (h : Swapped j S S' pre A B post) (o : Op α) : S'.full (renameOp j o) ↔ S.full o := by
  cases o with
  | expect m min max tags ps =>
    simp only [renameOp, Spec.State.full, h.attached, List.length_map]
  | _ => exact Iff.rfl

theorem Swapped.run (h : Swapped j S S' pre A B post) {ops : List (Op α)} {T : Spec.State α} {evs : List Event} (hg : Go S ops evs T) :
    ∃ T' evs', Go S' (ops.map (renameOp j)) evs' T' ∧ Same j evs evs' := by
  induction ops generalizing S S' pre A B post evs with
  | nil =>
    have h1 := hg.1
    simp only [Spec.State.run, Option.some.injEq, Prod.mk.injEq] at h1
    obtain ⟨rfl, rfl⟩ := h1
    exact ⟨S', [], .nil _, .nil⟩
  | cons o ops ih =>
    obtain ⟨h1, h2, h3⟩ := hg
    simp only [Spec.State.run] at h1
    cases hs : S.step o with
    | none => simp [hs] at h1
    | some v =>
      obtain ⟨S₁, ev⟩ := v
      simp only [hs] at h1
      cases hr : S₁.run ops with
      | none => simp [hr] at h1
      | some v =>
        obtain ⟨S₂, ev'⟩ := v
        simp only [hr, Option.some.injEq, Prod.mk.injEq] at h1
        obtain ⟨rfl, rfl⟩ := h1
        obtain ⟨T', ev1, pre', A', B', post', k1, k2, k3⟩ := h.step hs
        obtain ⟨U, ev2, m1, m2⟩ := ih k2 ⟨hr, h3 S₁ ev hs⟩
        exact ⟨U, ev1 ++ ev2, Go.cons k1 (fun hf => h2 ((h.full o).mp hf)) m1, k3.append m2⟩

/-! ## The programs -/

theorem go_ids {ops : List (Op α)} {evs : List Event} {S : Spec.State α} (h : Go Spec.State.init ops evs S) :
    ∀ x ∈ S.exps, x.id < S.exps.length := by
  obtain ⟨w₀, hw₀⟩ := h.program
  obtain ⟨tr, hr, ht, hev⟩ := (runProgram_iff _ _ _).mp hw₀
  have : abs w₀ = S := by
    have h1 := Language.reach_spec_run hr
    rw [ht] at h1
    have h2 := h.1
    rw [h1] at h2
    simp only [Option.some.injEq, Prod.mk.injEq] at h2
    exact h2.1
  intro x hx
  rw [← this, abs_exps_length]
  rw [← this] at hx
  obtain ⟨y, hy, -⟩ := (abs_mem_iff w₀ x).mp hx
  exact (List.getElem?_eq_some_iff.mp hy).1

/-- What a declaration does. -/
theorem declare {S T : Spec.State α} {d : Decl α} {ev : List Event} (hd : Legal d) (h : S.step (op d) = some (T, ev)) :
    T = { S with exps := S.exps ++ [entry S.exps.length d 0 true] } ∧ ev = [.created S.exps.length] ∧
      d.mock < S.mocks ∧ (d.seqs.all S.hasHandle = true ∧ isInt d.min = true ∧ isInt d.max = true) := by
  simp only [op, Spec.State.step] at h
  split at h
  · rename_i hc
    rw [if_pos ⟨⟨hd.low, hd.order⟩, hd.distinct⟩] at h
    simp only [Option.some.injEq, Prod.mk.injEq] at h
    exact ⟨h.1.symm, h.2.symm, hc⟩
  · cases h

theorem declared {S : Spec.State α} {d : Decl α} (hd : Legal d) (h1 : d.mock < S.mocks)
    (h2 : d.seqs.all S.hasHandle = true ∧ isInt d.min = true ∧ isInt d.max = true) :
    S.step (op d) = some ({ S with exps := S.exps ++ [entry S.exps.length d 0 true] }, [.created S.exps.length]) := by
  simp only [op, Spec.State.step]
  rw [if_pos ⟨h1, h2⟩, if_pos ⟨⟨hd.low, hd.order⟩, hd.distinct⟩]
  rfl

theorem not_full {S : Spec.State α} {d d' : Decl α} (i : Nat) (hs : ∀ s ∈ d.seqs, s ∉ d'.seqs) :
    Spec.State.full { S with exps := S.exps ++ [entry i d' 0 true] } (op d) ↔ S.full (op d) := by
  simp only [op, Spec.State.full]
  refine and_congr_right fun _ => ?_
  have : ∀ s ∈ d.seqs, Spec.State.attached { S with exps := S.exps ++ [entry i d' 0 true] } s = S.attached s := by
    intro s hm
    unfold Spec.State.attached
    rw [List.filter_append]
    have : s ∉ (entry i d' 0 true).seqs := hs s hm
    simp [this]
  refine and_congr_right fun _ => ?_
  constructor
  · rintro ⟨s, h1, h2⟩
    rw [this s h1] at h2
    exact ⟨s, h1, h2⟩
  · rintro ⟨s, h1, h2⟩
    rw [← this s h1] at h2
    exact ⟨s, h1, h2⟩

theorem exchange {before after : List (Op α)} {d d' : Decl α} (hd : Legal d) (hd' : Legal d') (hu : Unrelated d d')
    {w : World α} {evs : List Event} (h : runProgram (before ++ op d :: op d' :: after) = .ok (w, evs)) :
    ∃ (ev₀ rest rest' : List Event) (w₀ w' : World α), runProgram before = .ok (w₀, ev₀) ∧
      evs = ev₀ ++ .created (Merge.creations ev₀) :: .created (Merge.creations ev₀ + 1) :: rest ∧
      runProgram (before ++ op d' :: op d :: after.map (renameOp (Merge.creations ev₀))) =
        .ok (w', ev₀ ++ .created (Merge.creations ev₀) :: .created (Merge.creations ev₀ + 1) :: rest') ∧
      Same (Merge.creations ev₀) rest rest' := by
  obtain ⟨S, hg⟩ := Go.of_program h
  obtain ⟨S₀, ev₀, ev₁, g1, g2, rfl⟩ := hg.split
  have hids := go_ids g1
  have g2' : Go S₀ ([op d] ++ ([op d'] ++ after)) ev₁ S := g2
  obtain ⟨S₁, e1, e2, k1, k2, rfl⟩ := g2'.split
  obtain ⟨S₂, e3, e4, k3, k4, rfl⟩ := k2.split
  have one : ∀ {S T : Spec.State α} {o : Op α} {ev : List Event}, Go S [o] ev T → S.step o = some (T, ev) ∧ ¬ S.full o := by
    intro S T o ev hg
    obtain ⟨a1, a2, -⟩ := hg
    refine ⟨?_, a2⟩
    simp only [Spec.State.run] at a1
    cases hs : S.step o with
    | none => simp [hs] at a1
    | some v =>
      simp only [hs, Option.some.injEq, Prod.mk.injEq, List.append_nil] at a1
      obtain ⟨rfl, rfl⟩ := a1
      rfl
  obtain ⟨s1, f1⟩ := one k1
  obtain ⟨s2, f2⟩ := one k3
  obtain ⟨rfl, rfl, c1, c2⟩ := declare hd s1
  obtain ⟨rfl, rfl, c3, c4⟩ := declare hd' s2
  have hseq : ∀ s ∈ d'.seqs, s ∉ d.seqs := fun s h1 h2 => hu.seqs s h2 h1
  let j := S₀.exps.length
  let T₁ : Spec.State α := { S₀ with exps := S₀.exps ++ [entry j d' 0 true] }
  let T₂ : Spec.State α := { T₁ with exps := T₁.exps ++ [entry T₁.exps.length d 0 true] }
  have t1 : S₀.step (op d') = some (T₁, [.created j]) := declared hd' c3 c4
  have t2 : T₁.step (op d) = some (T₂, [.created T₁.exps.length]) := declared hd c1 c2
  have hlen : T₁.exps.length = j + 1 := by simp [T₁, j]
  have hsw : Swapped j { S₀ with exps := (S₀.exps ++ [entry j d 0 true]) ++ [entry (j + 1) d' 0 true] } T₂ S₀.exps
      (entry j d 0 true) (entry (j + 1) d' 0 true) [] := by
    refine ⟨rfl, rfl, by simp, ?_, rfl, rfl, rfl, hids, by simp, hu.seqs, ?_⟩
    · simp only [T₂, T₁, List.append_assoc, List.length_append, List.length_singleton]
      simp [other, entry, swap, j]
    · intro hm a hab
      have key : ∀ (e : Decl α) (i : Nat), (entry i e 0 true).accepts a = true → Policy.says e.policies a = some true := by
        intro e i hacc
        obtain ⟨q1, q2, q3⟩ := says_cases e i 0 true a
        cases hp : Policy.says e.policies a with
        | none => rw [(q1 hp).2] at hacc; cases hacc
        | some b =>
          cases b with
          | false => rw [(q2 hp).2] at hacc; cases hacc
          | true => rfl
      exact hu.calls hm a ⟨key d j hab.1, key d' (j + 1) hab.2⟩
  have hlen' : (S₀.exps ++ [entry S₀.exps.length d 0 true]).length = j + 1 := by simp [j]
  simp only [hlen'] at k4
  obtain ⟨U, evs', m1, m2⟩ := hsw.run k4
  have nf1 : ¬ S₀.full (op d') := fun hf => f2 ((not_full _ hseq).mpr hf)
  have nf2 : ¬ T₁.full (op d) := fun hf => f1 ((not_full _ hu.seqs).mp hf)
  obtain ⟨w', hw'⟩ := (g1.append (Go.cons t1 nf1 (Go.cons t2 nf2 m1))).program
  rw [hlen] at hw'
  obtain ⟨w₀, hw₀⟩ := g1.program
  have hj : Merge.creations ev₀ = j := by
    have := (Merge.run_created g1.1 (by simp [Spec.State.init])).1
    simpa [Spec.State.init, j] using this.symm
  refine ⟨ev₀, e4, evs', w₀, w', hw₀, ?_⟩
  rw [hj]
  refine ⟨?_, by simpa using hw', m2⟩
  rw [hlen']; rfl

theorem renameOp_eq (j : Nat) : (renameOp j : Op α → Op α) = renumber (swap j) := by
  funext o; cases o <;> rfl

theorem renumber_id (ops : List (Op α)) : ops.map (renumber id) = ops := by
  have : (renumber id : Op α → Op α) = id := by funext o; cases o <;> rfl
  rw [this, List.map_id]

theorem renumber_comp (σ τ : Nat → Nat) (ops : List (Op α)) : (ops.map (renumber σ)).map (renumber τ) = ops.map (renumber (fun k => τ (σ k))) := by
  rw [List.map_map]
  apply List.map_congr_left
  intro o _
  cases o <;> rfl

theorem Unrelated.symm {d d' : Decl α} (h : Unrelated d d') : Unrelated d' d :=
  ⟨fun s h1 h2 => h.seqs s h2 h1, fun hm a ⟨h1, h2⟩ => h.calls hm.symm a ⟨h2, h1⟩⟩

theorem prefix_created {before rest : List (Op α)} {d : Decl α} (hd : Legal d) {w₀ w : World α} {ev₀ evs : List Event}
    (h₀ : runProgram before = .ok (w₀, ev₀)) (h : runProgram (before ++ op d :: rest) = .ok (w, evs)) :
    ∃ w₁ ev₁, runProgram (before ++ [op d]) = .ok (w₁, ev₁) ∧ Merge.creations ev₁ = Merge.creations ev₀ + 1 := by
  obtain ⟨S, hg⟩ := Go.of_program h
  obtain ⟨S₀', hg₀⟩ := Go.of_program h₀
  obtain ⟨S₀, ev₀', ev₁, g1, g2, rfl⟩ := hg.split
  have : S₀' = S₀ ∧ ev₀ = ev₀' := by
    have := hg₀.1.symm.trans g1.1
    simpa using this
  obtain ⟨rfl, rfl⟩ := this
  have g2' : Go S₀' ([op d] ++ rest) ev₁ S := g2
  obtain ⟨S₁, e1, e2, k1, k2, rfl⟩ := g2'.split
  have g3 := g1.append k1
  obtain ⟨w₁, hw₁⟩ := g3.program
  refine ⟨w₁, _, hw₁, ?_⟩
  have a1 := (Merge.run_created g1.1 (by simp [Spec.State.init])).1
  have a2 := (Merge.run_created g3.1 (by simp [Spec.State.init])).1
  obtain ⟨b1, -⟩ := k1
  simp only [Spec.State.run] at b1
  cases hs : S₀'.step (op d) with
  | none => simp [hs] at b1
  | some v =>
    simp only [hs, Option.some.injEq, Prod.mk.injEq, List.append_nil] at b1
    obtain ⟨rfl, rfl⟩ := b1
    obtain ⟨e1, e2, -, -⟩ := declare hd hs
    rw [e1] at a2
    simp [Spec.State.init] at a1 a2 ⊢
    omega

theorem rearrange {ds ds' : List (Decl α)} (hp : ds.Perm ds') : ∀ {before after : List (Op α)} {w₀ w : World α} {ev₀ evs : List Event},
    (∀ d ∈ ds, Legal d) → ds.Pairwise Unrelated → runProgram before = .ok (w₀, ev₀) →
    runProgram (before ++ ds.map op ++ after) = .ok (w, evs) →
    ∃ σ w' evs', Moved (Merge.creations ev₀) ds ds' σ ∧
      runProgram (before ++ ds'.map op ++ after.map (renumber σ)) = .ok (w', evs') ∧ (Language.passes evs ↔ Language.passes evs') := by
  induction hp with
  | nil =>
    intro before after w₀ w ev₀ evs _ _ h₀ h
    exact ⟨id, w, evs, ⟨fun _ _ h => h, fun _ _ => rfl, fun i hi => by simp at hi⟩, by rw [renumber_id]; exact h, Iff.rfl⟩
  | @cons d l l' hp ih =>
    intro before after w₀ w ev₀ evs hl hu h₀ h
    obtain ⟨w₁, ev₁, h1, hc⟩ := prefix_created (rest := l.map op ++ after) (hl d (by simp)) h₀ (by simpa using h)
    obtain ⟨σ, w', evs', m, r, p⟩ := ih (fun x hx => hl x (by simp [hx])) (List.pairwise_cons.mp hu).2 h1 (by simpa using h)
    refine ⟨σ, w', evs', ?_, by simpa using r, p⟩
    rw [hc] at m
    refine ⟨m.inj, ?_, ?_⟩
    · intro k hk
      apply m.fixed
      simp only [List.length_cons] at hk
      omega
    · intro i hi
      cases i with
      | zero => exact ⟨0, by simp, m.fixed _ (by omega), rfl⟩
      | succ i =>
        obtain ⟨i', hi', e1, e2⟩ := m.moved i (by simpa using hi)
        exact ⟨i' + 1, by simpa using hi', by rw [show Merge.creations ev₀ + (i + 1) = Merge.creations ev₀ + 1 + i by omega, e1]; omega, by simpa using e2⟩
  | swap d d' l =>
    intro before after w₀ w ev₀ evs hl hu h₀ h
    obtain ⟨ev₀', rest, rest', w₀', w', e1, rfl, e3, e4⟩ := exchange (before := before) (after := l.map op ++ after)
      (hl d' (by simp)) (hl d (by simp)) ((List.pairwise_cons.mp hu).1 d (by simp)) (by simpa using h)
    rw [h₀] at e1
    simp only [Except.ok.injEq, Prod.mk.injEq] at e1
    obtain ⟨rfl, rfl⟩ := e1
    have hops : (l.map op).map (renameOp (Merge.creations ev₀)) = (l.map op : List (Op α)) := by
      rw [List.map_map]; exact List.map_congr_left (fun x _ => rfl)
    refine ⟨swap (Merge.creations ev₀), w', ev₀ ++ .created (Merge.creations ev₀) :: .created (Merge.creations ev₀ + 1) :: rest', ⟨fun a b => swap_inj _, ?_, ?_⟩, ?_, ?_⟩
    · intro k hk
      simp only [List.length_cons] at hk
      unfold swap
      grind
    · intro i hi
      match i with
      | 0 => exact ⟨1, by simp, by simp [swap], rfl⟩
      | 1 => exact ⟨0, by simp, by simp [swap], rfl⟩
      | i + 2 => exact ⟨i + 2, by simpa using hi, by unfold swap; grind, rfl⟩
    · rw [List.map_append, hops, renameOp_eq] at e3
      simpa using e3
    · have := e4.passes
      unfold Language.passes at *
      simp only [List.forall_mem_append, List.forall_mem_cons, this]
  | @trans l₁ l₂ l₃ h12 h23 ih1 ih2 =>
    intro before after w₀ w ev₀ evs hl hu h₀ h
    obtain ⟨σ, w1, evs1, m1, r1, p1⟩ := ih1 hl hu h₀ h
    obtain ⟨τ, w2, evs2, m2, r2, p2⟩ := ih2 (fun x hx => hl x (h12.mem_iff.mpr hx)) ((h12.pairwise_iff (fun h => h.symm)).mp hu) h₀ r1
    rw [renumber_comp] at r2
    refine ⟨_, w2, evs2, ⟨fun a b h => m1.inj _ _ (m2.inj _ _ h), ?_, ?_⟩, r2, p1.trans p2⟩
    · intro k hk
      have := m1.fixed k hk
      rw [this]
      exact m2.fixed k (by rw [← h12.length_eq]; exact hk)
    · intro i hi
      obtain ⟨i', a1, a2, a3⟩ := m1.moved i hi
      obtain ⟨i'', b1, b2, b3⟩ := m2.moved i' a1
      exact ⟨i'', b1, by rw [a2, b2], b3.trans a3⟩

end Mimic.Declare
