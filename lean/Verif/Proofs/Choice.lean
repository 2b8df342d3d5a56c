import Verif.Spec.Choice
import Verif.Proofs.Language

/-! # Sequences that find a way whenever there is one: lemmas -/

set_option autoImplicit false

namespace Mimic.Choice

open Mimic.Language

variable {α : Type}

/-- The word from a point on at which the first part has taken `n` calls already. -/
def From (n : Nat) : List (Part α) → List (Nat × α) → Prop
  | [], calls => calls = []
  | p :: ps, calls => ∃ block rest, calls = block ++ rest ∧ p.min ≤ n + block.length ∧ ((n + block.length : Nat) : Int) ≤ p.max ∧
      (∀ c ∈ block, p.takes c = true) ∧ Word ps rest

theorem word_iff {parts : List (Part α)} {calls : List (Nat × α)} : Word parts calls ↔ From 0 parts calls := by
  constructor
  · intro h
    cases h with
    | nil => rfl
    | cons h1 h2 h3 h4 => exact ⟨_, _, rfl, by simpa using h1, by simpa using h2, h3, h4⟩
  · intro h
    cases parts with
    | nil => cases h; exact .nil
    | cons p ps =>
      obtain ⟨b, r, rfl, h1, h2, h3, h4⟩ := h
      exact .cons (by simpa using h1) (by simpa using h2) h3 h4

/-- A word that goes on with `c`: either the first part takes it, or it is left. -/
theorem from_cons {n : Nat} {p : Part α} {ps : List (Part α)} {c : Nat × α} {cs : List (Nat × α)} :
    From n (p :: ps) (c :: cs) ↔
      (p.takes c = true ∧ (n : Int) < p.max ∧ From (n + 1) (p :: ps) cs) ∨
      (p.min ≤ n ∧ (n : Int) ≤ p.max ∧ From 0 ps (c :: cs)) := by
  constructor
  · rintro ⟨b, r, h, h1, h2, h3, h4⟩
    cases b with
    | nil =>
      simp only [List.nil_append] at h
      subst h
      exact .inr ⟨by simpa using h1, by simpa using h2, word_iff.mp h4⟩
    | cons x b =>
      simp only [List.cons_append, List.cons.injEq] at h
      obtain ⟨rfl, rfl⟩ := h
      simp only [List.length_cons] at h1 h2
      exact .inl ⟨h3 _ (by simp), by omega, b, r, rfl, by omega, by omega, fun y hy => h3 y (by simp [hy]), h4⟩
  · rintro (⟨h1, h2, b, r, rfl, h3, h4, h5, h6⟩ | ⟨h1, h2, h3⟩)
    · refine ⟨c :: b, r, rfl, ?_, ?_, by simpa [h1] using h5, h6⟩
      · simp only [List.length_cons]; omega
      · simp only [List.length_cons]; omega
    · exact ⟨[], c :: cs, rfl, by simpa using h1, by simpa using h2, by simp, word_iff.mpr h3⟩

theorem from_nil {n : Nat} {parts : List (Part α)} (h : From n parts []) : finished n parts = true := by
  induction parts generalizing n with
  | nil => rfl
  | cons p ps ih =>
    obtain ⟨b, r, h, h1, h2, h3, h4⟩ := h
    have := List.append_eq_nil_iff.mp h.symm
    obtain ⟨rfl, rfl⟩ := this
    simp only [finished, Bool.and_eq_true, decide_eq_true_eq]
    exact ⟨by simpa using h1, ih (word_iff.mp h4)⟩

theorem Before.tail {p q x : Part α} {ps : List (Part α)} (h : Before ps p q) : Before (x :: ps) p q := by
  obtain ⟨⟨l, mid, r, rfl, hm⟩, hc⟩ := h
  exact ⟨⟨x :: l, mid, r, by simp, hm⟩, hc⟩

theorem LazySafe.tail {x : Part α} {ps : List (Part α)} (h : LazySafe (x :: ps)) : LazySafe ps := fun p q hb => h p q hb.tail

theorem GreedySafe.tail {x : Part α} {ps : List (Part α)} (h : GreedySafe (x :: ps)) : GreedySafe ps := fun p q hb => h p q hb.tail

/-- A call is not missed if no part that insists on calls takes it, as far as the parts can be left out. -/
theorem shrink {ps : List (Part α)} {c : Nat × α} {cs : List (Nat × α)}
    (h : ∀ mid q r, ps = mid ++ q :: r → (∀ x ∈ mid, x.min = 0) → 0 < q.min → q.takes c = false)
    (hmin : ∀ p ∈ ps, 0 ≤ p.min) (hw : From 0 ps (c :: cs)) : From 0 ps cs := by
  induction ps with
  | nil => cases hw
  | cons p ps ih =>
    have h0 := hmin p (by simp)
    rcases from_cons.mp hw with ⟨h1, h2, b, r, rfl, h3, h4, h5, h6⟩ | ⟨h1, h2, h3⟩
    · have hp : ¬ 0 < p.min := fun hlt => by
        have := h [] p ps rfl (by simp) hlt
        rw [h1] at this; cases this
      exact ⟨b, r, rfl, by omega, by omega, h5, h6⟩
    · have h1 : p.min = 0 := by simp only [Int.natCast_zero] at h1 ⊢; omega
      refine ⟨[], cs, rfl, by simp [h1], by simpa using h2, by simp, word_iff.mpr (ih ?_ (fun x hx => hmin x (by simp [hx])) h3)⟩
      intro mid q r e hm hq
      exact h (p :: mid) q r (by rw [e]; rfl) (by simpa [h1] using hm) hq

/-- A part that a greedy sequence goes on to. -/
theorem next_some {n : Nat} {ps : List (Part α)} {c : Nat × α} {s : Nat × List (Part α)} (h : next .greedy n ps c = some s)
    (hmin : ∀ p ∈ ps, 0 ≤ p.min) (hn : n = 0) :
    ∃ mid q r, ps = mid ++ q :: r ∧ (∀ x ∈ mid, x.min = 0) ∧ 0 < q.max ∧ q.takes c = true := by
  induction ps generalizing n s with
  | nil => cases h
  | cons p ps ih =>
    subst hn
    have h0 := hmin p (by simp)
    simp only [next] at h
    by_cases hp : p.min ≤ ((0 : Nat) : Int)
    · rw [if_pos hp] at h
      cases hx : next .greedy 0 ps c with
      | some y =>
        obtain ⟨mid, q, r, h1, h2, h3⟩ := ih hx (fun x hx => hmin x (by simp [hx])) rfl
        exact ⟨p :: mid, q, r, by rw [h1]; rfl, by
          intro x hx
          rcases List.mem_cons.mp hx with rfl | hx
          · omega
          · exact h2 x hx, h3⟩
      | none =>
        rw [hx] at h
        refine ⟨[], p, ps, rfl, by simp, ?_⟩
        grind
    · rw [if_neg hp] at h
      refine ⟨[], p, ps, rfl, by simp, ?_⟩
      grind

/-- The step: the sequence keeps a way if there is one. -/
theorem step_ok {st : Strategy} {n : Nat} {parts : List (Part α)} {c : Nat × α} {cs : List (Nat × α)}
    (hmin : ∀ p ∈ parts, 0 ≤ p.min) (hs : Safe st parts)
    (hw : From n parts (c :: cs)) :
    ∃ n' parts', next st n parts c = some (n', parts') ∧ From n' parts' cs ∧ (∃ l, parts = l ++ parts') := by
  induction parts generalizing n with
  | nil => cases hw
  | cons p ps ih =>
    have hmin' : ∀ p ∈ ps, 0 ≤ p.min := fun x hx => hmin x (by simp [hx])
    cases st with
    | lazy =>
      simp only [Safe] at hs ih
      rcases from_cons.mp hw with ⟨h1, h2, h3⟩ | ⟨h1, h2, h3⟩
      · exact ⟨n + 1, p :: ps, by simp [next, h1, h2], h3, [], rfl⟩
      · by_cases ht : p.takes c = true ∧ (n : Int) < p.max
        · refine ⟨n + 1, p :: ps, by simp [next, ht], ?_, [], rfl⟩
          have := shrink (cs := cs) (fun mid q r e hm hq => by
            have := hs p q ⟨⟨[], mid, r, by rw [e]; rfl, hm⟩, by omega⟩ hq
            rw [← Bool.not_eq_true]
            exact fun h => this ⟨c, ht.1, h⟩) hmin' h3
          exact ⟨[], cs, rfl, by simp only [List.length_nil]; omega, by simp only [List.length_nil]; omega, by simp, word_iff.mpr this⟩
        · obtain ⟨n', ps', h4, h5, l, h6⟩ := ih hmin' hs.tail h3
          refine ⟨n', ps', ?_, h5, p :: l, by rw [h6]; rfl⟩
          simp only [next, h4, if_pos h1]
          grind
    | greedy =>
      simp only [Safe] at hs ih
      rcases from_cons.mp hw with ⟨h1, h2, h3⟩ | ⟨h1, h2, h3⟩
      · refine ⟨n + 1, p :: ps, ?_, h3, [], rfl⟩
        simp only [next]
        by_cases hp : p.min ≤ n
        · rw [if_pos hp]
          cases hx : next .greedy 0 ps c with
          | none => grind
          | some y =>
            obtain ⟨mid, q, r, e, hm, hq, ht⟩ := next_some hx hmin' rfl
            exact absurd ⟨c, h1, ht⟩ (hs p q ⟨⟨[], mid, r, by rw [e]; rfl, hm⟩, by omega⟩ hq)
        · rw [if_neg hp]
          grind
      · obtain ⟨n', ps', h4, h5, l, h6⟩ := ih hmin' hs.tail h3
        refine ⟨n', ps', ?_, h5, p :: l, by rw [h6]; rfl⟩
        simp only [next, h4, if_pos h1]
        grind

theorem safe_suffix {st : Strategy} {l parts : List (Part α)} (hs : Safe st (l ++ parts)) : Safe st parts := by
  induction l with
  | nil => exact hs
  | cons x l ih =>
    apply ih
    cases st
    · exact LazySafe.tail hs
    · exact GreedySafe.tail hs

theorem complete {st : Strategy} {n : Nat} {parts : List (Part α)} {calls : List (Nat × α)}
    (hmin : ∀ p ∈ parts, 0 ≤ p.min) (hs : Safe st parts)
    (hw : From n parts calls) : accepted st n parts calls = true := by
  induction calls generalizing n parts with
  | nil => exact from_nil hw
  | cons c cs ih =>
    obtain ⟨n', ps', h1, h2, l, rfl⟩ := step_ok hmin hs hw
    simp only [accepted, h1]
    exact ih (fun p hp => hmin p (by simp [hp])) (safe_suffix hs) h2

/-! ## The conditions are needed -/

/-- The least number of calls, and the largest. -/
def least (parts : List (Part α)) : Nat := (parts.map (fun p => p.min.toNat)).sum
def most (parts : List (Part α)) : Nat := (parts.map (fun p => p.max.toNat)).sum

theorem word_bounds {parts : List (Part α)} {calls : List (Nat × α)} (h : Word parts calls) :
    least parts ≤ calls.length ∧ calls.length ≤ most parts := by
  induction h with
  | nil => simp [least, most]
  | cons h1 h2 h3 _ ih =>
    simp only [least, most, List.map_cons, List.sum_cons, List.length_append] at ih ⊢
    omega

/-- The shortest words and the longest ones. -/
theorem word_least {parts : List (Part α)} (hl : ∀ p ∈ parts, 0 ≤ p.min ∧ p.min ≤ p.max) (ht : ∀ p ∈ parts, ∃ c, p.takes c = true) :
    ∃ calls, Word parts calls ∧ calls.length = least parts := by
  induction parts with
  | nil => exact ⟨[], .nil, rfl⟩
  | cons p ps ih =>
    obtain ⟨r, h1, h2⟩ := ih (fun x hx => hl x (by simp [hx])) (fun x hx => ht x (by simp [hx]))
    obtain ⟨c, hc⟩ := ht p (by simp)
    have := hl p (by simp)
    refine ⟨List.replicate p.min.toNat c ++ r, .cons (by simp; omega) (by simp; omega) (by
      intro x hx; rw [List.eq_of_mem_replicate hx]; exact hc) h1, by simp [least, h2]⟩

theorem word_most {parts : List (Part α)} (hl : ∀ p ∈ parts, 0 ≤ p.min ∧ p.min ≤ p.max) (ht : ∀ p ∈ parts, ∃ c, p.takes c = true) :
    ∃ calls, Word parts calls ∧ calls.length = most parts := by
  induction parts with
  | nil => exact ⟨[], .nil, rfl⟩
  | cons p ps ih =>
    obtain ⟨r, h1, h2⟩ := ih (fun x hx => hl x (by simp [hx])) (fun x hx => ht x (by simp [hx]))
    obtain ⟨c, hc⟩ := ht p (by simp)
    have := hl p (by simp)
    refine ⟨List.replicate p.max.toNat c ++ r, .cons (by simp; omega) (by simp; omega) (by
      intro x hx; rw [List.eq_of_mem_replicate hx]; exact hc) h1, by simp [most, h2]⟩

theorem word_append {ps qs : List (Part α)} {a b : List (Nat × α)} (h : Word ps a) (h' : Word qs b) : Word (ps ++ qs) (a ++ b) := by
  induction h with
  | nil => exact h'
  | cons h1 h2 h3 _ ih => rw [List.append_assoc]; exact .cons h1 h2 h3 ih

/-- Of a shortest word, the first part of a lazy sequence has to take as few calls as possible. -/
theorem least_step {p : Part α} {ps : List (Part α)} {b r : List (Nat × α)} (hv : ∀ x ∈ ps, 0 ≤ x.max)
    (hb : b.length = p.min.toNat) (hr : r.length = least ps) (h : possessive (p :: ps) (b ++ r) = true) :
    (((b ++ r).take p.max.toNat).takeWhile p.takes).length = b.length ∧ possessive ps r = true := by
  simp only [possessive, Bool.and_eq_true, decide_eq_true_eq] at h
  generalize hn : (((b ++ r).take p.max.toNat).takeWhile p.takes).length = n at h
  have hle : n ≤ (b ++ r).length := by
    rw [← hn]
    exact Nat.le_trans (List.takeWhile_prefix _).length_le (by simp; omega)
  have h1 := (word_bounds (accepted_sound (st := .lazy) hv (by rw [accepted_possessive]; exact h.2))).1
  simp only [List.length_drop, List.length_append] at h1 hle
  have : n = b.length := by omega
  subst this
  refine ⟨rfl, ?_⟩
  simpa using h.2

/-- Of a longest word, the first part has to take as many calls as possible. -/
theorem most_step {st : Strategy} {p : Part α} {ps : List (Part α)} {b r : List (Nat × α)} {n : Nat} (hv : ∀ x ∈ ps, 0 ≤ x.max)
    (hn : (n : Int) ≤ p.max) (hb : n + b.length = p.max.toNat) (hr : r.length = most ps) (h : accepted st n (p :: ps) (b ++ r) = true) :
    accepted st 0 ps r = true ∧ ∀ b1 c b2, b = b1 ++ c :: b2 →
      ¬ (p.min ≤ (n + b1.length : Nat) ∧ accepted st 0 ps (c :: b2 ++ r) = true) ∧
        accepted st (n + b1.length) (p :: ps) (c :: b2 ++ r) = true := by
  have hlong : ∀ calls : List (Nat × α), most ps < calls.length → accepted st 0 ps calls = true → False := fun calls hlt hacc => by
    have := (word_bounds (accepted_sound hv hacc)).2
    omega
  induction b generalizing n with
  | nil =>
    refine ⟨?_, by simp⟩
    simp only [List.length_nil, Nat.add_zero, List.nil_append] at hb h
    cases r with
    | nil =>
      simp only [accepted, finished, Bool.and_eq_true] at h ⊢
      exact h.2
    | cons c cs =>
      have : ¬ (n : Int) < p.max := by omega
      simp only [accepted, next, this, decide_false, Bool.and_false] at h ⊢
      cases st <;> grind
  | cons x b ih =>
    simp only [List.length_cons, List.cons_append] at hb h
    have hstay : accepted st (n + 1) (p :: ps) (b ++ r) = true ∨
        (p.min ≤ n ∧ accepted st 0 ps (x :: (b ++ r)) = true) := by
      clear ih hlong
      simp only [accepted, next] at h ⊢
      cases st <;> grind
    have hno : ¬ (p.min ≤ n ∧ accepted st 0 ps (x :: (b ++ r)) = true) := fun h2 =>
      hlong _ (by simp only [List.length_cons, List.length_append]; omega) h2.2
    have hst := hstay.resolve_right hno
    obtain ⟨h1, h2⟩ := ih (n := n + 1) (by omega) (by omega) hst
    refine ⟨h1, fun b1 c b2 e => ?_⟩
    cases b1 with
    | nil =>
      simp only [List.nil_append, List.cons.injEq] at e
      obtain ⟨rfl, rfl⟩ := e
      exact ⟨by simpa using hno, by simpa using h⟩
    | cons y b1 =>
      simp only [List.cons_append, List.cons.injEq] at e
      obtain ⟨rfl, rfl⟩ := e
      have := h2 b1 c b2 rfl
      simpa [Nat.add_assoc, Nat.add_comm 1] using this

theorem word_least_split {l ps : List (Part α)} {a r : List (Nat × α)} (hv : ∀ x ∈ l ++ ps, 0 ≤ x.max) (ha : Word l a)
    (hlen : a.length = least l) (hr : r.length = least ps) (h : possessive (l ++ ps) (a ++ r) = true) : possessive ps r = true := by
  induction ha with
  | nil => exact h
  | @cons p ls b a' h1 h2 h3 h4 ih =>
    have hb := (word_bounds h4).1
    simp only [least, List.map_cons, List.sum_cons, List.length_append] at hlen hb
    have hbl : b.length = p.min.toNat := by omega
    rw [List.append_assoc] at h
    have := least_step (ps := ls ++ ps) (fun x hx => hv x (by simp at hx ⊢; exact .inr hx)) hbl
      (by simp only [List.length_append, least, List.map_append, List.sum_append] at hr ⊢; omega) h
    exact ih (fun x hx => hv x (by simp at hx ⊢; exact .inr hx)) (by simp only [least]; omega) this.2

theorem word_most_split {st : Strategy} {l ps : List (Part α)} {a r : List (Nat × α)} (hv : ∀ x ∈ l ++ ps, 0 ≤ x.max) (ha : Word l a)
    (hlen : a.length = most l) (hr : r.length = most ps) (h : accepted st 0 (l ++ ps) (a ++ r) = true) : accepted st 0 ps r = true := by
  induction ha with
  | nil => exact h
  | @cons p ls b a' h1 h2 h3 h4 ih =>
    have hb := (word_bounds h4).2
    simp only [most, List.map_cons, List.sum_cons, List.length_append] at hlen hb
    have hbl : b.length = p.max.toNat := by omega
    rw [List.append_assoc] at h
    have := most_step (n := 0) (ps := ls ++ ps) (fun x hx => hv x (by simp at hx ⊢; exact .inr hx)) (hv p (by simp)) (by omega)
      (by simp only [List.length_append, most, List.map_append, List.sum_append] at hr ⊢; omega) h
    exact ih (fun x hx => hv x (by simp at hx ⊢; exact .inr hx)) (by simp only [most]; omega) this.1

theorem least_append (ps qs : List (Part α)) : least (ps ++ qs) = least ps + least qs := by simp [least]
theorem most_append (ps qs : List (Part α)) : most (ps ++ qs) = most ps + most qs := by simp [most]

theorem most_pos {ps : List (Part α)} {q : Part α} (hq : q ∈ ps) (h : 0 < q.max) : 0 < most ps := by
  obtain ⟨a, b, rfl⟩ := List.append_of_mem hq
  simp only [most, List.map_append, List.map_cons, List.sum_append, List.sum_cons]
  omega

theorem next_isSome {mid r : List (Part α)} {q : Part α} {c : Nat × α} (hm : ∀ x ∈ mid, x.min = 0) (hq : 0 < q.max)
    (ht : q.takes c = true) (st : Strategy) : (next st 0 (mid ++ q :: r) c).isSome = true := by
  induction mid with
  | nil =>
    have : ((0 : Nat) : Int) < q.max := hq
    simp only [List.nil_append, next, ht, this, decide_true, Bool.and_self, if_true]
    cases st
    · rfl
    · simp only
      split <;> (cases h : next .greedy 0 r c <;> simp_all)
  | cons x mid ih =>
    have := ih (fun y hy => hm y (by simp [hy]))
    have hx : x.min ≤ ((0 : Nat) : Int) := by rw [hm x (by simp)]; exact Int.le_refl 0
    obtain ⟨s, hs⟩ := Option.isSome_iff_exists.mp this
    simp only [List.cons_append, next, hs, if_pos hx]
    cases st <;> grind

theorem word_none {mid : List (Part α)} (h : ∀ x ∈ mid, x.min = 0 ∧ x.min ≤ x.max) : Word mid [] := by
  induction mid with
  | nil => exact .nil
  | cons x mid ih =>
    have := h x (by simp)
    exact .cons (block := []) (rest := []) (by simp [this.1]) (by simp; omega) (by simp) (ih (fun y hy => h y (by simp [hy])))

/-- If the condition for lazy sequences is not met, there is a word that is not accepted. -/
theorem lazy_needed {parts : List (Part α)} (hl : ∀ p ∈ parts, 0 ≤ p.min ∧ p.min ≤ p.max) (ht : ∀ p ∈ parts, ∃ c, p.takes c = true)
    (hc : ∀ calls, Word parts calls → accepted .lazy 0 parts calls = true) : LazySafe parts := by
  rintro p q ⟨⟨l, mid, r, rfl, hm⟩, hch⟩ hq ⟨c, hp, hqc⟩
  obtain ⟨a, ha, hal⟩ := word_least (parts := l) (fun x hx => hl x (by simp [hx])) (fun x hx => ht x (by simp [hx]))
  obtain ⟨z, hz, hzl⟩ := word_least (parts := r) (fun x hx => hl x (by simp [hx])) (fun x hx => ht x (by simp [hx]))
  have hpl := hl p (by simp)
  have hql := hl q (by simp)
  have hmid : Word mid [] := word_none (fun x hx => ⟨hm x hx, (hl x (by simp [hx])).2⟩)
  have hleast0 : least mid = 0 := by
    have := (word_bounds hmid).1
    simpa using this
  let rest := List.replicate q.min.toNat c ++ z
  have hrest : Word (q :: r) rest := .cons (by simp; omega) (by simp; omega) (by
    intro x hx; rw [List.eq_of_mem_replicate hx]; exact hqc) hz
  have htail : Word (p :: (mid ++ q :: r)) (List.replicate p.min.toNat c ++ rest) :=
    .cons (by simp; omega) (by simp; omega) (by
      intro x hx; rw [List.eq_of_mem_replicate hx]; exact hp) (by simpa using word_append hmid hrest)
  have hlen : rest.length = least (mid ++ q :: r) := by
    rw [least_append, hleast0]
    simp [rest, least] at hzl ⊢
    exact hzl
  have hw := hc _ (by
    have := word_append ha htail
    rw [← List.cons_append, ← List.append_assoc] at this
    exact this)
  rw [accepted_possessive] at hw
  have hw : possessive (l ++ p :: (mid ++ q :: r)) (a ++ (List.replicate p.min.toNat c ++ rest)) = true := by simpa using hw
  have hv : ∀ x ∈ l ++ p :: (mid ++ q :: r), 0 ≤ x.max := fun x hx => by
    have := hl x (by simpa using hx); omega
  have h1 := word_least_split hv ha hal (by
    simp only [List.length_append, List.length_replicate, hlen, least, List.map_cons, List.sum_cons]) hw
  have h2 := (least_step (fun x hx => hv x (by simp at hx ⊢; grind)) (by simp) hlen h1).1
  have h3 : ∃ k, q.min.toNat = k + 1 := ⟨q.min.toNat - 1, by omega⟩
  obtain ⟨k, hk⟩ := h3
  have h4 : ∃ j, p.max.toNat = (p.min.toNat + 1) + j := ⟨p.max.toNat - (p.min.toNat + 1), by omega⟩
  obtain ⟨j, hj⟩ := h4
  have h5 : List.replicate p.min.toNat c ++ rest = List.replicate (p.min.toNat + 1) c ++ (List.replicate k c ++ z) := by
    simp only [rest, hk]
    rw [List.replicate_succ (n := k), List.replicate_succ' (n := p.min.toNat)]
    simp
  rw [h5, hj] at h2
  have h6 : (List.replicate (p.min.toNat + 1) c ++ (List.replicate k c ++ z)).take (p.min.toNat + 1 + j) =
      List.replicate (p.min.toNat + 1) c ++ (List.replicate k c ++ z).take j := by
    rw [List.take_append]
    simp
  rw [h6, List.takeWhile_append_of_pos (by
    intro x hx; rw [List.eq_of_mem_replicate hx]; exact hp)] at h2
  simp at h2
  omega

/-- If the condition for greedy sequences is not met, there is a word that is not accepted. -/
theorem greedy_needed {parts : List (Part α)} (hl : ∀ p ∈ parts, 0 ≤ p.min ∧ p.min ≤ p.max) (ht : ∀ p ∈ parts, ∃ c, p.takes c = true)
    (hc : ∀ calls, Word parts calls → accepted .greedy 0 parts calls = true) : GreedySafe parts := by
  rintro p q ⟨⟨l, mid, r, rfl, hm⟩, hch⟩ hq ⟨c, hp, hqc⟩
  obtain ⟨a, ha, hal⟩ := word_most (parts := l) (fun x hx => hl x (by simp [hx])) (fun x hx => ht x (by simp [hx]))
  obtain ⟨z, hz, hzl⟩ := word_most (parts := mid ++ q :: r) (fun x hx => hl x (by simp at hx ⊢; grind))
    (fun x hx => ht x (by simp at hx ⊢; grind))
  have hpl := hl p (by simp)
  have htail : Word (p :: (mid ++ q :: r)) (List.replicate p.max.toNat c ++ z) :=
    .cons (by simp; omega) (by simp; omega) (by
      intro x hx; rw [List.eq_of_mem_replicate hx]; exact hp) hz
  have hw := hc _ (by
    have := word_append ha htail
    rw [← List.cons_append, ← List.append_assoc] at this
    exact this)
  have hw : accepted .greedy 0 (l ++ p :: (mid ++ q :: r)) (a ++ (List.replicate p.max.toNat c ++ z)) = true := by simpa using hw
  have hv : ∀ x ∈ l ++ p :: (mid ++ q :: r), 0 ≤ x.max := fun x hx => by
    have := hl x (by simpa using hx); omega
  have h1 := word_most_split hv ha hal (by
    simp only [List.length_append, List.length_replicate, hzl, most, List.map_cons, List.sum_cons]) hw
  have h2 := (most_step (n := 0) (fun x hx => hv x (by simp at hx ⊢; grind)) (by omega) (by simp) hzl h1).2
  have h4 : ∃ j, p.max.toNat = p.min.toNat + (j + 1) := ⟨p.max.toNat - (p.min.toNat + 1), by omega⟩
  obtain ⟨j, hj⟩ := h4
  obtain ⟨h5, h6⟩ := h2 (List.replicate p.min.toNat c) c (List.replicate j c) (by
    rw [hj, ← List.replicate_append_replicate, List.replicate_succ])
  apply h5
  simp only [List.length_replicate, Nat.zero_add] at h6 ⊢
  have hle : p.min ≤ (p.min.toNat : Int) := by omega
  refine ⟨hle, ?_⟩
  obtain ⟨s, hs⟩ := Option.isSome_iff_exists.mp (next_isSome (r := r) hm hq hqc .greedy)
  simp only [List.cons_append, accepted, next, hs, if_pos hle] at h6 ⊢
  exact h6

end Mimic.Choice
