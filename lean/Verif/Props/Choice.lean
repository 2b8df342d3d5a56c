import Verif.Proofs.Choice
import Verif.Props.Language

/-!
# C101: when a sequence finds a way whenever there is one
-/

set_option autoImplicit false

namespace Mimic.Choice

open Mimic.Language

variable {α : Type}

/-- What the theorems below assume about the expectations: legal limits, policies that are content (as all policies of the library are),
mocks that exist, a sequence that can count them, and no expectation whose requirements nothing meets. -/
structure Sensible (mocks : Nat) (parts : List (Part α)) : Prop where
  limits : ∀ p ∈ parts, 0 ≤ p.min ∧ p.min ≤ p.max ∧ p.max ≤ intMax
  content : ∀ p ∈ parts, ∀ q ∈ p.policies, q.isSatisfied = true
  exist : ∀ p ∈ parts, p.mock < mocks
  number : (parts.length : Int) ≤ intMax
  taken : ∀ p ∈ parts, ∃ c, p.takes c = true

/-- C101: the tests with these expectations in one sequence pass for all words of the regular expression iff the condition for sequences of
this kind is met. -/
theorem C101_complete {st : Strategy} {mocks : Nat} {parts : List (Part α)} (hp : Sensible mocks parts) :
    Complete st mocks parts ↔ Safe st parts := by
  have hl : ∀ p ∈ parts, 0 ≤ p.min ∧ p.min ≤ p.max := fun p h => ⟨(hp.limits p h).1, (hp.limits p h).2.1⟩
  constructor
  · intro hc
    have key : ∀ calls, Word parts calls → accepted st 0 parts calls = true := by
      intro calls hw
      have hcalls : ∀ c ∈ calls, c.1 < mocks := by
        intro c hcm
        obtain ⟨p, hpm, ht⟩ := hw.taken c hcm
        have := hp.exist p hpm
        simp only [Part.takes, Bool.and_eq_true, beq_iff_eq] at ht
        omega
      have hpr : Proper parts (allEnds parts) := ⟨hl, hp.content, .refl _⟩
      obtain ⟨w, evs, h⟩ := C75_runs (st := st) hpr hp.exist hcalls (fun p h => (hp.limits p h).2.2) hp.number
      exact (C75_accepted hpr h).mp (hc _ _ _ _ (.refl _) h hw)
    cases st
    · exact lazy_needed hl hp.taken key
    · exact greedy_needed hl hp.taken key
  · intro hs calls ends w evs he h hw
    exact (C75_accepted ⟨hl, hp.content, he⟩ h).mpr (complete (fun p h => (hl p h).1) hs (word_iff.mp hw))

/-- C101, for lazy sequences. -/
theorem C101_lazy {mocks : Nat} {parts : List (Part α)} (hp : Sensible mocks parts) : Complete .lazy mocks parts ↔ LazySafe parts :=
  C101_complete hp

/-- C101, for greedy sequences. -/
theorem C101_greedy {mocks : Nat} {parts : List (Part α)} (hp : Sensible mocks parts) : Complete .greedy mocks parts ↔ GreedySafe parts :=
  C101_complete hp

/-- C101: if a greedy sequence finds a way whenever there is one, then a lazy one does, too. -/
theorem C101_lazy_suffices {mocks : Nat} {parts : List (Part α)} (hp : Sensible mocks parts) (h : Complete .greedy mocks parts) :
    Complete .lazy mocks parts := by
  refine (C101_lazy hp).mpr fun p q hb hq => (C101_greedy hp).mp h p q hb ?_
  obtain ⟨⟨l, mid, r, rfl, -⟩, -⟩ := hb
  have := hp.limits q (by simp)
  omega

/-- C101: with exact numbers of calls, the kind of the sequence does not matter, and a way is always found. -/
theorem C101_exact {st : Strategy} {mocks : Nat} {parts : List (Part α)} (hp : Sensible mocks parts) (he : ∀ p ∈ parts, p.min = p.max) :
    Complete st mocks parts := by
  refine (C101_complete hp).mpr ?_
  have : ∀ p q, ¬ Before parts p q := by
    rintro p q ⟨⟨l, mid, r, rfl, -⟩, h⟩
    have := he p (by simp)
    omega
  cases st
  · exact fun p q hb => absurd hb (this p q)
  · exact fun p q hb => absurd hb (this p q)

/-- C101: a lazy sequence always finds a way if nothing is demanded. -/
theorem C101_optional {mocks : Nat} {parts : List (Part α)} (hp : Sensible mocks parts) (he : ∀ p ∈ parts, p.min = 0) :
    Complete .lazy mocks parts := by
  refine (C101_lazy hp).mpr ?_
  rintro p q ⟨⟨l, mid, r, rfl, -⟩, -⟩ hq
  have := he q (by simp)
  omega

/-! ## Examples -/

theorem sensible_between {parts : List (Part Nat)} (h : ∀ p ∈ parts, ∃ lo hi a b, p = Language.between 0 lo hi a b ∧ 0 ≤ lo ∧ lo ≤ hi ∧
    hi ≤ intMax ∧ a ≤ b) (hn : (parts.length : Int) ≤ intMax) : Sensible 1 parts := by
  refine ⟨?_, ?_, ?_, hn, ?_⟩ <;> intro p hp <;> obtain ⟨lo, hi, a, b, rfl, h1, h2, h3, h4⟩ := h p hp
  · exact ⟨h1, h2, h3⟩
  · simp [Language.between]
  · simp [Language.between]
  · exact ⟨(0, a), by simp [Language.between, Part.takes, h4]⟩

/-- `x{0,2} y{1,1} x{1,1}`, where `x` and `y` exclude each other: safe for both kinds, although the two `x` share all calls. -/
def apart : List (Part Nat) := [Language.between 0 0 2 1 1, Language.between 0 1 1 2 2, Language.between 0 1 1 1 1]

theorem apart_sensible : Sensible 1 apart := by
  refine sensible_between (fun p hp => ?_) (by decide)
  simp only [apart, List.mem_cons, List.not_mem_nil, or_false] at hp
  rcases hp with rfl | rfl | rfl <;> exact ⟨_, _, _, _, rfl, by decide, by decide, by decide, by decide⟩

theorem apart_before {p q : Part Nat} (h : Before apart p q) :
    p = Language.between 0 0 2 1 1 ∧ q = Language.between 0 1 1 2 2 := by
  obtain ⟨⟨l, mid, r, e, hm⟩, hc⟩ := h
  unfold apart at e
  match l, mid with
  | [], [] => simp at e; exact ⟨e.1.symm, e.2.1.symm⟩
  | [], x :: mid =>
    simp at e
    have := hm x (by simp)
    rw [← e.2.1] at this
    simp [Language.between] at this
  | x :: l, mid =>
    have hmem : p ∈ [Language.between 0 1 1 2 2, Language.between 0 1 1 1 1] := by
      simp only [List.cons_append, List.cons.injEq] at e
      rw [e.2]; simp
    simp only [List.mem_cons, List.not_mem_nil, or_false] at hmem
    rcases hmem with rfl | rfl <;> simp [Language.between] at hc

theorem apart_safe : GreedySafe apart := by
  intro p q hb _
  obtain ⟨rfl, rfl⟩ := apart_before hb
  rintro ⟨c, h1, h2⟩
  simp [Language.between, Part.takes] at h1 h2
  omega

/-- Non-vacuity of C101_complete, C101_lazy, C101_greedy and C101_lazy_suffices. -/
example : Complete .greedy 1 apart ∧ Complete .lazy 1 apart :=
  have h := (C101_greedy apart_sensible).mpr apart_safe
  ⟨h, C101_lazy_suffices apart_sensible h⟩

/-- Neither condition is met by all expectations: `x{1,2} x{1,1}` is safe for neither kind, `x{0,2} x{0,1}` is safe for lazy sequences only. -/
theorem C101_differ : (∃ parts : List (Part Nat), Sensible 1 parts ∧ ¬ Complete .lazy 1 parts ∧ ¬ Complete .greedy 1 parts) ∧
    ∃ parts : List (Part Nat), Sensible 1 parts ∧ Complete .lazy 1 parts ∧ ¬ Complete .greedy 1 parts := by
  have hs : ∀ lo hi lo' hi' : Int, 0 ≤ lo → lo ≤ hi → hi ≤ 9 → 0 ≤ lo' → lo' ≤ hi' → hi' ≤ 9 →
      Sensible 1 [Language.between 0 lo hi 1 1, Language.between 0 lo' hi' 1 1] := by
    intro lo hi lo' hi' h1 h2 h3 h4 h5 h6
    refine sensible_between (fun p hp => ?_) (by simp [intMax])
    simp only [List.mem_cons, List.not_mem_nil, or_false] at hp
    rcases hp with rfl | rfl
    · exact ⟨_, _, _, _, rfl, h1, h2, by unfold intMax; omega, by decide⟩
    · exact ⟨_, _, _, _, rfl, h4, h5, by unfold intMax; omega, by decide⟩
  have hb : ∀ lo hi lo' hi' : Int, lo < hi → Before [Language.between 0 lo hi 1 1, Language.between 0 lo' hi' 1 1]
      (Language.between 0 lo hi 1 1) (Language.between 0 lo' hi' 1 1) :=
    fun lo hi lo' hi' h => ⟨⟨[], [], [], rfl, by simp⟩, h⟩
  have hsh : ∀ lo hi lo' hi' : Int, Shared (Language.between 0 lo hi 1 1) (Language.between 0 lo' hi' 1 1) :=
    fun lo hi lo' hi' => ⟨(0, 1), by simp [Language.between, Part.takes], by simp [Language.between, Part.takes]⟩
  refine ⟨⟨_, hs 1 2 1 1 (by decide) (by decide) (by decide) (by decide) (by decide) (by decide), ?_, ?_⟩,
    ⟨_, hs 0 2 0 1 (by decide) (by decide) (by decide) (by decide) (by decide) (by decide), ?_, ?_⟩⟩
  · intro h
    exact (C101_lazy (hs 1 2 1 1 (by decide) (by decide) (by decide) (by decide) (by decide) (by decide))).mp h _ _ (hb 1 2 1 1 (by decide))
      (by decide) (hsh 1 2 1 1)
  · intro h
    exact (C101_greedy (hs 1 2 1 1 (by decide) (by decide) (by decide) (by decide) (by decide) (by decide))).mp h _ _ (hb 1 2 1 1 (by decide))
      (by decide) (hsh 1 2 1 1)
  · exact C101_optional (hs 0 2 0 1 (by decide) (by decide) (by decide) (by decide) (by decide) (by decide)) (by simp [Language.between])
  · intro h
    exact (C101_greedy (hs 0 2 0 1 (by decide) (by decide) (by decide) (by decide) (by decide) (by decide))).mp h _ _ (hb 0 2 0 1 (by decide))
      (by decide) (hsh 0 2 0 1)

/-- Non-vacuity of C101_exact: expectations that share calls. -/
example : Complete .greedy 1 [Language.between 0 2 2 0 5, Language.between 0 1 1 3 9] :=
  C101_exact (sensible_between (fun p hp => by
    simp only [List.mem_cons, List.not_mem_nil, or_false] at hp
    rcases hp with rfl | rfl <;> exact ⟨_, _, _, _, rfl, by decide, by decide, by decide, by decide⟩) (by decide)) (by
    intro p hp
    simp only [List.mem_cons, List.not_mem_nil, or_false] at hp
    rcases hp with rfl | rfl <;> rfl)

end Mimic.Choice
