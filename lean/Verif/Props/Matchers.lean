import Verif.Proofs.Matcher

/-!
# C29 - C32: matchers
-/

set_option autoImplicit false

namespace Mimic

/-! ## C29 -/

section
variable {T : Type} [DecidableEq T] [LT T] [LE T] [∀ a b : T, Decidable (a < b)] [∀ a b : T, Decidable (a ≤ b)]

/-- C29: the comparison matchers accept a target exactly when the comparison of the target with the value holds. -/
theorem C29_comparison (p : T → String) (v t : T) :
    ((matchEq (.of T) p v).accepts t = true ↔ t = v) ∧ ((matchNe (.of T) p v).accepts t = true ↔ t ≠ v) ∧
    ((matchLt (.of T) p v).accepts t = true ↔ t < v) ∧ ((matchLe (.of T) p v).accepts t = true ↔ t ≤ v) ∧
    ((matchGt (.of T) p v).accepts t = true ↔ t > v) ∧ ((matchGe (.of T) p v).accepts t = true ↔ t ≥ v) := by
  refine ⟨?_, ?_, ?_, ?_, ?_, ?_⟩ <;> exact decide_eq_true_iff

end

section
variable {F : Type → Type} {T A : Type}

/-- C29: a negated matcher accepts exactly what the matcher does not accept. -/
theorem C29_negation (m : PMatcher Id T A) (t : T) : m.invert.accepts t = true ↔ ¬ m.accepts t = true := by
  show (!(m.accepts t)) = true ↔ ¬ m.accepts t = true
  cases m.accepts t <;> simp

/-- C29: if the predicate throws, so does the negated one; otherwise the results are opposite. -/
theorem C29_negation_throws (m : PMatcher Option T A) (t : T) :
    (m.matches t = none ↔ m.invert.matches t = none) ∧
    (m.matches t = some true ↔ m.invert.matches t = some false) ∧
    (m.matches t = some false ↔ m.invert.matches t = some true) := by
  show (m.matches t = none ↔ not <$> m.matches t = none) ∧ (m.matches t = some true ↔ not <$> m.matches t = some false) ∧
    (m.matches t = some false ↔ not <$> m.matches t = some true)
  cases m.matches t with
  | none => simp
  | some b => cases b <;> simp

/-- C29: negating twice restores everything that can be observed: the accepted set and both descriptions. -/
theorem C29_double_negation [Functor F] [LawfulFunctor F] (m : PMatcher F T A) :
    (∀ t, m.invert.invert.matches t = m.matches t) ∧ m.invert.invert.describe = m.describe ∧
    m.invert.invert.invert.describe = m.invert.describe := by
  refine ⟨fun t => ?_, rfl, rfl⟩
  show not <$> not <$> m.pred t m.arg = m.pred t m.arg
  rw [← LawfulFunctor.comp_map]
  have : (not ∘ not) = id := by funext b; cases b <;> rfl
  rw [this, LawfulFunctor.id_map]

/-- C29: the description of a negated comparison is that of the opposite comparison, for every type. -/
theorem C29_descriptions [Functor F] (ops : Comparisons F T A) (p : A → String) (v : A) :
    (matchEq ops p v).invert.describe = (matchNe ops p v).describe ∧
    (matchNe ops p v).invert.describe = (matchEq ops p v).describe ∧
    (matchLt ops p v).invert.describe = (matchGe ops p v).describe ∧
    (matchGe ops p v).invert.describe = (matchLt ops p v).describe ∧
    (matchLe ops p v).invert.describe = (matchGt ops p v).describe ∧
    (matchGt ops p v).invert.describe = (matchLe ops p v).describe := ⟨rfl, rfl, rfl, rfl, rfl, rfl⟩

/-- C29: what the descriptions are. -/
theorem C29_texts (ops : Comparisons F T A) (p : A → String) (v : A) :
    (matchEq ops p v).describe = some ("== " ++ p v) ∧ (matchNe ops p v).describe = some ("!= " ++ p v) ∧
    (matchLt ops p v).describe = some ("< " ++ p v) ∧ (matchLe ops p v).describe = some ("<= " ++ p v) ∧
    (matchGt ops p v).describe = some ("> " ++ p v) ∧ (matchGe ops p v).describe = some (">= " ++ p v) := by
  refine ⟨?_, ?_, ?_, ?_, ?_, ?_⟩ <;>
    simp [PMatcher.describe, matchEq, matchNe, matchLt, matchLe, matchGt, matchGe, vformat, vformatChars,
      ← String.toList_inj]

end

section
variable {T : Type} [DecidableEq T] [LT T] [LE T] [∀ a b : T, Decidable (a < b)] [∀ a b : T, Decidable (a ≤ b)]

/-- C29: `!eq` and `ne` agree; for a total order (`a < b` exactly if not `b ≤ a`), `!lt` and `ge`, `!le` and `gt`,
`!gt` and `le`, `!ge` and `lt` agree. -/
theorem C29_complement (p : T → String) (v t : T) :
    (matchEq (.of T) p v).invert.accepts t = (matchNe (.of T) p v).accepts t ∧
    ((∀ a b : T, a < b ↔ ¬ b ≤ a) →
      (matchLt (.of T) p v).invert.accepts t = (matchGe (.of T) p v).accepts t ∧
      (matchLe (.of T) p v).invert.accepts t = (matchGt (.of T) p v).accepts t ∧
      (matchGt (.of T) p v).invert.accepts t = (matchLe (.of T) p v).accepts t ∧
      (matchGe (.of T) p v).invert.accepts t = (matchLt (.of T) p v).accepts t) := by
  constructor
  · show (!decide (t = v)) = decide (t ≠ v)
    simp
  · intro h
    refine ⟨?_, ?_, ?_, ?_⟩
    · show (!decide (t < v)) = decide (v ≤ t)
      by_cases hv : v ≤ t <;> simp [h, hv]
    · show (!decide (t ≤ v)) = decide (v < t)
      by_cases hv : t ≤ v <;> simp [h, hv]
    · show (!decide (v < t)) = decide (t ≤ v)
      by_cases hv : t ≤ v <;> simp [h, hv]
    · show (!decide (v ≤ t)) = decide (t < v)
      by_cases hv : v ≤ t <;> simp [h, hv]

end

example : ((matchLt (.of Int) (fun _ => "") 5).accepts 4 ) = true ∧
    ((matchLt (.of Int) (fun _ => "") 5).invert.accepts 5 ) = true := by decide

/-- Floating point numbers: `none` is NaN, which compares with nothing. -/
def floatOps : Comparisons Id (Option Int) (Option Int) :=
  let lift (r : Int → Int → Bool) (a b : Option Int) : Bool :=
    match a, b with
    | some x, some y => r x y
    | _, _ => false
  { eq := lift (fun x y => decide (x = y)), ne := fun a b => !(lift (fun x y => decide (x = y)) a b),
    lt := lift (fun x y => decide (x < y)), le := lift (fun x y => decide (x ≤ y)),
    gt := lift (fun x y => decide (x > y)), ge := lift (fun x y => decide (x ≥ y)) }

/-- C29: with a partial order they differ: `!lt(1.0)` accepts NaN, `ge(1.0)` does not, though both have the same
description. -/
theorem C29_partial_order : ∃ (v t : Option Int), ∀ p,
    (matchLt floatOps p v).invert.accepts t = true ∧ (matchGe floatOps p v).accepts t = false ∧
    (matchLt floatOps p v).invert.describe = (matchGe floatOps p v).describe :=
  ⟨some 1, none, fun _ => ⟨rfl, rfl, rfl⟩⟩

/-- C29: `matches::instance` accepts exactly the object at the given address. -/
theorem C29_instance (p : Nat → String) (addr target : Nat) : (matchInstance p addr).accepts target = true ↔ target = addr := by
  show (target == addr) = true ↔ _
  simp

/-! ## C30 -/

section
variable {C : Type} [DecidableEq C] (nul : C)

/-- C30: every string matcher decides its relation between target and pattern, for all strings, empty ones included. -/
theorem C30_strings (k : StrKind) (print : StrArg C → String) (target pattern : List C) :
    ∃ b, (strMatcher nul k print (.str pattern)).matches (.str target) = .ok b ∧ (b = true ↔ k.rel target pattern) := by
  have := strMatch_spec (eq := charEq) (g := id) k target pattern (fun a _ b _ => rfl)
  simpa [strMatcher, PMatcher.matches, StrArg.view, bind, Except.bind] using this

/-- C30: arrays of and pointers to characters are read up to the first zero character. -/
theorem C30_c_strings (k : StrKind) (print : StrArg C → String) (target pattern rest rest' : List C) (ht : nul ∉ target)
    (hp : nul ∉ pattern) :
    (strMatcher nul k print (.cstr (pattern ++ nul :: rest))).matches (.cstr (target ++ nul :: rest')) =
      (strMatcher nul k print (.str pattern)).matches (.str target) ∧
    (strMatcher nul k print (.cstr (pattern ++ nul :: rest))).matches (.str target) =
      (strMatcher nul k print (.str pattern)).matches (.str target) ∧
    (strMatcher nul k print (.str pattern)).matches (.cstr (target ++ nul :: rest')) =
      (strMatcher nul k print (.str pattern)).matches (.str target) := by
  have key : ∀ (s r : List C), nul ∉ s → StrArg.view nul (.cstr (s ++ nul :: r)) = .ok s := by
    intro s r hs
    have h1 : nul ∈ s ++ nul :: r := by simp
    have h2 : (s ++ nul :: r).takeWhile (· ≠ nul) = s := by
      rw [List.takeWhile_append_of_pos]
      · simp
      · intro a ha
        simp only [ne_eq, decide_eq_true_eq]
        intro h; exact hs (h ▸ ha)
    rw [StrArg.view, if_pos h1, h2]
  have kp := key pattern rest hp
  have kt := key target rest' ht
  simp only [strMatcher, PMatcher.matches, kp, kt]
  exact ⟨rfl, rfl, rfl⟩

end

example : (strMatcher 'z' .contains (fun _ => "") (.str "bc".toList)).matches (.str "abcd".toList) = .ok true ∧
    (strMatcher 'z' .contains (fun _ => "") (.str "bd".toList)).matches (.str "abcd".toList) = .ok false ∧
    (strMatcher 'z' .endsWith (fun _ => "") (.str "".toList)).matches (.str "".toList) = .ok true := ⟨rfl, rfl, rfl⟩

/-! ## C31 -/

/-- C31: case folding of a character is defined exactly for non-negative values and -1, i.e. never for the other bytes
outside ASCII if `char` is signed. -/
theorem C31_fold_defined (signed : Bool) (c : Int) (hc : isChar signed c) :
    (-1 ≤ c → foldChar signed c = .ok (upper c)) ∧ (c < -1 → foldChar signed c = .error (.ub "toupper")) := by
  constructor
  · intro h
    cases signed with
    | true =>
      simp only [isChar, if_true] at hc
      have h1 : c = -1 ∨ (0 ≤ c ∧ c ≤ 255) := by omega
      simp only [foldChar, toupper, if_pos h1, bind, Except.bind, pure, Except.pure, toChar, upper, Except.ok.injEq,
        true_and]
      split <;> split <;> omega
    | false =>
      simp only [isChar, Bool.false_eq_true, if_false] at hc
      have h1 : c = -1 ∨ (0 ≤ c ∧ c ≤ 255) := by omega
      simp only [foldChar, toupper, if_pos h1, bind, Except.bind, pure, Except.pure, toChar, upper, Except.ok.injEq,
        Bool.false_eq_true, false_and, if_false]
      split <;> omega
  · intro h
    have h1 : ¬ (c = -1 ∨ (0 ≤ c ∧ c ≤ 255)) := by omega
    simp [foldChar, toupper, if_neg h1, bind, Except.bind]

/-- C31: where case folding is defined (in particular for all ASCII strings, and for all strings if `char` is unsigned),
the case-insensitive matchers decide the relation of the upper-cased strings. -/
theorem C31_case_insensitive_partial (signed : Bool) (k : StrKind) (print : StrArg Int → String) (target pattern : List Int)
    (ht : ∀ c ∈ target, isChar signed c ∧ -1 ≤ c) (hp : ∀ c ∈ pattern, isChar signed c ∧ -1 ≤ c) :
    ∃ b, (strMatcherCI signed k print (.str pattern)).matches (.str target) = .ok b ∧
      (b = true ↔ k.rel (target.map upper) (pattern.map upper)) := by
  have h := strMatch_spec (eq := foldedEq signed) (g := upper) k target pattern (fun a ha b hb => by
    obtain ⟨h1, h2⟩ := ht a ha
    obtain ⟨h3, h4⟩ := hp b hb
    simp [foldedEq, (C31_fold_defined signed a h1).1 h2, (C31_fold_defined signed b h3).1 h4, bind, Except.bind, pure,
      Except.pure])
  simpa [strMatcherCI, PMatcher.matches, StrArg.view, bind, Except.bind] using h

/-- C31: they accept everything that the case-sensitive ones accept. -/
theorem C31_weaker_partial (signed : Bool) (k : StrKind) (print : StrArg Int → String) (target pattern : List Int)
    (ht : ∀ c ∈ target, isChar signed c ∧ -1 ≤ c) (hp : ∀ c ∈ pattern, isChar signed c ∧ -1 ≤ c)
    (h : (strMatcher 0 k print (.str pattern)).matches (.str target) = .ok true) :
    (strMatcherCI signed k print (.str pattern)).matches (.str target) = .ok true := by
  obtain ⟨b, h1, h2⟩ := C30_strings 0 k print target pattern
  rw [h] at h1
  simp only [Except.ok.injEq] at h1
  have hr : k.rel target pattern := h2.mp h1.symm
  obtain ⟨b', h3, h4⟩ := C31_case_insensitive_partial signed k print target pattern ht hp
  rw [h3]
  congr 1
  rw [h4]
  cases k with
  | eq => simp only [StrKind.rel] at hr ⊢; rw [hr]
  | startsWith =>
    obtain ⟨r, hr⟩ := hr
    exact ⟨r.map upper, by rw [hr]; simp⟩
  | endsWith =>
    obtain ⟨r, hr⟩ := hr
    exact ⟨r.map upper, by rw [hr]; simp⟩
  | contains =>
    obtain ⟨r, r', hr⟩ := hr
    exact ⟨r.map upper, r'.map upper, by rw [hr]; simp⟩

/-- C31: changing the case of letters, of the target or the pattern, changes nothing. -/
theorem C31_insensitive_partial (signed : Bool) (k : StrKind) (print : StrArg Int → String)
    (target target' pattern pattern' : List Int)
    (ht : ∀ c ∈ target ++ target' ++ pattern ++ pattern', isChar signed c ∧ -1 ≤ c)
    (h1 : target.map upper = target'.map upper) (h2 : pattern.map upper = pattern'.map upper) :
    (strMatcherCI signed k print (.str pattern)).matches (.str target) =
      (strMatcherCI signed k print (.str pattern')).matches (.str target') := by
  obtain ⟨b, e1, e2⟩ := C31_case_insensitive_partial signed k print target pattern (fun c hc => ht c (by simp [hc]))
    (fun c hc => ht c (by simp [hc]))
  obtain ⟨b', e3, e4⟩ := C31_case_insensitive_partial signed k print target' pattern' (fun c hc => ht c (by simp [hc]))
    (fun c hc => ht c (by simp [hc]))
  rw [e1, e3]
  congr 1
  rw [Bool.eq_iff_iff, e2, e4, h1, h2]

/-- C31: arrays of and pointers to characters are read up to the first zero character here, too. -/
theorem C31_c_strings (signed : Bool) (k : StrKind) (print : StrArg Int → String) (target pattern rest rest' : List Int)
    (ht : 0 ∉ target) (hp : 0 ∉ pattern) :
    (strMatcherCI signed k print (.cstr (pattern ++ 0 :: rest))).matches (.cstr (target ++ 0 :: rest')) =
      (strMatcherCI signed k print (.str pattern)).matches (.str target) ∧
    (strMatcherCI signed k print (.cstr (pattern ++ 0 :: rest))).matches (.str target) =
      (strMatcherCI signed k print (.str pattern)).matches (.str target) ∧
    (strMatcherCI signed k print (.str pattern)).matches (.cstr (target ++ 0 :: rest')) =
      (strMatcherCI signed k print (.str pattern)).matches (.str target) := by
  have key : ∀ (s r : List Int), 0 ∉ s → StrArg.view 0 (.cstr (s ++ 0 :: r)) = .ok s := by
    intro s r hs
    have h1 : (0 : Int) ∈ s ++ 0 :: r := by simp
    have h2 : (s ++ 0 :: r).takeWhile (· ≠ 0) = s := by
      rw [List.takeWhile_append_of_pos]
      · simp
      · intro a ha
        simp only [ne_eq, decide_eq_true_eq]
        intro h; exact hs (h ▸ ha)
    rw [StrArg.view, if_pos h1, h2]
  have kp := key pattern rest hp
  have kt := key target rest' ht
  simp only [strMatcherCI, PMatcher.matches, kp, kt]
  exact ⟨rfl, rfl, rfl⟩

/-- C31 fails beyond that: if `char` is signed, every case-insensitive matcher has undefined behaviour on some strings
that consist of values of `char` (here "Ä" in ISO 8859-1). -/
theorem C31_undefined (k : StrKind) (print : StrArg Int → String) : ∃ target pattern : List Int,
    (∀ c ∈ target ++ pattern, isChar true c) ∧
    (strMatcherCI true k print (.str pattern)).matches (.str target) = .error (.ub "toupper") := by
  refine ⟨[-60], [-60], by simp [isChar], ?_⟩
  cases k <;> rfl

example : (strMatcherCI true .eq (fun _ => "") (.str [104, 105])).matches (.str [72, 105]) = .ok true := by rfl

/-! ## C32 -/

section
variable {E B : Type}

/-- C32: `range::eq` accepts exactly ranges that agree element by element (with any comparator). -/
theorem C32_eq (comp : E → B → Bool) (print : List B → String) (expected : List B) (target : List E) :
    (rangeEq comp print expected).accepts target = true ↔ Elementwise comp target expected :=
  rangesEqual_elementwise comp target expected

/-- C32: with `==`, exactly equal ranges. -/
theorem C32_eq_lawful [DecidableEq E] (print : List E → String) (expected target : List E) :
    (rangeEq (fun a b => decide (a = b)) print expected).accepts target = true ↔ target = expected := by
  rw [C32_eq]
  constructor
  · rintro ⟨hl, h⟩
    apply List.ext_getElem hl
    intro i h1 h2
    exact of_decide_eq_true (h i _ _ (List.getElem?_eq_getElem h1) (List.getElem?_eq_getElem h2))
  · rintro rfl
    refine ⟨rfl, fun i a b h1 h2 => ?_⟩
    rw [h1] at h2
    simp only [Option.some.injEq] at h2
    simp [h2]

theorem perm_map_lift {A Q : Type} (f : A → Q) : ∀ {as bs : List A}, (as.map f).Perm (bs.map f) →
    ∃ l : List A, l.Perm bs ∧ l.map f = as.map f := by
  intro as
  induction as with
  | nil =>
    intro bs h
    have : bs = [] := by simpa using h
    exact ⟨[], by rw [this], rfl⟩
  | cons a as ih =>
    intro bs h
    have hm : f a ∈ bs.map f := h.mem_iff.mp (by simp)
    obtain ⟨b, hb, hfb⟩ := List.mem_map.mp hm
    obtain ⟨s, t, rfl⟩ := List.append_of_mem hb
    have hp : (s ++ b :: t).Perm (b :: (s ++ t)) := List.perm_middle
    have h2 : (f a :: as.map f).Perm (f b :: (s ++ t).map f) := h.trans (hp.map f)
    rw [hfb, List.perm_cons] at h2
    obtain ⟨l, h3, h4⟩ := ih h2
    exact ⟨b :: l, (List.Perm.cons b h3).trans hp.symm, by simp [hfb, h4]⟩

/-- C32: `range::unordered_eq`, for a comparator that is an equivalence relation, accepts exactly the ranges that agree
element by element with some permutation of the expected one. -/
theorem C32_unordered (comp : E → E → Bool) (hcomp : IsEquiv comp) (print : List E → String) (expected target : List E) :
    (rangeUnorderedEq comp print expected).accepts target = true ↔
      ∃ l, l.Perm expected ∧ Elementwise comp target l := by
  let s : Setoid E := ⟨fun a b => comp a b = true, ⟨hcomp.refl, fun {a b} => hcomp.symm a b, fun {a b c} => hcomp.trans a b c⟩⟩
  let f : E → Quotient s := Quotient.mk s
  have hf : ∀ a b, f a = f b ↔ comp a b = true := fun a b => ⟨Quotient.exact, fun h => Quotient.sound h⟩
  let : DecidableEq (Quotient s) := fun _ _ => Classical.propDecidable _
  have hc : comp = (fun a b => decide (f a = f b)) := by
    funext a b
    rw [Bool.eq_iff_iff, decide_eq_true_iff, hf]
  have h1 : (rangeUnorderedEq comp print expected).accepts target = true ↔ (target.map f).Perm (expected.map f) := by
    show isPermutation comp target expected = true ↔ _
    rw [hc, isPermutation_spec]
  rw [h1]
  have hel : ∀ l : List E, Elementwise comp target l ↔ l.map f = target.map f := by
    intro l
    constructor
    · rintro ⟨hl, h⟩
      apply List.ext_getElem (by simp [hl])
      intro i h1 h2
      simp only [List.getElem_map]
      simp only [List.length_map] at h1 h2
      rw [eq_comm, hf]
      exact h i _ _ (List.getElem?_eq_getElem h2) (List.getElem?_eq_getElem h1)
    · intro h
      refine ⟨by simpa using (congrArg List.length h).symm, fun i a b ha hb => ?_⟩
      have h2 := congrArg (fun l : List (Quotient s) => l[i]?) h
      simp only [List.getElem?_map, ha, hb, Option.map_some, Option.some.injEq] at h2
      rw [← hf]; exact h2.symm
  constructor
  · intro h
    obtain ⟨l, h2, h3⟩ := perm_map_lift f h
    exact ⟨l, h2, (hel l).mpr h3⟩
  · rintro ⟨l, h2, h3⟩
    rw [← (hel l).mp h3]
    exact h2.map f

/-- C32: with `==`, exactly the permutations. -/
theorem C32_unordered_lawful [DecidableEq E] (print : List E → String) (expected target : List E) :
    (rangeUnorderedEq (fun a b => decide (a = b)) print expected).accepts target = true ↔ target.Perm expected := by
  show isPermutation (fun a b => decide (a = b)) target expected = true ↔ _
  have := isPermutation_spec (id : E → E) target expected
  simpa using this

/-- C32: `range::is_sorted` accepts exactly the ranges without an adjacent inversion. -/
theorem C32_sorted (rel : E → E → Bool) (target : List E) :
    (rangeIsSorted rel).accepts target = true ↔
      ∀ (i : Nat) (a b : E), target[i]? = some a → target[i + 1]? = some b → rel b a = false := by
  show isSorted rel target = true ↔ _
  induction target with
  | nil => simp [isSorted]
  | cons x l ih =>
    cases l with
    | nil => simp [isSorted]
    | cons y r =>
      simp only [isSorted, Bool.and_eq_true, Bool.not_eq_true', ih]
      constructor
      · rintro ⟨h1, h2⟩ i a b ha hb
        cases i with
        | zero => simp at ha hb; subst ha hb; exact h1
        | succ i => exact h2 i a b (by simpa using ha) (by simpa using hb)
      · intro h
        exact ⟨h 0 x y rfl rfl, fun i a b ha hb => h (i + 1) a b (by simpa using ha) (by simpa using hb)⟩

/-- C32: for a strict weak order these are the globally sorted ranges. -/
theorem C32_sorted_global (rel : E → E → Bool) (hrel : IsStrictWeak rel) (target : List E) :
    (rangeIsSorted rel).accepts target = true ↔ target.Pairwise (fun a b => rel b a = false) := by
  show isSorted rel target = true ↔ _
  induction target with
  | nil => simp [isSorted]
  | cons x l ih =>
    cases l with
    | nil => simp [isSorted]
    | cons y r =>
      simp only [isSorted, Bool.and_eq_true, Bool.not_eq_true', ih]
      rw [List.pairwise_cons (a := x)]
      constructor
      · rintro ⟨h1, h2⟩
        refine ⟨fun z hz => ?_, h2⟩
        simp only [List.mem_cons] at hz
        rcases hz with rfl | hz
        · exact h1
        · exact hrel.incomp _ _ _ ((List.pairwise_cons.mp h2).1 z hz) h1
      · rintro ⟨h1, h2⟩
        exact ⟨h1 y (by simp), h2⟩

/-- C32: `range::is_empty` and `range::has_size` decide by the length; a negative size matches nothing. -/
theorem C32_size (print : Int → String) (n : Int) (target : List E) :
    ((rangeIsEmpty (E := E)).accepts target = true ↔ target.length = 0) ∧
    ((rangeHasSize (E := E) print n).accepts target = true ↔ (target.length : Int) = n) ∧
    (n < 0 → (rangeHasSize (E := E) print n).accepts target = false) := by
  refine ⟨?_, ?_, ?_⟩
  · show target.isEmpty = true ↔ _
    rw [List.isEmpty_iff_length_eq_zero]
  · show decide (n = (target.length : Int)) = true ↔ _
    rw [decide_eq_true_iff, eq_comm]
  · intro h
    show decide (n = (target.length : Int)) = false
    rw [decide_eq_false_iff_not]
    omega

variable {X : Type}

/-- C32: `range::each_element` / `range::any_element` accept exactly when all / some elements are accepted. -/
theorem C32_elements (m : PMatcher Id E X) (target : List E) :
    ((rangeEachElement m).accepts target = true ↔ ∀ x ∈ target, m.accepts x = true) ∧
    ((rangeAnyElement m).accepts target = true ↔ ∃ x ∈ target, m.accepts x = true) := by
  constructor
  · show (allOf (G := Id) m.accepts target : Bool) = true ↔ _
    induction target with
    | nil => exact ⟨fun _ => by simp, fun _ => rfl⟩
    | cons x l ih =>
      have : (allOf (G := Id) m.accepts (x :: l) : Bool) = if m.accepts x = true then (allOf (G := Id) m.accepts l : Bool) else false := rfl
      rw [this]
      split
      · rename_i h; simp only [List.mem_cons, forall_eq_or_imp, h, true_and]; exact ih
      · rename_i h; simp [h]
  · show (anyOf (G := Id) m.accepts target : Bool) = true ↔ _
    induction target with
    | nil => exact ⟨fun h => by simp [anyOf, pure] at h, fun h => by simp at h⟩
    | cons x l ih =>
      have : (anyOf (G := Id) m.accepts (x :: l) : Bool) = if m.accepts x = true then true else (anyOf (G := Id) m.accepts l : Bool) := rfl
      rw [this]
      split
      · rename_i h; simp [h]
      · rename_i h; simp only [List.mem_cons, exists_eq_or_imp, h, Bool.false_eq_true, false_or]; exact ih

/-- C32: `!any_element(m)` and `each_element(!m)` agree, and so do `!each_element(m)` and `any_element(!m)`; also on
whether the element matcher throws. -/
theorem C32_de_morgan (m : PMatcher Option E X) (target : List E) :
    (rangeAnyElement m).invert.matches target = (rangeEachElement m.invert).matches target ∧
    (rangeEachElement m).invert.matches target = (rangeAnyElement m.invert).matches target := by
  have e1 : ∀ x, m.invert.matches x = (m.matches x).map not := fun _ => rfl
  constructor
  · show (anyOf m.matches target).map not = allOf m.invert.matches target
    induction target with
    | nil => rfl
    | cons x l ih =>
      simp only [anyOf, allOf, e1, bind, Option.bind]
      cases m.matches x with
      | none => rfl
      | some b => cases b <;> simp_all [pure]
  · show (allOf m.matches target).map not = anyOf m.invert.matches target
    induction target with
    | nil => rfl
    | cons x l ih =>
      simp only [anyOf, allOf, e1, bind, Option.bind]
      cases m.matches x with
      | none => rfl
      | some b => cases b <;> simp_all [pure]

end

/-- C29: what `instance` says of itself. -/
theorem C29_instance_texts (p : Nat → String) (addr : Nat) :
    (matchInstance p addr).describe = some ("is instance at " ++ p addr) ∧
    (matchInstance p addr).invert.describe = some ("is not instance at " ++ p addr) := by
  constructor <;> simp [PMatcher.describe, PMatcher.invert, matchInstance, vformat, vformatChars, ← String.toList_inj]

/-- C29: what `predicate` says of itself if the client gives no texts, or texts without braces. -/
theorem C29_predicate_texts {T : Type} (pr : T → Option Bool) :
    (matchPredicate pr).describe = some "passes predicate" ∧ (matchPredicate pr).invert.describe = some "fails predicate" ∧
    ∀ d i : String, (∀ c ∈ d.toList ++ i.toList, c ≠ '{' ∧ c ≠ '}') →
      (matchPredicate pr d i).describe = some d ∧ (matchPredicate pr d i).invert.describe = some i := by
  have key : ∀ l : List Char, (∀ c ∈ l, c ≠ '{' ∧ c ≠ '}') → vformatChars l [] = some l := by
    intro l
    induction l with
    | nil => intro _; rfl
    | cons c l ih =>
      intro hl
      have hc := hl c (by simp)
      have := ih (fun d hd => hl d (by simp [hd]))
      unfold vformatChars
      split <;> simp_all
  have all : ∀ d i : String, (∀ c ∈ d.toList ++ i.toList, c ≠ '{' ∧ c ≠ '}') →
      (matchPredicate pr d i).describe = some d ∧ (matchPredicate pr d i).invert.describe = some i := by
    intro d i h
    have h1 := key d.toList fun c hc => h c (by simp [hc])
    have h2 := key i.toList fun c hc => h c (by simp [hc])
    constructor <;> simp [PMatcher.describe, PMatcher.invert, matchPredicate, vformat, h1, h2]
  exact ⟨(all _ _ (by decide)).1, (all _ _ (by decide)).2, all⟩

/-- C30, C31: what the string matchers say of themselves, in words that do not depend on the pattern, followed by the pattern. -/
theorem C30_texts {C : Type} [DecidableEq C] (nul : C) (k : StrKind) (print : StrArg C → String) (pattern : StrArg C) :
    (strMatcher nul k print pattern).describe = some (k.says.1 ++ print pattern) ∧
    (strMatcher nul k print pattern).invert.describe = some (k.says.2 ++ print pattern) := by
  cases k <;> constructor <;>
    simp [PMatcher.describe, PMatcher.invert, strMatcher, StrKind.says, vformat, vformatChars, ← String.toList_inj]

theorem C31_texts (signed : Bool) (k : StrKind) (print : StrArg Int → String) (pattern : StrArg Int) :
    (strMatcherCI signed k print pattern).describe = some (k.saysFolded.1 ++ print pattern) ∧
    (strMatcherCI signed k print pattern).invert.describe = some (k.saysFolded.2 ++ print pattern) := by
  cases k <;> constructor <;>
    simp [PMatcher.describe, PMatcher.invert, strMatcherCI, StrKind.saysFolded, vformat, vformatChars, ← String.toList_inj]

/-- C32: what the range matchers say of themselves. -/
theorem C32_texts {E B : Type} (comp : E → B → Bool) (comp' rel : E → E → Bool) (print : List B → String) (print' : List E → String)
    (printN : Int → String) (l : List B) (l' : List E) (n : Int) :
    (rangeEq comp print l).describe = some ("elements are " ++ print l) ∧
    (rangeEq comp print l).invert.describe = some ("elements are not " ++ print l) ∧
    (rangeUnorderedEq comp' print' l').describe = some ("is a permutation of " ++ print' l') ∧
    (rangeUnorderedEq comp' print' l').invert.describe = some ("is not a permutation of " ++ print' l') ∧
    (rangeIsSorted rel).describe = some "is a sorted range" ∧ (rangeIsSorted rel).invert.describe = some "is an unsorted range" ∧
    (rangeIsEmpty (E := E)).describe = some "is an empty range" ∧ (rangeIsEmpty (E := E)).invert.describe = some "is not an empty range" ∧
    (rangeHasSize (E := E) printN n).describe = some ("has size of " ++ printN n) ∧
    (rangeHasSize (E := E) printN n).invert.describe = some ("has different size than " ++ printN n) := by
  refine ⟨?_, ?_, ?_, ?_, ?_, ?_, ?_, ?_, ?_, ?_⟩ <;>
    simp [PMatcher.describe, PMatcher.invert, rangeEq, rangeUnorderedEq, rangeIsSorted, rangeIsEmpty, rangeHasSize, vformat, vformatChars,
      ← String.toList_inj]

/-- C32: the matchers for elements repeat what the matcher they are made of says; they throw where it throws. -/
theorem C32_element_texts {E X : Type} (m : PMatcher Option E X) :
    (rangeEachElement m).describe = m.describe.map ("each el in range: el " ++ ·) ∧
    (rangeEachElement m).invert.describe = m.describe.map ("not each el in range: el " ++ ·) ∧
    (rangeAnyElement m).describe = m.describe.map ("any el in range: el " ++ ·) ∧
    (rangeAnyElement m).invert.describe = m.describe.map ("none el in range: el " ++ ·) := by
  have h1 : (rangeEachElement m).describe = (m.describe.map ([·])).bind (vformat "each el in range: el {}") := rfl
  have h2 : (rangeEachElement m).invert.describe = (m.describe.map ([·])).bind (vformat "not each el in range: el {}") := rfl
  have h3 : (rangeAnyElement m).describe = (m.describe.map ([·])).bind (vformat "any el in range: el {}") := rfl
  have h4 : (rangeAnyElement m).invert.describe = (m.describe.map ([·])).bind (vformat "none el in range: el {}") := rfl
  rw [h1, h2, h3, h4]
  cases m.describe with
  | none => simp
  | some d => refine ⟨?_, ?_, ?_, ?_⟩ <;> simp [vformat, vformatChars, ← String.toList_inj]

example : ((rangeUnorderedEq (fun a b => decide (a = b)) (fun _ => "") [1, 2, 2, 3]).accepts [2, 1, 3, 2] ) = true ∧
    ((rangeUnorderedEq (fun a b => decide (a = b)) (fun _ => "") [1, 2, 2, 3]).accepts [2, 1, 3, 3] ) = false ∧
    ((rangeIsSorted (fun a b : Nat => decide (a < b))).accepts [1, 2, 2, 3] ) = true := by decide

example : IsStrictWeak (fun a b : Nat => decide (a < b)) :=
  ⟨by simp, by simp; omega, by simp; omega⟩

example : IsEquiv (fun a b : Nat => decide (a % 3 = b % 3)) :=
  ⟨by simp, by simp; omega, by simp; omega⟩

end Mimic
