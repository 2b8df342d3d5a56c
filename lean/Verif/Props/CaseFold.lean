import Verif.Proofs.CaseFold
import Verif.Props.Matchers

/-!
# C63: string matchers on Unicode texts
-/

set_option autoImplicit false

namespace Mimic.Fold

/-- C63: the case-sensitive matchers compare code units, but on well-formed texts they decide about code points: no match begins or ends
inside a code point. -/
theorem C63_units (u : Utf) (k : StrKind) (print : StrArg Nat → String) (target pattern : List Nat) (ht : Scalars target)
    (hp : Scalars pattern) :
    ∃ b, (strMatcher 0 k print (.str (u.units pattern))).matches (.str (u.units target)) = .ok b ∧ (b = true ↔ k.rel target pattern) := by
  obtain ⟨b, h1, h2⟩ := C30_strings 0 k print (u.units target) (u.units pattern)
  exact ⟨b, h1, h2.trans (rel_units u k ht hp)⟩

/-- C63: the code units of texts fit into their character type. -/
theorem C63_fit (u : Utf) {cs : List Nat} (h : Scalars cs) : ∀ x ∈ u.units cs, x < u.values := by
  intro x hx
  simp only [Utf.units, List.mem_flatMap] at hx
  obtain ⟨c, hc, hx⟩ := hx
  have := h c hc
  simp only [scalar] at this
  cases u with
  | u8 => simp only [Utf.enc, utf8] at hx; simp only [Utf.values]; grind
  | u16 => simp only [Utf.enc, utf16] at hx; simp only [Utf.values]; grind
  | u32 => simp only [Utf.enc, utf32] at hx; simp only [Utf.values]; grind

/-- C63: what a case-insensitive matcher says of itself: it shows the pattern as it was given. -/
theorem C63_texts {C : Type} [DecidableEq C] (nul : C) (fold : List C → M (List C)) (k : StrKind) (print : StrArg C → String) (pattern : StrArg C) :
    (strMatcherFold nul fold k print pattern).describe = some (k.saysFolded.1 ++ print pattern) ∧
    (strMatcherFold nul fold k print pattern).invert.describe = some (k.saysFolded.2 ++ print pattern) := by
  cases k <;> constructor <;>
    simp [PMatcher.describe, PMatcher.invert, strMatcherFold, StrKind.saysFolded, vformat, vformatChars, ← String.toList_inj]

/-- C63: with any converter, for any type of characters, a case-insensitive matcher decides the relation of the folded strings. -/
theorem C63_folded {C : Type} [DecidableEq C] (nul : C) (fold : List C → M (List C)) (k : StrKind) (print : StrArg C → String)
    (target pattern t p : List C) (ht : fold target = .ok t) (hp : fold pattern = .ok p) :
    ∃ b, (strMatcherFold nul fold k print (.str pattern)).matches (.str target) = .ok b ∧ (b = true ↔ k.rel t p) := by
  obtain ⟨b, h1, h2⟩ := strMatch_spec (eq := charEq) (g := id) k t p (fun _ _ _ _ => rfl)
  refine ⟨b, ?_, by simpa using h2⟩
  simp only [strMatcherFold, PMatcher.matches, StrArg.view, bind, Except.bind, ht, hp]
  exact h1

/-- C63: strings that are folded to the same are interchangeable. -/
theorem C63_insensitive {C : Type} [DecidableEq C] (nul : C) (fold : List C → M (List C)) (k : StrKind) (print : StrArg C → String)
    (target target' pattern pattern' : List C) (ht : fold target = fold target') (hp : fold pattern = fold pattern') :
    (strMatcherFold nul fold k print (.str pattern)).matches (.str target) =
      (strMatcherFold nul fold k print (.str pattern')).matches (.str target') := by
  simp only [strMatcherFold, PMatcher.matches, StrArg.view, bind, Except.bind, ht, hp]

/-- C63: with a converter that folds code points, the matchers decide on well-formed texts about the folded code points, in all three
encodings alike. -/
theorem C63_points {u : Utf} {f : Nat → List Nat} {fold : List Nat → M (List Nat)} (hf : FoldsBy u f fold) (k : StrKind)
    (print : StrArg Nat → String) (target pattern : List Nat) (ht : Scalars target) (hp : Scalars pattern) :
    ∃ b, (strMatcherFold 0 fold k print (.str (u.units pattern))).matches (.str (u.units target)) = .ok b ∧
      (b = true ↔ k.rel (target.flatMap f) (pattern.flatMap f)) := by
  obtain ⟨b, h1, h2⟩ := C63_folded 0 fold k print _ _ _ _ (hf.folds target ht) (hf.folds pattern hp)
  exact ⟨b, h1, h2.trans (rel_units u k (scalars_flatMap hf.scalars ht) (scalars_flatMap hf.scalars hp))⟩

/-- C63: they accept a text if some part of it (the beginning, the end, any part, all of it) is folded to the same as the pattern. -/
theorem C63_accepts {u : Utf} {f : Nat → List Nat} {fold : List Nat → M (List Nat)} (hf : FoldsBy u f fold) (k : StrKind)
    (print : StrArg Nat → String) (target pattern part : List Nat) (ht : Scalars target) (hp : Scalars pattern)
    (hk : k.rel target part) (he : part.flatMap f = pattern.flatMap f) :
    (strMatcherFold 0 fold k print (.str (u.units pattern))).matches (.str (u.units target)) = .ok true := by
  obtain ⟨b, h1, h2⟩ := C63_points hf k print target pattern ht hp
  rw [h1, h2.mpr (he ▸ rel_flatMap hk)]

/-- C63: on well-formed texts they accept everything that the case-sensitive ones accept. -/
theorem C63_weaker {u : Utf} {f : Nat → List Nat} {fold : List Nat → M (List Nat)} (hf : FoldsBy u f fold) (k : StrKind)
    (print : StrArg Nat → String) (target pattern : List Nat) (ht : Scalars target) (hp : Scalars pattern)
    (h : (strMatcher 0 k print (.str (u.units pattern))).matches (.str (u.units target)) = .ok true) :
    (strMatcherFold 0 fold k print (.str (u.units pattern))).matches (.str (u.units target)) = .ok true := by
  obtain ⟨b, h1, h2⟩ := C63_units u k print target pattern ht hp
  rw [h] at h1
  simp only [Except.ok.injEq] at h1
  exact C63_accepts hf k print target pattern pattern ht hp (h2.mp h1.symm) rfl

/-- C63: they accept nothing else, provided that each code point of the target is folded to a single one. Missing: targets with other code
points, see `C63_half`. -/
theorem C63_only_partial {u : Utf} {f : Nat → List Nat} {fold : List Nat → M (List Nat)} (hf : FoldsBy u f fold) (k : StrKind)
    (print : StrArg Nat → String) (target pattern : List Nat) (ht : Scalars target) (hp : Scalars pattern)
    (hs : ∀ c ∈ target, (f c).length = 1) :
    (strMatcherFold 0 fold k print (.str (u.units pattern))).matches (.str (u.units target)) = .ok true ↔
      ∃ part, k.rel target part ∧ part.flatMap f = pattern.flatMap f := by
  constructor
  · intro h
    obtain ⟨b, h1, h2⟩ := C63_points hf k print target pattern ht hp
    rw [h] at h1
    simp only [Except.ok.injEq] at h1
    have hr := h2.mp h1.symm
    rw [flatMap_single hs] at hr
    obtain ⟨part, h3, h4⟩ := rel_map hr
    refine ⟨part, h3, ?_⟩
    rw [flatMap_single, h4]
    intro c hc
    apply hs c
    cases k with
    | eq => simp only [StrKind.rel] at h3; rw [h3]; exact hc
    | startsWith => obtain ⟨r, rfl⟩ := h3; simp [hc]
    | endsWith => obtain ⟨r, rfl⟩ := h3; simp [hc]
    | contains => obtain ⟨r, r', rfl⟩ := h3; simp [hc]
  · rintro ⟨part, h1, h2⟩
    exact C63_accepts hf k print target pattern part ht hp h1 h2

/-- `eq` accepts nothing else in any case. -/
theorem C63_eq {u : Utf} {f : Nat → List Nat} {fold : List Nat → M (List Nat)} (hf : FoldsBy u f fold)
    (print : StrArg Nat → String) (target pattern : List Nat) (ht : Scalars target) (hp : Scalars pattern) :
    (strMatcherFold 0 fold .eq print (.str (u.units pattern))).matches (.str (u.units target)) = .ok true ↔
      target.flatMap f = pattern.flatMap f := by
  obtain ⟨b, h1, h2⟩ := C63_points hf .eq print target pattern ht hp
  rw [h1, Except.ok.injEq, h2]
  exact Iff.rfl

/-- C63: the modelled converters of the library fold code points, so that the theorems apply to them. -/
theorem C63_converters (u : Utf) {f : Nat → List Nat} (hf : ∀ c, scalar c → Scalars (f c)) :
    FoldsBy u f (casefold u.next u.enc f) := casefold_foldsBy u hf

/-- Folding that leaves everything but the German "ß" and the ASCII capitals alone; these are as Unicode says (and as the repository
expects, String.cpp 521-525). -/
def someFold (c : Nat) : List Nat := if c = 0xDF then [0x73, 0x73] else if 0x41 ≤ c ∧ c ≤ 0x5A then [c + 32] else [c]

theorem someFold_scalars (c : Nat) (h : scalar c) : Scalars (someFold c) := by
  intro d hd
  simp only [someFold] at hd
  simp only [scalar] at *
  split at hd
  · simp at hd; omega
  · split at hd <;> simp at hd <;> omega

/-- C63 fails beyond that: "ß" starts with, ends with and contains "s" case-insensitively, in every encoding, although no part of it is
case-insensitively equal to "s". -/
theorem C63_half (u : Utf) (k : StrKind) (hk : k ≠ .eq) (print : StrArg Nat → String) :
    (strMatcherFold 0 (casefold u.next u.enc someFold) k print (.str (u.units [0x73]))).matches (.str (u.units [0xDF])) = .ok true ∧
    ∀ part, k.rel [0xDF] part →
      (strMatcherFold 0 (casefold u.next u.enc someFold) .eq print (.str (u.units [0x73]))).matches (.str (u.units part)) = .ok false := by
  have hf := C63_converters u someFold_scalars
  have hp : Scalars [0x73] := by intro c hc; simp at hc; subst hc; simp [scalar]
  constructor
  · obtain ⟨b, h1, h2⟩ := C63_points hf k print [0xDF] [0x73] (by intro c hc; simp at hc; subst hc; simp [scalar]) hp
    rw [h1]
    congr 1
    rw [h2]
    cases k with
    | eq => exact absurd rfl hk
    | startsWith => exact ⟨[0x73], rfl⟩
    | endsWith => exact ⟨[0x73], rfl⟩
    | contains => exact ⟨[0x73], [], rfl⟩
  · intro part hr
    have hpart : part = [] ∨ part = [0xDF] := by
      cases k with
      | eq => exact absurd rfl hk
      | startsWith => obtain ⟨r, hr⟩ := hr; cases part <;> simp_all
      | endsWith => obtain ⟨r, hr⟩ := hr; cases r <;> simp_all
      | contains =>
        obtain ⟨r, r', hr⟩ := hr
        cases r with
        | nil => cases part <;> simp_all
        | cons a r => simp_all
    rcases hpart with rfl | rfl <;> cases u <;> rfl

/-- C63 fails for ill-formed patterns, too: the first unit of "ß" in UTF-8 is found in "ß" by the case-sensitive matchers, but not by the
case-insensitive ones. -/
theorem C63_cut (print : StrArg Nat → String) :
    (strMatcher 0 .startsWith print (.str [0xC3])).matches (.str (Utf.u8.units [0xDF])) = .ok true ∧
    (strMatcherFold 0 (casefold take8 utf8 someFold) .startsWith print (.str [0xC3])).matches (.str (Utf.u8.units [0xDF])) = .ok false :=
  ⟨rfl, rfl⟩

/-- C63: on strings of which the folding is defined, the lazy converter for `char` (C31) makes no difference to one that folds the whole
string. -/
theorem C63_lazy (signed : Bool) (k : StrKind) (print : StrArg Int → String) (target pattern : List Int)
    (ht : ∀ c ∈ target, isChar signed c ∧ -1 ≤ c) (hp : ∀ c ∈ pattern, isChar signed c ∧ -1 ≤ c) :
    (strMatcherCI signed k print (.str pattern)).matches (.str target) =
      (strMatcherFold 0 (List.mapM (foldChar signed)) k print (.str pattern)).matches (.str target) := by
  have key : ∀ s : List Int, (∀ c ∈ s, isChar signed c ∧ -1 ≤ c) → s.mapM (foldChar signed) = .ok (s.map upper) := by
    intro s hs
    induction s with
    | nil => rfl
    | cons c s ih =>
      obtain ⟨h1, h2⟩ := hs c (by simp)
      rw [List.mapM_cons, (C31_fold_defined signed c h1).1 h2, ih (fun d hd => hs d (by simp [hd]))]
      rfl
  obtain ⟨b, h1, h2⟩ := C31_case_insensitive_partial signed k print target pattern ht hp
  obtain ⟨b', h3, h4⟩ := C63_folded 0 (List.mapM (foldChar signed)) k print target pattern _ _ (key target ht) (key pattern hp)
  rw [h1, h3]
  congr 1
  rw [Bool.eq_iff_iff, h2, h4]

/-! ## Examples -/

/-- "Straße" and "STRASSE". -/
example : (strMatcherFold 0 (casefold take8 utf8 someFold) .eq (fun _ => "") (.str (Utf.u8.units [83, 84, 82, 65, 83, 83, 69]))).matches
    (.str (Utf.u8.units [83, 116, 114, 97, 0xDF, 101])) = .ok true := by rfl

/-- U+10400 and U+20AC in all encodings. -/
example : Utf.u8.units [0x10400, 0x20AC] = [0xF0, 0x90, 0x90, 0x80, 0xE2, 0x82, 0xAC] ∧
    Utf.u16.units [0x10400, 0x20AC] = [0xD801, 0xDC00, 0x20AC] := by decide

/-- The units of a code point may contain the units of nothing else: "¬" (C2 AC) is not in "€" (E2 82 AC). -/
example : (strMatcher 0 .contains (fun _ => "") (.str (Utf.u8.units [0xAC]))).matches (.str (Utf.u8.units [0x20AC])) = .ok false := by rfl

example : Scalars [0x10400, 0x20AC] ∧ scalar 0xDF ∧ ¬ scalar 0xD801 := by simp [Scalars, scalar]

end Mimic.Fold
