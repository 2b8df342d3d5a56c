import Verif.Model.Matcher

/-!
# String matchers and Unicode

Models the case-insensitive string matchers (`/repo/include/mimic++/Matcher.hpp` 515-522, 616-638, 667-691, 721-747, 777-800) for an
arbitrary `string_case_fold_converter` (`/repo/include/mimic++/String.hpp` 347-387), and the converters that the configuration
`MIMICPP_CONFIG_EXPERIMENTAL_UNICODE_STR_MATCHER` adds (String.hpp 427-532). These call the library `uni-algo`, which is not part of the
repository: its case folding of single code points is a parameter here.
-/

set_option autoImplicit false

namespace Mimic.Fold

variable {C : Type}

/-- Matcher.hpp 515-522 and the case-insensitive matchers: target and pattern are folded as a whole, then compared unit by unit. The
descriptions are those of `strMatcherCI`. Simplification: for `char` the library folds lazily (`strMatcherCI`). -/
def strMatcherFold [DecidableEq C] (nul : C) (fold : List C → M (List C)) (k : StrKind) (print : StrArg C → String)
    (pattern : StrArg C) : PMatcher M (StrArg C) (StrArg C) where
  pred t p := do
    let p' ← fold (← p.view nul)
    let t' ← fold (← t.view nul)
    strMatch k charEq t' p'
  fmt := match k with
    | .eq => "is case-insensitively equal to {}" | .startsWith => "case-insensitively starts with {}"
    | .endsWith => "case-insensitively ends with {}" | .contains => "case-insensitively contains {}"
  invFmt := match k with
    | .eq => "is case-insensitively not equal to {}" | .startsWith => "case-insensitively starts not with {}"
    | .endsWith => "case-insensitively ends not with {}" | .contains => "case-insensitively contains not {}"
  arg := pattern
  print a := some [print a]

/-! ## Encodings (the Unicode standard, section 3.9) -/

/-- The code units of a code point in UTF-8. -/
def utf8 (c : Nat) : List Nat :=
  if c < 0x80 then [c]
  else if c < 0x800 then [0xC0 + c / 64, 0x80 + c % 64]
  else if c < 0x10000 then [0xE0 + c / 4096, 0x80 + c / 64 % 64, 0x80 + c % 64]
  else [0xF0 + c / 262144, 0x80 + c / 4096 % 64, 0x80 + c / 64 % 64, 0x80 + c % 64]

/-- The code units of a code point in UTF-16. -/
def utf16 (c : Nat) : List Nat :=
  if c < 0x10000 then [c]
  else [0xD800 + (c - 0x10000) / 1024, 0xDC00 + (c - 0x10000) % 1024]

/-- UTF-32 has one code unit per code point. -/
def utf32 (c : Nat) : List Nat := [c]

/-- The first code point of a text in UTF-8, and what follows. Simplification: an ill-formed unit is replaced by U+FFFD on its own. -/
def take8 : List Nat → Option (Nat × List Nat)
  | [] => none
  | b :: r =>
    if b < 0x80 then some (b, r)
    else
      let cont := fun (x : Nat) => 0x80 ≤ x && x < 0xC0
      match r with
      | c1 :: r1 =>
        if 0xC2 ≤ b ∧ b < 0xE0 ∧ cont c1 then some ((b - 0xC0) * 64 + (c1 - 0x80), r1)
        else
          match r1 with
          | c2 :: r2 =>
            let v := (b - 0xE0) * 4096 + (c1 - 0x80) * 64 + (c2 - 0x80)
            if 0xE0 ≤ b ∧ b < 0xF0 ∧ cont c1 ∧ cont c2 ∧ 0x800 ≤ v ∧ ¬ (0xD800 ≤ v ∧ v < 0xE000) then some (v, r2)
            else
              match r2 with
              | c3 :: r3 =>
                let v := (b - 0xF0) * 262144 + (c1 - 0x80) * 4096 + (c2 - 0x80) * 64 + (c3 - 0x80)
                if 0xF0 ≤ b ∧ cont c1 ∧ cont c2 ∧ cont c3 ∧ 0x10000 ≤ v ∧ v < 0x110000 then some (v, r3)
                else some (0xFFFD, r)
              | [] => some (0xFFFD, r)
          | [] => some (0xFFFD, r)
      | [] => some (0xFFFD, r)

/-- Likewise in UTF-16. -/
def take16 : List Nat → Option (Nat × List Nat)
  | [] => none
  | u :: r =>
    if u < 0xD800 ∨ 0xE000 ≤ u then some (u, r)
    else
      match r with
      | v :: r1 =>
        if u < 0xDC00 ∧ 0xDC00 ≤ v ∧ v < 0xE000 then some (0x10000 + (u - 0xD800) * 1024 + (v - 0xDC00), r1)
        else some (0xFFFD, r)
      | [] => some (0xFFFD, r)

/-- Likewise in UTF-32. -/
def take32 : List Nat → Option (Nat × List Nat)
  | [] => none
  | c :: r => if c < 0xD800 ∨ (0xE000 ≤ c ∧ c < 0x110000) then some (c, r) else some (0xFFFD, r)

/-- The code points of a text; each of them takes at least one unit. -/
def decode (next : List Nat → Option (Nat × List Nat)) : Nat → List Nat → List Nat
  | 0, _ => []
  | n + 1, s =>
    match next s with
    | none => []
    | some (c, r) => c :: decode next n r

/-- String.hpp 440-532: `una::cases::to_casefold_utf8` and its like: code points are folded one by one, where `f c` is the (full) folding of
`c`, and are encoded again. -/
def casefold (next : List Nat → Option (Nat × List Nat)) (enc : Nat → List Nat) (f : Nat → List Nat) (s : List Nat) : M (List Nat) :=
  .ok (((decode next s.length s).flatMap f).flatMap enc)

end Mimic.Fold
