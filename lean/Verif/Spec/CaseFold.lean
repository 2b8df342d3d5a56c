import Verif.Model.CaseFold
import Verif.Spec.Matcher

/-!
# Specification vocabulary for string matchers and Unicode
-/

set_option autoImplicit false

namespace Mimic.Fold

/-- Unicode scalar values: the code points that texts consist of. -/
def scalar (c : Nat) : Prop := c < 0xD800 ∨ (0xE000 ≤ c ∧ c < 0x110000)

/-- The encodings. -/
inductive Utf where
  | u8
  | u16
  | u32
deriving DecidableEq, Repr

def Utf.enc : Utf → Nat → List Nat
  | .u8 => utf8
  | .u16 => utf16
  | .u32 => utf32

def Utf.next : Utf → List Nat → Option (Nat × List Nat)
  | .u8 => take8
  | .u16 => take16
  | .u32 => take32

/-- A text is a list of scalar values. -/
def Scalars (cs : List Nat) : Prop := ∀ c ∈ cs, scalar c

/-- The code units of a text. -/
def Utf.units (u : Utf) (cs : List Nat) : List Nat := cs.flatMap u.enc

/-- How many values the character type (`char8_t`, `char16_t`, `char32_t`) has. -/
def Utf.values : Utf → Nat
  | .u8 => 256
  | .u16 => 65536
  | .u32 => 4294967296

/-- A converter that folds well-formed texts code point by code point, as Unicode says; for other strings nothing is demanded. -/
structure FoldsBy (u : Utf) (f : Nat → List Nat) (fold : List Nat → M (List Nat)) : Prop where
  scalars : ∀ c, scalar c → Scalars (f c)
  folds : ∀ cs, Scalars cs → fold (u.units cs) = .ok (u.units (cs.flatMap f))

end Mimic.Fold
