/-!
# Texts

Models what the library uses of `std::format` (Printer.hpp 55-150): replacement fields for numbers and strings.
-/

set_option autoImplicit false

namespace Mimic

/-- `StringT`. -/
abbrev Text := List Char

/-- A literal in the code. -/
def lit (s : String) : Text := s.toList

/-- `{}` for an unsigned integer. -/
def decimal (n : Nat) : Text := Nat.toDigits 10 n

/-- `{}` for a signed integer. -/
def signed : Int → Text
  | .ofNat n => decimal n
  | .negSucc n => '-' :: decimal (n + 1)

/-- `{:x}`. -/
def hex (n : Nat) : Text := Nat.toDigits 16 n

/-- `{:0>16x}`: filled up with `0` on the left. -/
def hex16 (n : Nat) : Text := List.replicate (16 - (hex n).length) '0' ++ hex n

/-- `{:#x}`. -/
def hexPrefixed (n : Nat) : Text := '0' :: 'x' :: hex n

end Mimic
