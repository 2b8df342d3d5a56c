import Verif.Model.Base
import Verif.Model.Text

/-!
# Printing of values

Models `/repo/include/mimic++/Printer.hpp` 223-546.
-/

set_option autoImplicit false

namespace Mimic

/-- What the compiler knows about a type. -/
structure Traits where
  /-- there is a usable `custom::Printer` -/
  custom : Bool
  /-- there is a usable `detail::Printer` -/
  internal : Bool
  /-- `std::ranges::forward_range` -/
  range : Bool
  /-- `format::detail::formattable` -/
  formattable : Bool
deriving DecidableEq, Repr

/-- The ways of printing. -/
inductive Way where
  | custom
  | internal
  | range
  | format
  | unknown
deriving DecidableEq, Repr

/-- The overloads `print(out, value, priority_tag<n>)` (Printer.hpp 235-303) and their conditions. -/
def overload : Nat → Traits → Option Way
  | 4, t => if t.custom then some .custom else none
  | 3, t => if t.internal then some .internal else none
  | 2, t => if t.range then some .range else none
  | 1, t => if t.formattable then some .format else none
  | 0, _ => some .unknown
  | _, _ => none

/-- `print(out, value, priority_tag<4>{})` (305-329): `priority_tag<n>` derives from `priority_tag<n - 1>`, so that overload
resolution takes the first viable one, counted downwards (`priority_tag`, Utility.hpp). -/
def resolve (t : Traits) : Nat → Option Way
  | 0 => overload 0 t
  | n + 1 =>
    match overload (n + 1) t with
    | some w => some w
    | none => resolve t n

/-- What a pointer to characters points to. -/
inductive CStr (γ : Type) where
  | null
  /-- memory without terminating zero, such as an output buffer -/
  | buffer
  | text (s : γ)
deriving DecidableEq, Repr

/-- Values, by the way in which they are printed. -/
inductive Val where
  /-- a type with `custom::Printer`, and what that prints -/
  | custom (t : Text)
  /-- `std::source_location` -/
  | location (file : Text) (line column : Nat) (function : Text)
  | nullopt
  | optional (o : Option Val)
  /-- everything with `std::tuple_size`, also `std::pair` and `std::array` -/
  | tuple (vs : List Val)
  /-- pointers and `nullptr` -/
  | pointer (address : Nat)
  /-- strings of `char` that know their length -/
  | string (s : Text)
  /-- `char*`, `const char*` -/
  | cstring (s : CStr Text)
  /-- strings of other characters, by the literal's prefix (String.hpp 198-241) and the values of the characters -/
  | wide (literal : Text) (cs : List Nat)
  /-- pointers to other characters -/
  | cwide (literal : Text) (s : CStr (List Nat))
  /-- strings of characters that have a `custom::Printer`, by the literal's prefix and what that prints for each of them -/
  | chars (literal : Text) (cs : List Text)
  | range (vs : List Val)
  /-- integers -/
  | int (i : Int)
  /-- other formattable types, and what `std::format` makes of them -/
  | formatted (t : Text)
  | unknown

/-- 516-540: the loop over characters that cannot be printed. -/
def dump : List Nat → Text
  | [] => []
  | [c] => hexPrefixed c
  | c :: d :: rest => hexPrefixed c ++ lit ", " ++ dump (d :: rest)

mutual

/-- `mimicpp::print`. -/
def print : Val → M Text
  | .custom t => .ok t
  /- 358-373 -/
  | .location file line column function =>
    .ok (file ++ lit "[" ++ decimal line ++ lit ":" ++ decimal column ++ lit "], " ++ function)
  /- 375-386 -/
  | .nullopt => .ok (lit "nullopt")
  /- 388-406 -/
  | .optional none => .ok (lit "nullopt")
  | .optional (some v) => do return lit "{ value: " ++ (← print v) ++ lit " }"
  /- 408-448 -/
  | .tuple vs => do return lit "{ " ++ (← printTuple 0 vs) ++ lit " }"
  /- 450-470 -/
  | .pointer a => .ok (lit "0x" ++ hex16 a)
  /- 472-546; the prefix is empty for `char` -/
  | .string s => .ok (lit "\"" ++ s ++ lit "\"")
  /- `std::string_view{str}` (String.hpp 274-278) looks for the terminating zero -/
  | .cstring .null => .error (.ub "string_view of a null pointer")
  | .cstring .buffer => .error (.ub "string_view of a text that is not terminated")
  | .cstring (.text s) => .ok (lit "\"" ++ s ++ lit "\"")
  | .wide literal cs => .ok (literal ++ lit "\"" ++ dump cs ++ lit "\"")
  | .cwide _ .null => .error (.ub "string_view of a null pointer")
  | .cwide _ .buffer => .error (.ub "string_view of a text that is not terminated")
  | .cwide literal (.text cs) => .ok (literal ++ lit "\"" ++ dump cs ++ lit "\"")
  /- 507-515 -/
  | .chars literal cs => .ok (literal ++ lit "\"" ++ cs.flatten ++ lit "\"")
  /- 331-356 -/
  | .range vs => do return lit "{ " ++ (← printFirst vs) ++ lit " }"
  /- 274-285 -/
  | .int i => .ok (signed i)
  | .formatted t => .ok t
  /- 287-297 -/
  | .unknown => .ok (lit "{?}")

/-- The fold over `tuple_element_print` (408-421, 434-443). -/
def printTuple : Nat → List Val → M Text
  | _, [] => .ok []
  | index, v :: vs => do
    let comma := if index ≠ 0 then lit ", " else []
    return comma ++ (← print v) ++ (← printTuple (index + 1) vs)

/-- The first element of a range (341-346). -/
def printFirst : List Val → M Text
  | [] => .ok []
  | v :: vs => do return (← print v) ++ (← printRest vs)

/-- The loop over the other elements (347-352). -/
def printRest : List Val → M Text
  | [] => .ok []
  | v :: vs => do return lit ", " ++ (← print v) ++ (← printRest vs)

end

/-- `make_call_report` (Reports.hpp 241-262): all arguments are printed. -/
def makeArgs : List (Text × Val) → M (List (Text × Text))
  | [] => .ok []
  | (type, v) :: rest => do
    let t ← print v
    let ts ← makeArgs rest
    return (type, t) :: ts

end Mimic
