import Verif.Model.Printer

/-!
# Specification vocabulary for printed values
-/

set_option autoImplicit false

namespace Mimic

/-- The texts, separated by commas, inside braces. -/
def braced (ts : List Text) : Text := lit "{ " ++ List.intercalate (lit ", ") ts ++ lit " }"

/-- Types of values whose printed form says everything. -/
inductive Ty where
  | int
  | pointer
  | optional (t : Ty)
  | range (t : Ty)
  | tuple (ts : List Ty)

mutual

/-- `v` is a value of type `t`. -/
def Val.hasTy : Ty → Val → Prop
  | .int, .int _ => True
  | .pointer, .pointer _ => True
  | .optional _, .optional none => True
  | .optional t, .optional (some v) => v.hasTy t
  | .range t, .range vs => Val.allHaveTy t vs
  | .tuple ts, .tuple vs => Val.haveTys ts vs
  | _, _ => False

def Val.allHaveTy : Ty → List Val → Prop
  | _, [] => True
  | t, v :: vs => v.hasTy t ∧ Val.allHaveTy t vs

def Val.haveTys : List Ty → List Val → Prop
  | [], [] => True
  | t :: ts, v :: vs => v.hasTy t ∧ Val.haveTys ts vs
  | _, _ => False

end

mutual

/-- Somewhere inside `v` there is a pointer to characters that is null or has no terminating zero. -/
def Val.badString : Val → Prop
  | .cstring s => s = .null ∨ s = .buffer
  | .cwide _ s => s = .null ∨ s = .buffer
  | .optional (some v) => v.badString
  | .tuple vs => Val.anyBadString vs
  | .range vs => Val.anyBadString vs
  | _ => False

def Val.anyBadString : List Val → Prop
  | [] => False
  | v :: vs => v.badString ∨ Val.anyBadString vs

end

/-- The value of a hexadecimal digit. -/
def hexDigit (c : Char) : Nat := if c.isDigit then c.toNat - 48 else c.toNat - 87

/-- The number that hexadecimal digits stand for. -/
def hexValue (t : Text) : Nat := t.foldl (fun n c => 16 * n + hexDigit c) 0

/-- The hexadecimal digits in lower case. -/
def lowerHex (c : Char) : Prop := c ∈ lit "0123456789abcdef"

/-- The number that decimal digits stand for. -/
def decimalValue (t : Text) : Nat := t.foldl (fun n c => 10 * n + (c.toNat - 48)) 0

end Mimic
