/-!
# Outcomes shared by all parts of the model

The C++ code can leave the normal path in three ways that the model keeps apart:

* undefined behaviour or a failing `assert` (`Stop.ub`),
* `std::terminate`, i.e. an exception leaving a `noexcept` function (`Stop.terminate`),
* misuse by the client, such as destroying an object twice (`Stop.client`).

Ordinary C++ exceptions that the client can catch are *not* stops; they are values in the result of
an operation.
-/

set_option autoImplicit false

namespace Mimic

/-- Abnormal ends of an operation. The string says which check failed. -/
inductive Stop where
  /-- A failing `assert`, an out-of-range access, a null dereference, a signed overflow. -/
  | ub (why : String)
  /-- An exception reached a `noexcept` boundary. -/
  | terminate (why : String)
  /-- The client used an object that does not exist (any more). -/
  | client (why : String)
deriving DecidableEq, Repr

/-- Computations that may stop abnormally. -/
abbrev M := Except Stop

/-- A C++ `assert`, or the precondition of a standard-library operation. -/
def check (b : Bool) (why : String) : M Unit :=
  if b then .ok () else .error (.ub why)

/-- `std::numeric_limits<int>::max()` for the 32-bit `int` of all supported platforms. -/
def intMax : Int := 2147483647

/-- `std::numeric_limits<int>::min()`. -/
def intMin : Int := -2147483648

/-- `x` is a value of type `int`. -/
def isInt (x : Int) : Bool := decide (intMin ≤ x) && decide (x ≤ intMax)

/-- The result of a signed `int` operation: undefined behaviour unless representable. -/
def toInt (x : Int) : M Int :=
  if intMin ≤ x ∧ x ≤ intMax then .ok x else .error (.ub "signed int overflow")

end Mimic
