import Verif.Model.Base

/-!
# What the arguments of `expect_call` mean

Models how `expect_call(args...)` (`/repo/include/mimic++/Mock.hpp` 92-99) turns its arguments into requirements:
`make_arg_matcher`, `requirement_for`, `make_arg_policy` and `extend_builder_with_arg_policies`
(`/repo/include/mimic++/ExpectationBuilder.hpp` 197-263), with `matches::eq` (`/repo/include/mimic++/Matcher.hpp` 347-358),
`matches::str::eq` (592-609), `string_traits` (`/repo/include/mimic++/String.hpp` 262-329), `Requirement::matches`
(`/repo/include/mimic++/ExpectationPolicies.hpp` 180-192) and `BasicExpectation::matches`
(`/repo/include/mimic++/Expectation.hpp` 502-521, only the results of the requirements).
-/

set_option autoImplicit false

namespace Mimic.Shorthand

/-- The types that are told apart here. -/
inductive Ty where
  /-- An integer type, with its number of bits; `int` is `num true 32`. -/
  | num (signed : Bool) (bits : Nat)
  /-- A pointer that does not point to characters. -/
  | ptr
  | nullptr
  /-- `Char*`, `Char const*`; `c` stands for the character type. -/
  | cstr (c : Nat)
  /-- `Char[n]`, such as a string literal. -/
  | array (c : Nat)
  /-- `std::basic_string<Char>` -/
  | str (c : Nat)
  /-- `std::basic_string_view<Char>` -/
  | view (c : Nat)
  | pair (a b : Ty)
  | tuple (ts : List Ty)
  /-- Any other class. -/
  | cls (n : Nat)

/-- A pointer to characters, or an array of them: what can be read there. -/
inductive Chars where
  | null
  | units (l : List Nat)
deriving DecidableEq

inductive Val where
  | num (n : Int)
  /-- A pointer; `none` is the null pointer. -/
  | addr (a : Option Nat)
  | chars (s : Chars)
  /-- A `std::basic_string` or a `std::basic_string_view`. -/
  | text (l : List Nat)
  | pack (vs : List Val)
  | obj (x : Nat)

/-- What the client's types provide. -/
structure Classes where
  /-- `matches` and `describe` of a class, as members or through `custom::matcher_traits`, for targets of a type
  (`matcher_for`, Matcher.hpp 108-117). -/
  matcher : Nat → Ty → Option (Val → Val → Bool)
  /-- `==` between a target and a value, where a `std::pair`, a `std::tuple` or a class is involved. -/
  equal : Ty → Ty → Option (Val → Val → Bool)

/-- `string_char_t` of the types that satisfy the concept `string` (String.hpp 262-346). -/
def Ty.charType : Ty → Option Nat
  | .cstr c | .array c | .str c | .view c => some c
  | _ => none

/-- `string_traits<T>::view` (String.hpp 273-329). The view of a pointer, and of an array (285-290), ends before the first
zero; without a zero, and for a null pointer, this is undefined. -/
def textOf : Val → M (List Nat)
  | .text l => .ok l
  | .chars (.units l) =>
    if 0 ∈ l then .ok (l.takeWhile (· ≠ 0)) else .error (.ub "string_view of characters without a terminating zero")
  | .chars .null => .error (.ub "string_view of a null pointer")
  | _ => .error (.client "not a string")

/-- The integral promotions: what is narrower than `int` becomes an `int`. -/
def promote (signed : Bool) (bits : Nat) : Bool × Nat := if bits < 32 then (true, 32) else (signed, bits)

/-- The usual arithmetic conversions. Simplification: types of the same width have the same rank. -/
def commonType (a b : Bool × Nat) : Bool × Nat :=
  if a.1 = b.1 then (a.1, max a.2 b.2)
  else if a.1 then (if a.2 ≤ b.2 then b else a)
  else (if b.2 ≤ a.2 then a else b)

/-- Conversion to an integer type. Converting to a signed type keeps the value here, since the common type is able to
represent it whenever it is signed. -/
def convertTo (t : Bool × Nat) (n : Int) : Int := if t.1 then n else n % (2 ^ t.2 : Nat)

/-- The built-in operator `==` of two integer types. -/
def numEq (s : Bool) (b : Nat) (s' : Bool) (b' : Nat) (x y : Int) : Bool :=
  let t := commonType (promote s b) (promote s' b')
  decide (convertTo t x = convertTo t y)

/-- `target == value` for a target of the first type: the operator, if there is one. Simplification:
`std::equality_comparable_with` (which also wants a common reference and symmetric operators) holds whenever the operator
exists. Two strings are not considered here, since `make_arg_matcher` treats them before (and `matches::eq` of two
pointers to characters would compare addresses). -/
def equalTo (E : Classes) : Ty → Ty → Option (Val → Val → Bool)
  | .num s b, .num s' b' => some fun
    | .num x, .num y => numEq s b s' b' x y
    | _, _ => false
  | .ptr, .ptr => some fun
    | .addr x, .addr y => decide (x = y)
    | _, _ => false
  | .ptr, .nullptr => some fun
    | .addr x, _ => decide (x = none)
    | _, _ => false
  | .cstr _, .nullptr => some fun
    | .chars x, _ => decide (x = .null)
    | _, _ => false
  | .pair a b, t => E.equal (.pair a b) t
  | .tuple ts, t => E.equal (.tuple ts) t
  | .cls n, t => E.equal (.cls n) t
  | p, .pair a b => E.equal p (.pair a b)
  | p, .tuple ts => E.equal p (.tuple ts)
  | p, .cls n => E.equal p (.cls n)
  | _, _ => none

/-- `std::tuple{std::forward<T>(value)}` (Matcher.hpp 356): class template argument deduction copies a `std::tuple`, turns
a `std::pair` into a tuple of its two elements, and puts anything else, after decaying, into a tuple of one element. -/
def deduce : Ty → List Ty
  | .pair a b => [a, b]
  | .tuple ts => ts
  | .array c => [.cstr c]
  | t => [t]

def stored : Ty → Val → List Val
  | .pair _ _, .pack vs => vs
  | .tuple _, .pack vs => vs
  | _, v => [v]

/-- An argument of `expect_call`. -/
structure Arg where
  ty : Ty
  val : Val

/-- A matcher for the target of a requirement. -/
abbrev Test := Val → M Bool

/-- `matches::eq(value)` (Matcher.hpp 347-358) as a `matcher_for` a target type: `std::equal_to` is called with the target
and all additional arguments (191-210), which is only possible with exactly one of them. -/
def matchesEq (E : Classes) (p : Ty) (a : Arg) : Option Test :=
  match deduce a.ty, stored a.ty a.val with
  | [t], [v] => (equalTo E p t).map fun eq target => .ok (eq target v)
  | _, _ => none

/-- `matches::str::eq(pattern)` (Matcher.hpp 592-609); the `static_assert` (530-539) rejects other character types. -/
def matchesStrEq (p : Ty) (a : Arg) : Option Test :=
  if p.charType = a.ty.charType then
    some fun target => do
      let x ← textOf target
      let y ← textOf a.val
      return decide (x = y)
  else none

/-- The argument itself as a matcher (ExpectationBuilder.hpp 199-207, `matcher_for`). -/
def ownMatcher (E : Classes) (p : Ty) (a : Arg) : Option Test :=
  match a.ty with
  | .cls n => (E.matcher n p).map fun m target => .ok (m a.val target)
  | _ => none

/-- ExpectationBuilder.hpp 197-234: `make_arg_matcher` and `requirement_for`. The overloads are tried by priority, and only
after one was chosen it is checked whether its result is a matcher for the parameter. `none`: not accepted. -/
def argMatcher (E : Classes) (p : Ty) (a : Arg) : Option Test :=
  match ownMatcher E p a with
  | some m => some m
  | none =>
    if p.charType.isSome && a.ty.charType.isSome then matchesStrEq p a
    else if (equalTo E p a.ty).isSome then matchesEq E p a
    else none

/-- 236-263: `make_arg_policy` and `extend_builder_with_arg_policies`: requirement number `i` looks at argument number
`i`. -/
def requirements (E : Classes) : Nat → List Ty → List Arg → Option (List (Nat × Test))
  | _, [], [] => some []
  | i, p :: ps, a :: as => do
    let t ← argMatcher E p a
    let rest ← requirements E (i + 1) ps as
    return (i, t) :: rest
  | _, _, _ => none

/-- Mock.hpp 92-99: `expect_call(args...)` for a signature with the given parameter types; `none`: does not compile. -/
def expectCall (E : Classes) (ps : List Ty) (as : List Arg) : Option (List (Nat × Test)) := requirements E 0 ps as

/-- ExpectationPolicies.hpp 180-192: one requirement. -/
def testOne (call : List Val) (r : Nat × Test) : M Bool :=
  match call[r.1]? with
  | some v => r.2 v
  | none => .error (.client "no such argument")

/-- Expectation.hpp 502-521: all requirements are evaluated, in order, whatever the results of the others are. -/
def results (call : List Val) : List (Nat × Test) → M (List Bool)
  | [] => .ok []
  | r :: rs => do
    let b ← testOne call r
    let bs ← results call rs
    return b :: bs

/-- The expectation matches if all requirements do (Reports.hpp, `evaluate_match_report`). -/
def matchesCall (rs : List (Nat × Test)) (call : List Val) : M Bool := do
  let bs ← results call rs
  return bs.all id

end Mimic.Shorthand
