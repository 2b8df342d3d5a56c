import Verif.Model.Shorthand

/-!
# Specification: what an argument of `expect_call` asks for
-/

set_option autoImplicit false

namespace Mimic.Shorthand

/-- The text of a string value: all characters of a string object, those before the first zero of a C string. -/
inductive HasText : Val → List Nat → Prop where
  | object (l : List Nat) : HasText (.text l) l
  | cString (t rest : List Nat) (h : 0 ∉ t) : HasText (.chars (.units (t ++ 0 :: rest))) t

/-- A string type. -/
def IsString (t : Ty) : Prop := ∃ c, t = .cstr c ∨ t = .array c ∨ t = .str c ∨ t = .view c

/-- The range of an integer type. -/
def InRange (signed : Bool) (bits : Nat) (n : Int) : Prop :=
  if signed then -(2 ^ (bits - 1) : Nat) ≤ n ∧ n < (2 ^ (bits - 1) : Nat) else 0 ≤ n ∧ n < (2 ^ bits : Nat)

/-- A value of a type. Pointers to characters, and arrays, hold C strings. -/
inductive Typed : Ty → Val → Prop where
  | num (s : Bool) (b : Nat) (n : Int) (h : InRange s b n) : Typed (.num s b) (.num n)
  | ptr (a : Option Nat) : Typed .ptr (.addr a)
  | nullptr : Typed .nullptr (.addr none)
  | cstr (c : Nat) (s : Chars) : Typed (.cstr c) (.chars s)
  | array (c : Nat) (l : List Nat) : Typed (.array c) (.chars (.units l))
  | str (c : Nat) (l : List Nat) : Typed (.str c) (.text l)
  | view (c : Nat) (l : List Nat) : Typed (.view c) (.text l)
  | pair (a b : Ty) (x y : Val) : Typed (.pair a b) (.pack [x, y])
  | tuple (ts : List Ty) (vs : List Val) (h : vs.length = ts.length) : Typed (.tuple ts) (.pack vs)
  | cls (n x : Nat) : Typed (.cls n) (.obj x)

/-- A type whose operator `==` is not built in. -/
def Custom (t : Ty) : Prop := (∃ a b, t = .pair a b) ∨ (∃ ts, t = .tuple ts) ∨ ∃ n, t = .cls n

/-- An array is used as a pointer where it is not taken as a string. -/
def Decays (t u : Ty) : Prop := (∃ c, t = .array c ∧ u = .cstr c) ∨ ((∀ c, t ≠ .array c) ∧ u = t)

/-- What the argument `a` of `expect_call` asks of the value `v` of a parameter of type `p`. -/
inductive Asks (E : Classes) (p : Ty) (a : Arg) (v : Val) : Prop where
  /-- A matcher for the parameter is satisfied. -/
  | matcher (n : Nat) (m : Val → Val → Bool) (h : a.ty = .cls n) (hm : E.matcher n p = some m) (hs : m a.val v = true)
  /-- Two strings have the same text. -/
  | text (l : List Nat) (hp : IsString p) (ha : IsString a.ty) (ht : HasText a.val l) (hv : HasText v l)
  /-- Two numbers are the same. -/
  | number (s s' : Bool) (b b' : Nat) (hp : p = .num s b) (ha : a.ty = .num s' b') (h : v = a.val)
  /-- Two pointers are the same. -/
  | pointer (hp : p = .ptr) (ha : a.ty = .ptr) (h : v = a.val)
  /-- A pointer is null. -/
  | null (ha : a.ty = .nullptr) (hp : (p = .ptr ∧ v = .addr none) ∨ (∃ c, p = .cstr c) ∧ v = .chars .null)
  /-- Anything else is equal according to the operator `==` of the types. -/
  | equal (t : Ty) (eq : Val → Val → Bool) (hn : ∀ n, a.ty = .cls n → E.matcher n p = none) (hc : Custom p ∨ Custom a.ty)
      (hd : Decays a.ty t) (he : E.equal p t = some eq) (h : eq v a.val = true)

/-- This is a string with a text: not a null pointer, and not without a terminating zero. -/
def Readable (v : Val) : Prop := ∃ l, HasText v l

/-- Comparing these would convert a negative number to an unsigned type. -/
def SignChanges (p t : Ty) (x y : Val) : Prop :=
  ∃ s b s' b' n m, p = .num s b ∧ t = .num s' b' ∧ x = .num n ∧ y = .num m ∧ s ≠ s' ∧ (n < 0 ∨ m < 0)

/-- A negative number of a signed type, converted to an unsigned type that is at least as wide and at least as wide as `int`, becomes
another number. -/
def Wraps (s : Bool) (b : Nat) (n : Int) (s' : Bool) (b' : Nat) (m : Int) : Prop :=
  s = true ∧ s' = false ∧ b ≤ b' ∧ 32 ≤ b' ∧ n < 0 ∧ m = n + (2 ^ b' : Nat)

end Mimic.Shorthand
