import Verif.Model.Matcher

/-!
# What matchers and finalizers keep of the client's objects

Models how the matcher factories (`/repo/include/mimic++/Matcher.hpp` 350-488, 592-800, 820-875, 919-991), `operator !`
(230-278), `expect::arg` (`/repo/include/mimic++/ExpectationPolicies.hpp` 403-428), the shorthands of `expect_call`
(`/repo/include/mimic++/ExpectationBuilder.hpp` 197-220) and the finalizers `finally::returns` and `finally::throws`
(ExpectationPolicies.hpp 126-148, 500-513, 598-608) store what they are given: by copying, by moving, or by reference.

Values have an arbitrary type `V`; `elems` are the elements of a value that is a range, `print` is its printed form.
A functor (of `matches::predicate`, a comparator) is a value like any other: it is copied, moved or referred to.
-/

set_option autoImplicit false

namespace Mimic.Capture

variable {V : Type}

/-- Kinds of object types: `plain`, moving from which leaves it unchanged (`int`, a pointer, a stateless functor);
`owning`, moving from which leaves it in a valid but unspecified state (`std::string`, `std::vector`); `array`, a
C array, whose name turns into a pointer where a value is needed. -/
inductive Kind where
  | plain
  | owning
  | array
deriving DecidableEq, Repr

/-- The state of an object of the client. -/
inductive Cell (V : Type) where
  | holds (v : V)
  /-- Moved from: valid, but with an unspecified value. -/
  | moved
  /-- Its lifetime has ended. -/
  | gone

structure Obj (V : Type) where
  kind : Kind
  cell : Cell V

/-- Why an operation has no ordinary result. -/
inductive Fault where
  /-- The program does not compile. -/
  | illFormed
  /-- The client itself uses something that does not exist. -/
  | client
  /-- Something stored by the library refers to an object that does not exist any more: undefined behaviour. -/
  | dangling
  /-- The result depends on the unspecified value of a moved-from object. -/
  | unspecified
deriving DecidableEq, Repr

/-- An argument expression; `k` is the kind of its type. -/
inductive Expr (V : Type) where
  /-- The name of a variable. -/
  | named (k : Kind) (o : Nat)
  /-- `std::move(o)` -/
  | moved (k : Kind) (o : Nat)
  /-- A temporary. -/
  | temp (k : Kind) (v : V)
  /-- Something that refers to an object: a pointer to its characters, a `std::string_view`, a `std::span`, a
  `std::reference_wrapper`. -/
  | view (o : Nat)

/-- What was stored: a value (`none`: moved from), or a reference to an object of the client (a pointer, a view,
`std::ranges::ref_view`, `std::reference_wrapper`). -/
inductive Stored (V : Type) where
  | own (k : Kind) (v : Option V)
  | ref (o : Nat)

/-- What an object holds, for a copy of it; an object that does not exist cannot be used. -/
def Cell.value : Cell V → Except Fault (Option V)
  | .holds v => .ok (some v)
  | .moved => .ok none
  | .gone => .error .client

/-- The state of an object of the given kind after it was moved from. -/
def Cell.left (k : Kind) (c : Cell V) : Cell V := if k = .plain then c else .moved

/-- An existing object of the client. -/
def object (objs : List (Obj V)) (o : Nat) : Except Fault (Obj V) :=
  match objs[o]? with
  | some ⟨_, .gone⟩ => .error .client
  | some x => .ok x
  | none => .error .client

/-- `std::tuple{std::forward<T>(value)}` (Matcher.hpp 356 and so on) and, with `all`, `std::tuple{std::views::all(...)}`
(840, 870). The deduced element type of the tuple is the decayed type: a copy or the moved value, for an array a pointer
to it. `std::views::all` yields `std::ranges::ref_view` for the name of a range, `std::ranges::owning_view` for an
rvalue (which is impossible for an array, since it is not movable), and a copy of what is a view already.
Simplification: `std::pair` and `std::tuple`, which are taken apart here, are treated in `Model/Shorthand`. -/
def store (all : Bool) (objs : List (Obj V)) : Expr V → Except Fault (Stored V × List (Obj V))
  | .named k o => do
    let x ← object objs o
    if x.kind ≠ k then .error .illFormed
    else if all || k = .array then .ok (.ref o, objs)
    else .ok (.own k (← x.cell.value), objs)
  | .moved k o => do
    let x ← object objs o
    if x.kind ≠ k then .error .illFormed
    else if k = .array then (if all then .error .illFormed else .ok (.ref o, objs))
    else .ok (.own k (← x.cell.value), objs.set o ⟨k, x.cell.left k⟩)
  | .temp k v => if k = .array then .error .illFormed else .ok (.own k (some v), objs)
  | .view o => do
    let _ ← object objs o
    .ok (.ref o, objs)

/-- Reading what was stored. -/
def Stored.read (objs : List (Obj V)) : Stored V → Except Fault V
  | .own _ (some v) => .ok v
  | .own _ none => .error .unspecified
  | .ref o =>
    match objs[o]? with
    | some ⟨_, .holds v⟩ => .ok v
    | some ⟨_, .moved⟩ => .error .unspecified
    | _ => .error .dangling

/-- What remains where something was moved from. -/
def Stored.left : Stored V → Stored V
  | .own k v => if k = .plain then .own k v else .own k none
  | .ref o => .ref o

/-- A matcher factory: how the argument is stored (`all`: as a view), whether it is printed in the description, and how
target and argument are compared. -/
structure Factory (V : Type) where
  all : Bool
  shown : Bool
  rel : V → V → Bool
  fmt : String
  inv : String

section
variable (rel : V → V → Bool)

/-- Matcher.hpp 350-358: `matches::eq`; the five others and `range::has_size` differ in the relation and the texts. -/
def eq : Factory V := ⟨false, true, rel, "== {}", "!= {}"⟩
/-- 592-609: `matches::str::eq`. -/
def strEq : Factory V := ⟨false, true, rel, "is equal to {}", "is not equal to {}"⟩
/-- 640-664: `matches::str::starts_with`. -/
def strStartsWith : Factory V := ⟨false, true, rel, "starts with {}", "starts not with {}"⟩
/-- 455-466: `matches::predicate`: the argument is the predicate. -/
def predicate (apply : V → V → Bool) (description inverted : String) : Factory V :=
  ⟨false, false, fun t f => apply f t, description, inverted⟩
/-- 820-842: `matches::range::eq`. -/
def rangeEq : Factory V := ⟨true, true, rel, "elements are {}", "elements are not {}"⟩
/-- 850-871: `matches::range::unordered_eq`. -/
def rangeUnorderedEq : Factory V := ⟨true, true, rel, "is a permutation of {}", "is not a permutation of {}"⟩
end

/-- The outer part of a `PredicateMatcher` (Matcher.hpp 250-254): the number of `std::not_fn`s (modulo two) and the two
format strings, which are `std::string`s (`none`: moved from). -/
structure Shell where
  neg : Bool
  fmt : Option String
  inv : Option String

/-- A matcher: a `PredicateMatcher` made by a factory and around it any number of `each_element` (`true`) and
`any_element` (`false`) matchers, outermost first. -/
structure Mat (V : Type) where
  rel : V → V → Bool
  shown : Bool
  arg : Stored V
  shell : Shell
  layers : List (Bool × Shell)

def Shell.left (s : Shell) : Shell := { s with fmt := none, inv := none }

/-- A matcher that was moved from. The format strings are unspecified then. -/
def Mat.left (m : Mat V) : Mat V :=
  { m with arg := m.arg.left, shell := m.shell.left, layers := m.layers.map (fun l => (l.1, l.2.left)) }

section
variable (elems : V → List V) (objs : List (Obj V))

/-- Matcher.hpp 191-210 for the innermost matcher: the predicate is applied to the target and the stored argument. -/
def Mat.evalBase (m : Mat V) (t : V) : Except Fault Bool := do
  let a ← m.arg.read objs
  return m.rel t a ^^ m.shell.neg

/-- 940-991: the outer matchers, `std::ranges::all_of` and `std::ranges::any_of`. -/
def Mat.evalLayers (m : Mat V) : List (Bool × Shell) → V → Except Fault Bool
  | [], t => m.evalBase objs t
  | (each, sh) :: ls, t => do
    let b ← if each then allOf (m.evalLayers ls) (elems t) else anyOf (m.evalLayers ls) (elems t)
    return b ^^ sh.neg

/-- `matches(target)`. -/
def Mat.eval (m : Mat V) (t : V) : Except Fault Bool := m.evalLayers elems objs m.layers t

variable (print : V → String)

/-- 212-228: `describe()` of one `PredicateMatcher`; `none`: `std::format_error`. -/
def Shell.describe (sh : Shell) (args : List String) : Except Fault (Option String) :=
  match sh.fmt with
  | some f => .ok (vformat f args)
  | none => .error .unspecified

def Mat.describeBase (m : Mat V) : Except Fault (Option String) :=
  if m.shown then do
    let a ← m.arg.read objs
    m.shell.describe [print a]
  else m.shell.describe []

/-- The description of an `each_element` or `any_element` matcher contains that of the inner matcher (953-956). -/
def Mat.describeLayers (m : Mat V) : List (Bool × Shell) → Except Fault (Option String)
  | [] => m.describeBase objs print
  | (_, sh) :: ls => do
    match ← m.describeLayers ls with
    | some d => sh.describe [d]
    | none => return none

/-- `describe()`. -/
def Mat.describe (m : Mat V) : Except Fault (Option String) := m.describeLayers objs print m.layers

end

/-- What a factory makes. -/
def Factory.mat (f : Factory V) (a : Stored V) : Mat V :=
  { rel := f.rel, shown := f.shown, arg := a, shell := ⟨false, some f.fmt, some f.inv⟩, layers := [] }

def Shell.invert (sh : Shell) : Shell := { neg := !sh.neg, fmt := sh.inv, inv := sh.fmt }

/-- Matcher.hpp 230-278: `operator !`. -/
def Mat.invert (m : Mat V) : Mat V :=
  match m.layers with
  | [] => { m with shell := m.shell.invert }
  | (each, sh) :: ls => { m with layers := (each, sh.invert) :: ls }

/-- 940-991: `each_element`, `any_element`. -/
def Mat.nest (each : Bool) (m : Mat V) : Mat V :=
  { m with layers := (each, ⟨false,
      some (if each then "each el in range: el {}" else "any el in range: el {}"),
      some (if each then "not each el in range: el {}" else "none el in range: el {}")⟩) :: m.layers }

/-- How a matcher is passed on: by the name of a variable, of a variable that is `const`, or by `std::move`. A temporary
is a matcher that is moved and then destroyed. -/
inductive Pass where
  | named
  | constant
  | moved
deriving DecidableEq, Repr

/-- What the client does with its own variables, numbered in the order of their creation. -/
inductive ClientOp (V : Type) where
  /-- A new variable. -/
  | object (k : Kind) (v : V)
  | assign (o : Nat) (v : V)
  /-- `auto x = std::move(o)`, for an object that is not an array. -/
  | take (o : Nat)
  | destroy (o : Nat)

def clientStep (objs : List (Obj V)) : ClientOp V → Except Fault (List (Obj V))
  | .object k v => .ok (objs ++ [⟨k, .holds v⟩])
  | .assign o v => do
    let x ← object objs o
    return objs.set o { x with cell := .holds v }
  | .take o => do
    let x ← object objs o
    if x.kind = .array then .error .illFormed
    else return objs.set o { x with cell := x.cell.left x.kind }
  | .destroy o => do
    let x ← object objs o
    return objs.set o { x with cell := .gone }

/-! ## Matchers -/

/-- Operations of the client with matchers, numbered in the order of their creation. -/
inductive Op (V : Type) where
  | client (c : ClientOp V)
  /-- A new matcher from a factory. `mock.expect_call(value)` makes one with `str::eq` or `eq`. -/
  | make (f : Factory V) (e : Expr V)
  /-- `matches::range::each_element(m)`, `matches::range::any_element(m)` -/
  | nest (each : Bool) (how : Pass) (m : Nat)
  /-- `!m` -/
  | invert (how : Pass) (m : Nat)
  /-- A new matcher that is initialised with `m`: a variable, the one inside `expect::arg<n>(m)`, the one inside the
  expectation of `mock.expect_call(m)`. -/
  | keep (how : Pass) (m : Nat)
  | drop (m : Nat)
  /-- A matcher is applied to a value, by a call of the mock or directly. -/
  | test (m : Nat) (t : V)
  | describe (m : Nat)

/-- What the client sees. -/
inductive Ans (V : Type) where
  | nothing
  | truth (b : Bool)
  /-- `none`: the description throws `std::format_error`. -/
  | text (d : Option String)
  | value (v : V)
  | thrown (v : V)
  | unspecified

structure State (V : Type) where
  objs : List (Obj V)
  mats : List (Option (Mat V))

def State.init : State V := ⟨[], []⟩

def State.mat (s : State V) (m : Nat) : Except Fault (Mat V) :=
  match s.mats[m]? with
  | some (some x) => .ok x
  | _ => .error .client

/-- A new matcher made from matcher `m`. `consumes`: the source is moved from. -/
def State.derive (s : State V) (m : Nat) (consumes : Bool) (g : Mat V → Mat V) : Except Fault (State V × Ans V) := do
  let x ← s.mat m
  let mats := if consumes then s.mats.set m (some x.left) else s.mats
  return ({ s with mats := mats ++ [some (g x)] }, .nothing)

/-- The answer to a question; an unspecified value is an answer, everything else ends the program. -/
def answer {S : Type} (s : S) : Except Fault (Ans V) → Except Fault (S × Ans V)
  | .ok a => .ok (s, a)
  | .error .unspecified => .ok (s, .unspecified)
  | .error x => .error x

/-- One operation of the client. -/
def State.step (elems : V → List V) (print : V → String) (s : State V) : Op V → Except Fault (State V × Ans V)
  | .client c => do
    return ({ s with objs := ← clientStep s.objs c }, .nothing)
  | .make f e => do
    let (a, objs) ← store f.all s.objs e
    return ({ objs := objs, mats := s.mats ++ [some (f.mat a)] }, .nothing)
  | .nest each how m =>
    -- Matcher.hpp: `std::forward<MatcherT>(matcher)` with `MatcherT = std::remove_cvref_t<Matcher>` (942-957, 971-986) is an rvalue
    -- for every argument, and ill-formed for a `const` variable.
    match how with
    | .constant => .error .illFormed
    | _ => s.derive m true (Mat.nest each)
  | .invert how m => s.derive m (how = .moved) Mat.invert
  | .keep how m => s.derive m (how = .moved) id
  | .drop m => do
    let _ ← s.mat m
    return ({ s with mats := s.mats.set m none }, .nothing)
  | .test m t => do
    let x ← s.mat m
    answer s ((x.eval elems s.objs t).map .truth)
  | .describe m => do
    let x ← s.mat m
    answer s ((x.describe s.objs print).map .text)

/-- A history of the client: the answers, and how it ends. -/
def run (elems : V → List V) (print : V → String) : State V → List (Op V) → Except Fault (State V × List (Ans V))
  | s, [] => .ok (s, [])
  | s, op :: ops => do
    let (s', a) ← s.step elems print op
    let (s'', as) ← run elems print s' ops
    return (s'', a :: as)

/-! ## Finalizers -/

/-- How a call of a mock with `finally::returns` ends: the mock returns an object, a reference through which the
caller then may assign, or an rvalue reference from which the caller then may move. -/
inductive Use (V : Type) where
  | value
  | reference (assign : Option V)
  | rvalue (take : Bool)

/-- Operations of the client with finalizers, numbered in the order of their creation. -/
inductive FinOp (V : Type) where
  | client (c : ClientOp V)
  | returns (e : Expr V)
  | throws (e : Expr V)
  /-- A call whose expectation has the finalizer `f`. -/
  | call (f : Nat) (use : Use V)

/-- A finalizer: `finally::returns` or `finally::throws`. -/
structure Fin (V : Type) where
  throws : Bool
  stored : Stored V

structure FinState (V : Type) where
  objs : List (Obj V)
  fins : List (Fin V)

def FinState.init : FinState V := ⟨[], []⟩

/-- ExpectationPolicies.hpp 500-513 and 598-608: the finalizer is made. `[v = std::forward<T>(value)]` and the parameter of
`Throws` copy or move; arrays are not `std::copyable`, hence rejected. -/
def FinState.add (s : FinState V) (throws : Bool) : Expr V → Except Fault (FinState V × Ans V)
  | .named .array _ => .error .illFormed
  | .moved .array _ => .error .illFormed
  | e => do
    let (a, objs) ← store false s.objs e
    return ({ objs := objs, fins := s.fins ++ [⟨throws, a⟩] }, .nothing)

/-- Whether moving from what was stored leaves it unchanged. -/
def Stored.isPlain (objs : List (Obj V)) : Stored V → Bool
  | .own k _ => decide (k = .plain)
  | .ref o =>
    match objs[o]? with
    | some y => decide (y.kind = .plain)
    | none => true

/-- The caller of the mock changes what the reference refers to that it got: the value inside of the finalizer, or the
object inside of the `std::reference_wrapper`. `none`: it was moved from. -/
def FinState.put (s : FinState V) (f : Nat) (x : Fin V) (c : Option V) : FinState V :=
  match x.stored with
  | .own k _ => { s with fins := s.fins.set f { x with stored := .own k c } }
  | .ref o =>
    match s.objs[o]? with
    | some y => { s with objs := s.objs.set o { y with cell := match c with | some v => .holds v | none => .moved } }
    | none => s

/-- ExpectationPolicies.hpp 508-512: the stored function object of `finally::returns` returns a reference to the stored
value, or to the object inside of a stored `std::reference_wrapper`; 118-119: it is converted to the return type of the
mock by `static_cast`, which makes a copy if that is an object type. 143: `Throws` throws a copy. -/
def FinState.call (s : FinState V) (f : Nat) (x : Fin V) (use : Use V) : Except Fault (FinState V × Ans V) :=
  if x.throws then answer s ((x.stored.read s.objs).map .thrown)
  else do
    let r ← answer s ((x.stored.read s.objs).map .value)
    match use with
    | .value => return r
    | .reference none => return r
    | .reference (some v) => return (s.put f x (some v), r.2)
    | .rvalue take => return (if take && !x.stored.isPlain s.objs then s.put f x none else s, r.2)

/-- One operation of the client. Simplification: `finally::throws` is not used with a `std::reference_wrapper`. -/
def FinState.step (s : FinState V) : FinOp V → Except Fault (FinState V × Ans V)
  | .client c => do
    return ({ s with objs := ← clientStep s.objs c }, .nothing)
  | .returns e => s.add false e
  | .throws (.view _) => .error .client
  | .throws e => s.add true e
  | .call f use =>
    match s.fins[f]? with
    | some x => s.call f x use
    | none => .error .client

def runFins : FinState V → List (FinOp V) → Except Fault (FinState V × List (Ans V))
  | s, [] => .ok (s, [])
  | s, op :: ops => do
    let (s', a) ← s.step op
    let (s'', as) ← runFins s' ops
    return (s'', a :: as)

end Mimic.Capture
