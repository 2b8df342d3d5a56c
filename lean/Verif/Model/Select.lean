import Verif.Model.Signature

/-!
# Which overload a call and an expectation mean

`Mock<Signatures...>` (`/repo/include/mimic++/Mock.hpp` 595-608) inherits from one `MockFrontend` (65-519) per signature and
makes their `operator ()` and `expect_call` its own by using-declarations, so the C++ language decides which one an
expression `mock(...)` or `mock.expect_call(...)` means. This file lists the candidates as the source declares them and
applies the language's rule ([over.match.viable], [over.match.best], [over.ics.rank]) to them.

Types `τ`, argument expressions `γ` of calls and argument expressions `δ` of expectations are left open, and so are the
implicit conversions between them (`Conv`) and `requirement_for` (`/repo/include/mimic++/ExpectationBuilder.hpp` 222-230).
-/

set_option autoImplicit false

namespace Mimic.Select

variable {τ γ δ : Type}

/-- An expression that denotes a mock. -/
structure Object where
  isConst : Bool
  rvalue : Bool
deriving DecidableEq, Repr

/-- [over.match.funcs] The implicit object parameter of a member function with these qualifiers can be bound to `o`. -/
def binds (o : Object) (f : Sig τ) : Bool :=
  (!o.isConst || f.isConst) &&
  match f.ref with
  | .none => true
  | .lvalue => !o.rvalue || f.isConst
  | .rvalue => o.rvalue

/-- [over.ics.rank] 3.2.3 and 3.2.6: binding the implicit object parameter of `f` is better than that of `g`. (A function
without ref-qualifier does not take part in 3.2.3.) -/
def closer (o : Object) (f g : Sig τ) : Bool :=
  if o.rvalue && f.ref = .rvalue && g.ref = .lvalue then true
  else if o.rvalue && f.ref = .lvalue && g.ref = .rvalue then false
  else !f.isConst && g.isConst

/-- The implicit conversions of the language: whether an argument can initialise a parameter, and whether it is better
to initialise a parameter of the first than one of the second type. -/
structure Conv (τ γ : Type) where
  converts : γ → τ → Bool
  better : γ → τ → τ → Bool

/-- What an expression means. -/
inductive Choice where
  /-- No overload is viable: the program is ill-formed. -/
  | none
  /-- No viable overload is better than all others: the program is ill-formed. -/
  | ambiguous
  | overload (i : Nat)
deriving DecidableEq, Repr

/-- The overloads of `sigs` with their positions that satisfy `p`. -/
def viables (p : Sig τ → Bool) (sigs : List (Sig τ)) : List (Sig τ × Nat) :=
  sigs.zipIdx.filter (fun x => p x.1)

/-- [over.match.best] The viable overload that is better than all other ones. -/
def resolve (viable : Sig τ → Bool) (better : Sig τ → Sig τ → Bool) (sigs : List (Sig τ)) : Choice :=
  match viables viable sigs with
  | [] => .none
  | v :: vs =>
    match (v :: vs).find? (fun x => (v :: vs).all (fun y => y.2 = x.2 || better x.1 y.1)) with
    | some x => .overload x.2
    | none => .ambiguous

/-- The parameters of `operator ()`: those of the signature and the defaulted `const std::source_location&` (Mock.hpp 82,
120, 158, ...). -/
def callParams (loc : τ) (f : Sig τ) : List τ := f.params ++ [loc]

/-- `operator ()` of overload `f` can be called on `o` with `args`; the last parameter has a default argument. -/
def callViable (C : Conv τ γ) (loc : τ) (o : Object) (args : List γ) (f : Sig τ) : Bool :=
  binds o f && (args.length = f.params.length || args.length = f.params.length + 1) &&
  (args.zip (callParams loc f)).all (fun x => C.converts x.1 x.2)

/-- `operator ()` of overload `f` is better than that of `g`: no conversion is worse and one is better. (All are
non-template functions without constraints.) -/
def callBetter (C : Conv τ γ) (loc : τ) (o : Object) (args : List γ) (f g : Sig τ) : Bool :=
  let xs := args.zip ((callParams loc f).zip (callParams loc g))
  !closer o g f && xs.all (fun x => !C.better x.1 x.2.2 x.2.1) &&
  (closer o f g || xs.any (fun x => C.better x.1 x.2.1 x.2.2))

/-- The overload that `mock(args...)` calls. -/
def callChoice (C : Conv τ γ) (loc : τ) (sigs : List (Sig τ)) (o : Object) (args : List γ) : Choice :=
  resolve (callViable C loc o args) (callBetter C loc o args) sigs

/-- `expect_call` of overload `f` accepts `args` on `o`: Mock.hpp 89-96 and so on: `requires (... && requirement_for<Args,
Params>)`; packs of different lengths do not satisfy the constraint. The function has the qualifiers of the signature. -/
def expectViable (req : δ → τ → Bool) (o : Object) (args : List δ) (f : Sig τ) : Bool :=
  binds o f && (args.length = f.params.length) && (args.zip f.params).all (fun x => req x.1 x.2)

/-- The overload that `mock.expect_call(args...)` makes an expectation for. All candidates are function templates with the
parameters `Args&&...`, so all conversions of the arguments are the same; no constraint subsumes another one, because
`Params` is a different pack in each. Only the object makes a difference. -/
def expectChoice (req : δ → τ → Bool) (sigs : List (Sig τ)) (o : Object) (args : List δ) : Choice :=
  resolve (expectViable req o args) (closer o) sigs

/-- `/repo/include/mimic++/InterfaceMock.hpp` 280-281, 367-371: the method that overrides an interface's method with
signature `f` calls the mock, a member of the class, by its name: this is an lvalue, and `const` exactly in a `const`
method. The arguments are the forwarded parameters (`std::forward<std::add_rvalue_reference_t<T>>(arg)`); `forward t` is such
an expression for a parameter of type `t`. -/
def methodChoice (C : Conv τ γ) (loc : τ) (forward : τ → γ) (sigs : List (Sig τ)) (f : Sig τ) : Choice :=
  callChoice C loc sigs { isConst := f.isConst, rvalue := false } (f.params.map forward)

end Mimic.Select
