import Verif.Model.Select

/-!
# Specification vocabulary: which overload is meant
-/

set_option autoImplicit false

namespace Mimic.Select

variable {τ γ δ : Type}

/-- Among the overloads that satisfy `p`, overload `i` is better than all other ones. -/
def Best (p : Sig τ → Prop) (better : Sig τ → Sig τ → Prop) (sigs : List (Sig τ)) (i : Nat) : Prop :=
  ∃ f, sigs[i]? = some f ∧ p f ∧ ∀ (j : Nat) (g : Sig τ), sigs[j]? = some g → p g → j ≠ i → better f g

/-- The expression `mock.expect_call(args...)` on `o` is acceptable for overload `f`: every argument suits its parameter, and
a member function with the qualifiers of `f` can be called on `o`. -/
def Acceptable (req : δ → τ → Bool) (o : Object) (args : List δ) (f : Sig τ) : Prop :=
  binds o f = true ∧ args.length = f.params.length ∧
  ∀ (n : Nat) a t, args[n]? = some a → f.params[n]? = some t → req a t = true

/-- The expression `mock(args...)` on `o` can call overload `f`. One argument more than the signature has is a source
location. -/
def Callable (C : Conv τ γ) (loc : τ) (o : Object) (args : List γ) (f : Sig τ) : Prop :=
  binds o f = true ∧ (args.length = f.params.length ∨ args.length = f.params.length + 1) ∧
  ∀ (n : Nat) a t, args[n]? = some a → (f.params ++ [loc])[n]? = some t → C.converts a t = true

/-- Calling `f` is better than calling `g`: neither the object nor any argument suits `g` better, and the object or some
argument suits `f` better. -/
def Better (C : Conv τ γ) (loc : τ) (o : Object) (args : List γ) (f g : Sig τ) : Prop :=
  closer o g f = false ∧
  (∀ (n : Nat) a t u, args[n]? = some a → (f.params ++ [loc])[n]? = some t → (g.params ++ [loc])[n]? = some u →
    C.better a u t = false) ∧
  (closer o f g = true ∨
    ∃ (n : Nat) (a : γ) (t u : τ), args[n]? = some a ∧ (f.params ++ [loc])[n]? = some t ∧ (g.params ++ [loc])[n]? = some u ∧
      C.better a t u = true)

/-- "Better" is not mutual. -/
def Conv.Strict (C : Conv τ γ) : Prop := ∀ a t u, C.better a t u = true → C.better a u t = false

/-- The qualifiers of member functions that can be called on an object expression, the preferred ones first. -/
def preference (o : Object) : List (Bool × RefQual) :=
  match o.isConst, o.rvalue with
  | false, false => [(false, .lvalue), (true, .lvalue), (false, .none), (true, .none)]
  | true, false => [(true, .lvalue), (true, .none)]
  | false, true => [(false, .rvalue), (true, .rvalue), (true, .lvalue), (false, .none), (true, .none)]
  | true, true => [(true, .rvalue), (true, .lvalue), (true, .none)]

/-- Among the overloads that satisfy `p`, overload `i` has the qualifiers that are preferred for the object expression. -/
def Preferred (o : Object) (p : Sig τ → Prop) (sigs : List (Sig τ)) (i : Nat) : Prop :=
  ∃ f before after, sigs[i]? = some f ∧ p f ∧ preference o = before ++ (f.isConst, f.ref) :: after ∧
    ∀ g ∈ sigs, p g → (g.isConst, g.ref) ∉ before

/-- The arguments suit the parameters of `f`, whatever its qualifiers. -/
def Suits (req : δ → τ → Bool) (args : List δ) (f : Sig τ) : Prop :=
  args.length = f.params.length ∧
  ∀ (n : Nat) a t, args[n]? = some a → f.params[n]? = some t → req a t = true

/-- The same for a call. -/
def SuitsCall (C : Conv τ γ) (loc : τ) (args : List γ) (f : Sig τ) : Prop :=
  (args.length = f.params.length ∨ args.length = f.params.length + 1) ∧
  ∀ (n : Nat) a t, args[n]? = some a → (f.params ++ [loc])[n]? = some t → C.converts a t = true

/-- What a forwarded parameter is: it can initialise a parameter of the same type, and no other type suits better. -/
def Forwards (C : Conv τ γ) (forward : τ → γ) : Prop :=
  ∀ t, C.converts (forward t) t = true ∧ ∀ u, C.better (forward t) u t = false

end Mimic.Select
