/-!
# Function signatures, overload sets and storages

Models `/repo/include/mimic++/TypeTraits.hpp` 34-683, `/repo/include/mimic++/Utility.hpp` 109-151,
`/repo/include/mimic++/Fwd.hpp` 187-199 and the table of front-ends in `/repo/include/mimic++/Mock.hpp` 65-519.

Class templates are functions on data. Each partial specialisation of the source is one equation; the tables are
written out case by case in the order of the source. `volatile` signatures have no specialisation in the source and no
representation here. Types are compared by identity (`std::same_as`), so `τ` is any type with decidable equality.
-/

set_option autoImplicit false

namespace Mimic

/-- Ref-qualifier of a member function type. -/
inductive RefQual where
  | none
  | lvalue
  | rvalue
deriving DecidableEq, Repr

/-- A function type `ret(params...[, ...]) [const] [&|&&] [noexcept]`. -/
structure Sig (τ : Type) where
  ret : τ
  params : List τ
  variadic : Bool
  isConst : Bool
  ref : RefQual
  noexc : Bool
deriving DecidableEq, Repr

variable {τ : Type}

/-- TypeTraits.hpp 34-176: `signature_add_noexcept`. -/
def Sig.addNoexcept : Sig τ → Sig τ
  | ⟨r, ps, false, false, .none, false⟩ => ⟨r, ps, false, false, .none, true⟩
  | ⟨r, ps, true, false, .none, false⟩ => ⟨r, ps, true, false, .none, true⟩
  | ⟨r, ps, false, false, .none, true⟩ => ⟨r, ps, false, false, .none, true⟩
  | ⟨r, ps, true, false, .none, true⟩ => ⟨r, ps, true, false, .none, true⟩
  | ⟨r, ps, false, true, .none, false⟩ => ⟨r, ps, false, true, .none, true⟩
  | ⟨r, ps, true, true, .none, false⟩ => ⟨r, ps, true, true, .none, true⟩
  | ⟨r, ps, false, true, .none, true⟩ => ⟨r, ps, false, true, .none, true⟩
  | ⟨r, ps, true, true, .none, true⟩ => ⟨r, ps, true, true, .none, true⟩
  | ⟨r, ps, false, false, .lvalue, false⟩ => ⟨r, ps, false, false, .lvalue, true⟩
  | ⟨r, ps, true, false, .lvalue, false⟩ => ⟨r, ps, true, false, .lvalue, true⟩
  | ⟨r, ps, false, false, .lvalue, true⟩ => ⟨r, ps, false, false, .lvalue, true⟩
  | ⟨r, ps, true, false, .lvalue, true⟩ => ⟨r, ps, true, false, .lvalue, true⟩
  | ⟨r, ps, false, true, .lvalue, false⟩ => ⟨r, ps, false, true, .lvalue, true⟩
  | ⟨r, ps, true, true, .lvalue, false⟩ => ⟨r, ps, true, true, .lvalue, true⟩
  | ⟨r, ps, false, true, .lvalue, true⟩ => ⟨r, ps, false, true, .lvalue, true⟩
  | ⟨r, ps, true, true, .lvalue, true⟩ => ⟨r, ps, true, true, .lvalue, true⟩
  | ⟨r, ps, false, false, .rvalue, false⟩ => ⟨r, ps, false, false, .rvalue, true⟩
  | ⟨r, ps, true, false, .rvalue, false⟩ => ⟨r, ps, true, false, .rvalue, true⟩
  | ⟨r, ps, false, false, .rvalue, true⟩ => ⟨r, ps, false, false, .rvalue, true⟩
  | ⟨r, ps, true, false, .rvalue, true⟩ => ⟨r, ps, true, false, .rvalue, true⟩
  | ⟨r, ps, false, true, .rvalue, false⟩ => ⟨r, ps, false, true, .rvalue, true⟩
  | ⟨r, ps, true, true, .rvalue, false⟩ => ⟨r, ps, true, true, .rvalue, true⟩
  | ⟨r, ps, false, true, .rvalue, true⟩ => ⟨r, ps, false, true, .rvalue, true⟩
  | ⟨r, ps, true, true, .rvalue, true⟩ => ⟨r, ps, true, true, .rvalue, true⟩

/-- TypeTraits.hpp 190-332: `signature_remove_noexcept`. -/
def Sig.removeNoexcept : Sig τ → Sig τ
  | ⟨r, ps, false, false, .none, false⟩ => ⟨r, ps, false, false, .none, false⟩
  | ⟨r, ps, true, false, .none, false⟩ => ⟨r, ps, true, false, .none, false⟩
  | ⟨r, ps, false, false, .none, true⟩ => ⟨r, ps, false, false, .none, false⟩
  | ⟨r, ps, true, false, .none, true⟩ => ⟨r, ps, true, false, .none, false⟩
  | ⟨r, ps, false, true, .none, false⟩ => ⟨r, ps, false, true, .none, false⟩
  | ⟨r, ps, true, true, .none, false⟩ => ⟨r, ps, true, true, .none, false⟩
  | ⟨r, ps, false, true, .none, true⟩ => ⟨r, ps, false, true, .none, false⟩
  | ⟨r, ps, true, true, .none, true⟩ => ⟨r, ps, true, true, .none, false⟩
  | ⟨r, ps, false, false, .lvalue, false⟩ => ⟨r, ps, false, false, .lvalue, false⟩
  | ⟨r, ps, true, false, .lvalue, false⟩ => ⟨r, ps, true, false, .lvalue, false⟩
  | ⟨r, ps, false, false, .lvalue, true⟩ => ⟨r, ps, false, false, .lvalue, false⟩
  | ⟨r, ps, true, false, .lvalue, true⟩ => ⟨r, ps, true, false, .lvalue, false⟩
  | ⟨r, ps, false, true, .lvalue, false⟩ => ⟨r, ps, false, true, .lvalue, false⟩
  | ⟨r, ps, true, true, .lvalue, false⟩ => ⟨r, ps, true, true, .lvalue, false⟩
  | ⟨r, ps, false, true, .lvalue, true⟩ => ⟨r, ps, false, true, .lvalue, false⟩
  | ⟨r, ps, true, true, .lvalue, true⟩ => ⟨r, ps, true, true, .lvalue, false⟩
  | ⟨r, ps, false, false, .rvalue, false⟩ => ⟨r, ps, false, false, .rvalue, false⟩
  | ⟨r, ps, true, false, .rvalue, false⟩ => ⟨r, ps, true, false, .rvalue, false⟩
  | ⟨r, ps, false, false, .rvalue, true⟩ => ⟨r, ps, false, false, .rvalue, false⟩
  | ⟨r, ps, true, false, .rvalue, true⟩ => ⟨r, ps, true, false, .rvalue, false⟩
  | ⟨r, ps, false, true, .rvalue, false⟩ => ⟨r, ps, false, true, .rvalue, false⟩
  | ⟨r, ps, true, true, .rvalue, false⟩ => ⟨r, ps, true, true, .rvalue, false⟩
  | ⟨r, ps, false, true, .rvalue, true⟩ => ⟨r, ps, false, true, .rvalue, false⟩
  | ⟨r, ps, true, true, .rvalue, true⟩ => ⟨r, ps, true, true, .rvalue, false⟩

/-- TypeTraits.hpp 346-488: `signature_decay`. -/
def Sig.decay : Sig τ → Sig τ
  | ⟨r, ps, false, false, .none, false⟩ => ⟨r, ps, false, false, .none, false⟩
  | ⟨r, ps, false, true, .none, false⟩ => ⟨r, ps, false, false, .none, false⟩
  | ⟨r, ps, false, false, .lvalue, false⟩ => ⟨r, ps, false, false, .none, false⟩
  | ⟨r, ps, false, true, .lvalue, false⟩ => ⟨r, ps, false, false, .none, false⟩
  | ⟨r, ps, false, false, .rvalue, false⟩ => ⟨r, ps, false, false, .none, false⟩
  | ⟨r, ps, false, true, .rvalue, false⟩ => ⟨r, ps, false, false, .none, false⟩
  | ⟨r, ps, false, false, .none, true⟩ => ⟨r, ps, false, false, .none, false⟩
  | ⟨r, ps, false, true, .none, true⟩ => ⟨r, ps, false, false, .none, false⟩
  | ⟨r, ps, false, false, .lvalue, true⟩ => ⟨r, ps, false, false, .none, false⟩
  | ⟨r, ps, false, true, .lvalue, true⟩ => ⟨r, ps, false, false, .none, false⟩
  | ⟨r, ps, false, false, .rvalue, true⟩ => ⟨r, ps, false, false, .none, false⟩
  | ⟨r, ps, false, true, .rvalue, true⟩ => ⟨r, ps, false, false, .none, false⟩
  | ⟨r, ps, true, false, .none, false⟩ => ⟨r, ps, true, false, .none, false⟩
  | ⟨r, ps, true, true, .none, false⟩ => ⟨r, ps, true, false, .none, false⟩
  | ⟨r, ps, true, false, .lvalue, false⟩ => ⟨r, ps, true, false, .none, false⟩
  | ⟨r, ps, true, true, .lvalue, false⟩ => ⟨r, ps, true, false, .none, false⟩
  | ⟨r, ps, true, false, .rvalue, false⟩ => ⟨r, ps, true, false, .none, false⟩
  | ⟨r, ps, true, true, .rvalue, false⟩ => ⟨r, ps, true, false, .none, false⟩
  | ⟨r, ps, true, false, .none, true⟩ => ⟨r, ps, true, false, .none, false⟩
  | ⟨r, ps, true, true, .none, true⟩ => ⟨r, ps, true, false, .none, false⟩
  | ⟨r, ps, true, false, .lvalue, true⟩ => ⟨r, ps, true, false, .none, false⟩
  | ⟨r, ps, true, true, .lvalue, true⟩ => ⟨r, ps, true, false, .none, false⟩
  | ⟨r, ps, true, false, .rvalue, true⟩ => ⟨r, ps, true, false, .none, false⟩
  | ⟨r, ps, true, true, .rvalue, true⟩ => ⟨r, ps, true, false, .none, false⟩

/-- TypeTraits.hpp 502-519: `signature_return_type`, by way of the decayed signature. -/
def Sig.returnType (f : Sig τ) : τ := f.decay.ret

/-- TypeTraits.hpp 560-573: `signature_param_list`. There is no specialisation for variadic signatures: the general
one would inherit from itself, which is ill-formed (`none`). -/
def Sig.paramList (f : Sig τ) : Option (List τ) :=
  if f.decay.variadic then none else some f.decay.params

/-- TypeTraits.hpp 533-548: `signature_param_type`; ill-formed for variadic signatures and for an index that is too
large (`std::tuple_element`). -/
def Sig.paramType (i : Nat) (f : Sig τ) : Option τ :=
  if f.decay.variadic then none else f.decay.params[i]?

/-- TypeTraits.hpp 599-639: the seven specialisations of `detail::is_overloadable_with` that match signatures with
identical parameter lists; they do not depend on `reversed`. None of them matches a `noexcept` signature. -/
def overloadPair : Sig τ → Sig τ → Bool
  | ⟨_, _, false, false, .none, false⟩, ⟨_, _, false, true, .none, false⟩ => true
  | ⟨_, _, false, false, .lvalue, false⟩, ⟨_, _, false, true, .lvalue, false⟩ => true
  | ⟨_, _, false, false, .lvalue, false⟩, ⟨_, _, false, false, .rvalue, false⟩ => true
  | ⟨_, _, false, false, .lvalue, false⟩, ⟨_, _, false, true, .rvalue, false⟩ => true
  | ⟨_, _, false, true, .lvalue, false⟩, ⟨_, _, false, false, .rvalue, false⟩ => true
  | ⟨_, _, false, true, .lvalue, false⟩, ⟨_, _, false, true, .rvalue, false⟩ => true
  | ⟨_, _, false, false, .rvalue, false⟩, ⟨_, _, false, true, .rvalue, false⟩ => true
  | _, _ => false

/-- TypeTraits.hpp 580-639: `detail::is_overloadable_with`. For `reversed = false` the specialisation with the
`requires` clause (588-597) and those of `overloadPair` are mutually exclusive, since the latter need equal parameter
lists; otherwise the primary template (580-587) retries with swapped arguments, and then gives up. `none`: ill-formed. -/
def overloadableDetail [DecidableEq τ] (f g : Sig τ) : Option Bool :=
  match f.decay.paramList, g.decay.paramList with
  | some p, some q =>
    if p ≠ q then some true
    else if f.params = g.params ∧ overloadPair f g then some true
    else some (decide (f.params = g.params) && overloadPair g f)
  | _, _ => none

/-- TypeTraits.hpp 649-656: `is_overloadable_with`. -/
def overloadableWith [DecidableEq τ] (f g : Sig τ) : Option Bool :=
  overloadableDetail f.removeNoexcept g.removeNoexcept

/-- TypeTraits.hpp 670-683: `is_overload_set<First, Others...>`. `std::conjunction` stops at the first `false` (and
then does not instantiate the rest); `none`: ill-formed. -/
def isOverloadSetOf [DecidableEq τ] : Sig τ → List (Sig τ) → Option Bool
  | _, [] => some true
  | f, g :: rest =>
    match overloadableWith f g with
    | none => none
    | some false => some false
    | some true =>
      match isOverloadSetOf f rest with
      | none => none
      | some false => some false
      | some true => isOverloadSetOf g rest

/-- The same for a list; the empty list has no specialisation. -/
def isOverloadSet [DecidableEq τ] : List (Sig τ) → Option Bool
  | [] => none
  | f :: rest => isOverloadSetOf f rest

/-! ### Front-ends -/

/-- Fwd.hpp 194-199: `ValueCategory`. -/
inductive ValueCategory where
  | lvalue
  | rvalue
  | any
deriving DecidableEq, Repr

/-- Fwd.hpp 187-192: `Constness`. -/
inductive Constness where
  | nonConst
  | asConst
  | any
deriving DecidableEq, Repr

/-- The values of the enumerators, Fwd.hpp 196-198. -/
def ValueCategory.toUnderlying : ValueCategory → Nat
  | .lvalue => 1
  | .rvalue => 2
  | .any => 1 ||| 2

/-- The values of the enumerators, Fwd.hpp 189-191. -/
def Constness.toUnderlying : Constness → Nat
  | .nonConst => 1
  | .asConst => 2
  | .any => 1 ||| 2

/-- Printer.hpp 166-191: the `formatter` of `ValueCategory`. It throws for numbers that are none of the enumerators, which does
not occur here. -/
def ValueCategory.word : ValueCategory → String
  | .lvalue => "lvalue"
  | .rvalue => "rvalue"
  | .any => "any"

/-- Printer.hpp 193-218: the `formatter` of `Constness`, likewise. -/
def Constness.word : Constness → String
  | .nonConst => "mutable"
  | .asConst => "const"
  | .any => "any"

/-- Utility.hpp 116-120: `is_matching(ValueCategory, ValueCategory)`. -/
def ValueCategory.isMatching (l r : ValueCategory) : Bool := (l.toUnderlying &&& r.toUnderlying) != 0

/-- Utility.hpp 110-114: `is_matching(Constness, Constness)`. -/
def Constness.isMatching (l r : Constness) : Bool := (l.toUnderlying &&& r.toUnderlying) != 0

/-- Mock.hpp 65-519: the template arguments `category` and `constness` the specialisation of `MockFrontend` passes to
`BasicMockFrontend`. There is no specialisation for variadic signatures. -/
def Sig.frontend : Sig τ → Option (ValueCategory × Constness)
  | ⟨_, _, false, false, .none, false⟩ => some (.any, .nonConst)
  | ⟨_, _, false, true, .none, false⟩ => some (.any, .asConst)
  | ⟨_, _, false, false, .lvalue, false⟩ => some (.lvalue, .nonConst)
  | ⟨_, _, false, true, .lvalue, false⟩ => some (.lvalue, .asConst)
  | ⟨_, _, false, false, .rvalue, false⟩ => some (.rvalue, .nonConst)
  | ⟨_, _, false, true, .rvalue, false⟩ => some (.rvalue, .asConst)
  | ⟨_, _, false, false, .none, true⟩ => some (.any, .nonConst)
  | ⟨_, _, false, true, .none, true⟩ => some (.any, .asConst)
  | ⟨_, _, false, false, .lvalue, true⟩ => some (.lvalue, .nonConst)
  | ⟨_, _, false, true, .lvalue, true⟩ => some (.lvalue, .asConst)
  | ⟨_, _, false, false, .rvalue, true⟩ => some (.rvalue, .nonConst)
  | ⟨_, _, false, true, .rvalue, true⟩ => some (.rvalue, .asConst)
  | ⟨_, _, true, _, _, _⟩ => none

/-! ### Storages -/

/-- Utility.hpp 125-148: `detail::unique`; the first argument is `std::tuple<Uniques...>`. -/
def uniqueLoop {σ : Type} [DecidableEq σ] : List σ → List σ → List σ
  | uniques, [] => uniques
  | uniques, x :: rest => uniqueLoop (if uniques.any (fun y => decide (x = y)) then uniques else uniques ++ [x]) rest

/-- Utility.hpp 150-151: `detail::unique_list_t`. -/
def uniqueList {σ : Type} [DecidableEq σ] (l : List σ) : List σ := uniqueLoop [] l

/-- Mock.hpp 615-625: the list of storages a mock creates, as the list of their signatures. -/
def storagesOf [DecidableEq τ] (sigs : List (Sig τ)) : List (Sig τ) := uniqueList (sigs.map Sig.decay)

/-- Mock.hpp 648-657: `std::get<std::shared_ptr<ExpectationCollection<signature_decay_t<Signature>>>>`: the position of
the storage of the overload `f`. `std::get` by type is ill-formed (`none`) unless the type occurs exactly once. -/
def storageIndex [DecidableEq τ] (storages : List (Sig τ)) (f : Sig τ) : Option Nat :=
  if storages.count f.decay = 1 then some (storages.idxOf f.decay) else none

end Mimic
