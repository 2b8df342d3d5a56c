import Verif.Model.Matcher

/-!
# Custom matchers

Models the customisation points `matches_hook::matches` and `describe_hook::describe` (`/repo/include/mimic++/Matcher.hpp` 25-106),
the concept `matcher_for` (108-117), and how `expect::arg` (`/repo/include/mimic++/ExpectationPolicies.hpp` 405-425, 184-206),
`range::each_element` and `range::any_element` (Matcher.hpp 935-991) use them. Custom matchers are classes with members `matches` and
`describe`, or classes for which `custom::matcher_traits` is specialised, or a mixture.

Simplifications: targets are values of one type `τ`; what may differ with the type of a target is whether it is `const`. `describe`
does not throw (`Model/Descriptions.lean` treats matchers whose `describe` does).
-/

set_option autoImplicit false

namespace Mimic.Custom

variable {τ : Type}

/-- What the compiler makes of a use: it is well-formed, it is not selected because a constraint does not hold, or it is an error
inside of a function body, which ends the compilation. -/
inductive Use (β : Type) where
  | ok (x : β)
  | notViable
  | hardError
deriving DecidableEq

/-- What a matcher class has for targets of type `τ`. The first argument of `traitsMatches` and `memberMatches` says whether the target
is `const`; `none`: there is no such function, or it does not accept such a target. Answers are `none` if they are exceptions. -/
structure Class (τ : Type) where
  traitsMatches : Bool → Option (τ → Option Bool) := fun _ => none
  memberMatches : Bool → Option (τ → Option Bool) := fun _ => none
  traitsDescribe : Option String := none
  memberDescribe : Option String := none

/-- Matcher.hpp 33-69: `matches_hook::matches`: `priority_tag<1>` is the overload with the traits, `priority_tag<0>` the member. -/
def Class.hookMatches (c : Class τ) (const : Bool) : Option (τ → Option Bool) :=
  match c.traitsMatches const with
  | some f => some f
  | none => c.memberMatches const

/-- Matcher.hpp 71-109: `describe_hook::describe`. -/
def Class.hookDescribe (c : Class τ) : Option String :=
  match c.traitsDescribe with
  | some d => some d
  | none => c.memberDescribe

/-- Matcher.hpp 113-122: `matcher_for`, as far as targets are concerned. -/
def Class.matcherFor (c : Class τ) (const : Bool) : Bool := (c.hookMatches const).isSome && c.hookDescribe.isSome

/-- ExpectationPolicies.hpp 405-425: `expect::arg<index>(c)`, whose `matches` (184-190) and `describe` (192-197) use the hooks. The
parameter's type tells whether the target is `const`. -/
def Class.arg (c : Class τ) (const : Bool) (index : Nat) : Use (Policy τ) :=
  match c.hookMatches const, c.hookDescribe with
  | some f, some d => .ok { accepts := f, description := some (argDescriber index d) }
  | _, _ => .notViable

/-- `PredicateMatcher` (Matcher.hpp 155-279) as a matcher class, where `d` is its description: both are members. -/
def ofPredicate {A : Type} (m : PMatcher Option τ A) (d : String) : Class τ :=
  { memberMatches := fun _ => some m.matches, memberDescribe := some d }

/-- `WildcardMatcher` (Matcher.hpp 287-300). -/
def wildcard : Class τ := { memberMatches := fun _ => some (fun _ => some true), memberDescribe := some "has no constraints" }

/-- `range::each_element(c)` (Matcher.hpp 935-962; `each`) and `range::any_element(c)` (964-991). The predicate calls the member
`m.matches(element)`, where `element` is a reference to const, in the body of a lambda without constraints; the description comes from
the hook, also in the body of a lambda. -/
def Class.elements (each : Bool) (c : Class τ) : Use (Class (List τ)) :=
  match c.memberMatches true, c.hookDescribe with
  | some f, some d =>
    .ok
      { memberMatches := fun _ => some (if each then allOf f else anyOf f)
        memberDescribe := some ((if each then "each el in range: el " else "any el in range: el ") ++ d) }
  | _, _ => .hardError

/-- `adapters/Catch2.hpp` 82-100: a matcher of Catch2 (with `MIMICPP_CONFIG_EXPERIMENTAL_CATCH2_MATCHER_INTEGRATION`). It has the members
`match` and `describe`; its traits offer `matches`. -/
def ofCatch2 (match_ : τ → Option Bool) (describe : String) : Class τ :=
  { traitsMatches := fun _ => some match_, memberDescribe := some describe }

end Mimic.Custom
