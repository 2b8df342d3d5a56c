/-!
# `noexcept` and what the client's classes do

Models the `noexcept` specifications of `/repo/include/mimic++/ExpectationPolicies.hpp` 90-118, 126-146, 159-173, 217-262, 264-360,
403-424, 463-564, 574-589, 599-608, 647-728, of `/repo/include/mimic++/Matcher.hpp` 195-216, and of
`/repo/include/mimic++/Expectation.hpp` 526-535, and the operations of the client's classes that are carried out below them.

Simplifications: destructors do not throw (`std::is_nothrow_constructible_v` asks for that, too); memory is not exhausted; the
conversion of what a predicate returns to `bool` does not throw.
-/

set_option autoImplicit false

namespace Mimic.Contracts

/-- A function of a class of the client: whether it is declared `noexcept`, and whether it throws an exception (this time). -/
structure Act where
  declared : Bool
  throws : Bool
deriving DecidableEq, Repr

/-- How something ends. -/
inductive Outcome where
  | done
  | thrown
  | terminated
deriving DecidableEq, Repr

/-- A function with or without `noexcept`. -/
def frame (noexc : Bool) : Outcome → Outcome
  | .thrown => if noexc then .terminated else .thrown
  | o => o

/-- One thing after the other. -/
def andThen : Outcome → Outcome → Outcome
  | .done, o => o
  | o, _ => o

/-- A function of the client is carried out. -/
def exec (f : Act) : Outcome := frame f.declared (if f.throws then .thrown else .done)

/-- How the client passes an object to a function template that takes `T&&`; also: how the object a member function is called for is
seen. -/
inductive Way where
  | lvalue
  | constLvalue
  | rvalue
  | constRvalue
deriving DecidableEq, Repr

/-- A class of the client. -/
structure Cls where
  /-- the constructor that is used if a new object is made from one that is passed this way -/
  construct : Way → Act
  /-- `operator ()`, by the way the object is seen; `none`: there is none -/
  call : Way → Option Act

/-- The move constructor. -/
def Cls.move (c : Cls) : Act := c.construct .rvalue

/-- The functions of `finally` and `then` that take an object of the client. -/
inductive Factory where
  /-- ExpectationPolicies.hpp 463-481: `finally::returns_result_of` -/
  | returnsResultOf
  /-- 500-512: `finally::returns` -/
  | returns
  /-- 599-608: `finally::throws` -/
  | throws
  /-- 526-541, 553-565: `finally::returns_apply_result_of`, `finally::returns_apply_all_result_of` -/
  | returnsApply
  /-- 647-662, 673-689, 696-709: `then::apply_arg`, `then::apply_args`, `then::apply_all` -/
  | apply
  /-- 716-730: `then::invoke` -/
  | invoke
deriving DecidableEq, Repr

/-- A closure `[fn = std::forward<F>(f)]`, and then the constructor of `ReturnsResultOf` (98-103) or `SideEffectAction` (220-226), which
moves the closure. -/
def wrapClosure (c : Cls) (a : Way) : Outcome :=
  andThen (exec (c.construct a)) (frame c.move.declared (exec c.move))

/-- The constructor of `ApplyAllArgsAction` (271-277) or `ApplyArgsAction` (317-323): the parameter is made by the calling function;
the constructor moves it to the member. -/
def makeApply (c : Cls) (a : Way) : Outcome :=
  andThen (exec (c.construct a)) (frame c.move.declared (exec c.move))

/-- Making a policy or finalizer. All functions are `noexcept(std::is_nothrow_constructible_v<std::remove_cvref_t<F>, F>)`. -/
def Factory.create (f : Factory) (c : Cls) (a : Way) : Outcome :=
  frame (c.construct a).declared
    (match f with
    | .returnsResultOf => wrapClosure c a
    | .returns => wrapClosure c a
    | .invoke => wrapClosure c a
    /- `Throws` (133-136) takes a parameter by value and moves it -/
    | .throws => andThen (exec (c.construct a)) (frame c.move.declared (exec c.move))
    | .returnsApply => andThen (makeApply c a) (frame c.move.declared (exec c.move))
    | .apply => andThen (makeApply c a) (frame c.move.declared (exec c.move)))

/-- ExpectationPolicies.hpp 403-424: `expect::arg<i>(matcher, projection)`. First the arguments of the constructor of `Requirement` are
made: the matcher, and the projection, which is moved into the parameter of `ApplyArgsAction` (319) and from there (320). Then the
constructor (159-173) moves both into its members. -/
def createArg (m p : Cls) (a : Way) : Outcome :=
  frame ((m.construct a).declared && p.move.declared)
    (andThen (exec (m.construct a))
      (andThen (andThen (exec p.move) (frame p.move.declared (exec p.move)))
        (frame (m.move.declared && p.move.declared) (andThen (exec m.move) (exec p.move)))))

/-- Whether `std::is_nothrow_invocable_v` holds for objects seen this way. -/
def Cls.nothrowCall (c : Cls) (a : Way) : Bool :=
  match c.call a with
  | some f => f.declared
  | none => false

/-- The call of an object. `none` does not compile. -/
def Cls.invoke (c : Cls) (a : Way) : Option Outcome := (c.call a).map exec

/-- `ReturnsResultOf::finalize_call` (105-118): the action, and the conversion of its result to the mock's return type. -/
def finalizeCall (nothrowAction : Bool) (action : Outcome) (conv : Act) : Outcome :=
  frame (nothrowAction && conv.declared) (andThen action (exec conv))

/-- A call that is resolved by an expectation with `finally::returns_result_of(f)`, where `f` was passed in way `a`. The closure
(474-479) calls its own copy as an lvalue, and is `noexcept(std::is_nothrow_invocable_v<decltype(fun)>)`. -/
def returnsResultOf (c : Cls) (a : Way) (conv : Act) : Option Outcome :=
  (c.invoke .lvalue).map (fun o => finalizeCall (c.nothrowCall a) (frame (c.nothrowCall a) o) conv)

/-- ... with `finally::returns(v)` (507-511). The closure is `noexcept` and does not copy. -/
def returnsValue (conv : Act) : Outcome := finalizeCall true (frame true .done) conv

/-- ... with `finally::returns_apply_result_of<...>(f)` or `finally::returns_apply_all_result_of(f)` (279-301, 328-352): the action is
called as a const lvalue. -/
def returnsApply (c : Cls) (conv : Act) : Option Outcome :=
  (c.invoke .constLvalue).map (fun o => finalizeCall (c.nothrowCall .constLvalue) (frame (c.nothrowCall .constLvalue) o) conv)

/-- ... with `finally::returns_arg<i>()` (574-589): `std::identity` is `noexcept`. -/
def returnsArg (conv : Act) : Outcome := finalizeCall true (frame true .done) conv

/-- ... with `finally::throws(e)` (138-146): the exception object is a copy of the stored lvalue. -/
def throwsCopy (c : Cls) : Outcome := andThen (exec (c.construct .lvalue)) .thrown

/-- `consume` of a side effect (251-259) below the `noexcept` closure of `BasicExpectation::consume` (Expectation.hpp 529-534). -/
def consume (nothrowAction : Bool) (action : Outcome) : Outcome := frame true (frame nothrowAction action)

/-- `then::invoke(f)` (724-729): as `returns_result_of`, but `std::is_nothrow_invocable_v<Action&>`, where `Action` is deduced: an
lvalue that may be const. -/
def invokeEffect (c : Cls) (a : Way) : Option Outcome :=
  let seen := match a with
    | .constLvalue => .constLvalue
    | .constRvalue => .constLvalue
    | _ => Way.lvalue
  (c.invoke .lvalue).map (fun o => consume (c.nothrowCall seen) (frame (c.nothrowCall seen) o))

/-- `then::apply_arg`, `then::apply_args`, `then::apply_all`. -/
def applyEffect (c : Cls) : Option Outcome :=
  (c.invoke .constLvalue).map (fun o => consume (c.nothrowCall .constLvalue) (frame (c.nothrowCall .constLvalue) o))

/-- Matcher.hpp 195-216: `PredicateMatcher::matches`; the predicate is called as a const lvalue. -/
def predicateMatches (c : Cls) : Option Outcome :=
  (c.invoke .constLvalue).map (fun o => frame (c.nothrowCall .constLvalue) o)

end Mimic.Contracts
