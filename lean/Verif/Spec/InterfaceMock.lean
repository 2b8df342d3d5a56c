import Verif.Model.Preprocessor

/-!
# Specification vocabulary for interface mocks

What a client writes, and the C++ text that it stands for.
-/

set_option autoImplicit false

namespace Mimic.Pp

/-- No macro names. -/
def Plain (xs : List Tok) : Prop := ∀ t ∈ xs, t.macro = none

/-- The number of open parentheses afterwards, if none is closed too often. -/
def bal : Nat → List Tok → Option Nat
  | d, [] => some d
  | d, .lp :: ts => bal (d + 1) ts
  | 0, .rp :: _ => none
  | d + 1, .rp :: ts => bal d ts
  | d, _ :: ts => bal d ts

/-- The same for a text without a comma outside of parentheses. -/
def arg : Nat → List Tok → Option Nat
  | d, [] => some d
  | d, .lp :: ts => arg (d + 1) ts
  | 0, .rp :: _ => none
  | d + 1, .rp :: ts => arg d ts
  | 0, .comma :: _ => none
  | d, _ :: ts => arg d ts

/-- Each parenthesis has its counterpart. -/
def Bal (xs : List Tok) : Prop := bal 0 xs = some 0

/-- Can be one argument. -/
def Arg (xs : List Tok) : Prop := arg 0 xs = some 0

/-- How a type (or a list of specifiers) can be written: either without a comma outside of parentheses and without parentheses
around its beginning, or with parentheses around all of it. -/
def Written (w : List Tok) : Prop :=
  Plain w ∧ ((Arg w ∧ w.head? ≠ some .lp) ∨ ∃ x, Bal x ∧ w = .lp :: (x ++ [.rp]))

/-- What is meant: the enclosing parentheses are left out. -/
def meant : List Tok → List Tok
  | .lp :: r => r.dropLast
  | w => w

/-- `m(raw)` -/
def invoke (m : Macro) (raw : List Tok) : List Tok := m.tok :: .lp :: (raw ++ [.rp])

/-- `(xs)` -/
def inParens (xs : List Tok) : List Tok := .lp :: (xs ++ [.rp])

/-- The `k`-th parameter is named `arg_i`, `arg_ii`, ... -/
def paramName (k : Nat) : Tok := .id ("arg_".toList ++ List.replicate (k + 1) 'i') false

/-- One overload: result type, parameter types and specifiers, as written by the client. -/
structure Overload where
  ret : List Tok
  params : List (List Tok)
  specs : List Tok

/-- What is required of an overload. -/
structure Overload.Valid (o : Overload) : Prop where
  ret : Written o.ret
  specs : Written o.specs
  params : ∀ w ∈ o.params, Written w ∧ w ≠ []

/-- The parameters: type and name. -/
def Overload.parameters (o : Overload) : List (List Tok) := o.params.mapIdx (fun k w => meant w ++ [paramName k])

/-- `::std::forward<::std::add_rvalue_reference_t<type>>(name)` -/
def forwarded (type : List Tok) (name : Tok) : List Tok :=
  [punct "::", word "std", punct "::", word "forward", punct "<", punct "::", word "std", punct "::",
    word "add_rvalue_reference_t", punct "<"] ++ type ++ [punct ">>", .lp, name, .rp]

/-- The arguments for the mock. -/
def Overload.forwards (o : Overload) : List (List Tok) := o.params.mapIdx (fun k w => forwarded (meant w) (paramName k))

/-- `inline ret fn(parameters) specs override { return fn_(arguments); }` -/
def Overload.method (o : Overload) (fn mock : Tok) : List Tok :=
  word "inline" :: (meant o.ret ++ fn :: (inParens (joinArgs o.parameters) ++ (meant o.specs ++ ([word "override", punct "{",
    word "return", mock] ++ (inParens (joinArgs o.forwards) ++ [punct ";", punct "}"])))))

/-- The signature, in the way the macros write it: with all parentheses. -/
def Overload.signature (o : Overload) : List Tok := o.ret ++ (inParens (joinArgs o.params) ++ o.specs)

/-- The signature as it is meant. -/
def Overload.signatureMeant (o : Overload) : List Tok :=
  meant o.ret ++ (inParens (joinArgs (o.params.map meant)) ++ meant o.specs)

/-- `::mimicpp::Mock<signatures> fn_{}` -/
def mockMember (signatures : List (List Tok)) (mock : Tok) : List Tok :=
  [punct "::", word "mimicpp", punct "::", word "Mock", punct "<"] ++ joinArgs signatures ++ [punct ">", mock, punct "{", punct "}"]

/-- The intermediate description of an overload. -/
def Overload.infos (o : Overload) : List Tok :=
  inParens (joinArgs [o.ret, inParens (joinArgs o.params), o.specs, inParens (joinArgs o.parameters), inParens (joinArgs o.forwards)])

/-- How an overload is written: `MIMICPP_ADD_OVERLOAD(ret, (params), specs)` or `ADD_OVERLOAD(...)`; the specifiers can be left
out. -/
inductive Overload.Source (o : Overload) : List Tok → Prop
  | specs {m : Macro} (hm : m = .addOverload ∨ m = .addOverloadShort) :
      Source o (invoke m (joinArgs [o.ret, inParens (joinArgs o.params), o.specs]))
  | noSpecs {m : Macro} (hm : m = .addOverload ∨ m = .addOverloadShort) (h : o.specs = []) :
      Source o (invoke m (joinArgs [o.ret, inParens (joinArgs o.params)]))

/-- Each overload is written by one of the texts. -/
inductive Sources : List Overload → List (List Tok) → Prop
  | nil : Sources [] []
  | cons {o : Overload} {text : List Tok} {os : List Overload} {texts : List (List Tok)} (h : o.Source text)
      (hs : Sources os texts) : Sources (o :: os) (text :: texts)

/-- How a method with several overloads is written: `MIMICPP_MOCK_OVERLOADED_METHOD(fn, overloads...)` or
`MOCK_OVERLOADED_METHOD(...)`. -/
inductive OverloadedSource (fn : Tok) (os : List Overload) : List Tok → Prop
  | text {m : Macro} (hm : m = .mockOverloaded ∨ m = .mockOverloadedShort) {texts : List (List Tok)} (h : Sources os texts) :
      OverloadedSource fn os (invoke m (joinArgs ([fn] :: texts)))

/-- How a method with one overload is written: `MIMICPP_MOCK_METHOD(fn, ret, (params), specs)` or `MOCK_METHOD(...)`. -/
inductive MethodSource (fn : Tok) (o : Overload) : List Tok → Prop
  | specs {m : Macro} (hm : m = .mockMethod ∨ m = .mockMethodShort) :
      MethodSource fn o (invoke m (joinArgs [[fn], o.ret, inParens (joinArgs o.params), o.specs]))
  | noSpecs {m : Macro} (hm : m = .mockMethod ∨ m = .mockMethodShort) (h : o.specs = []) :
      MethodSource fn o (invoke m (joinArgs [[fn], o.ret, inParens (joinArgs o.params)]))

end Mimic.Pp
