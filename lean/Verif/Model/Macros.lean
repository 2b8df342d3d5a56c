/-!
# The macros for interface mocks

The macro definitions of `/repo/include/mimic++/InterfaceMock.hpp` as data; `Model/Preprocessor.lean` says how they are replaced.

Simplifications: white space is left out, as it is of no account for these macros; preprocessing tokens that are neither
identifiers nor parentheses nor commas are not told apart any further.
-/

set_option autoImplicit false

namespace Mimic.Pp

/-- A preprocessing token. `painted`: an identifier that is "no longer available for further replacement". -/
inductive Tok where
  | id (s : List Char) (painted : Bool)
  | lp
  | rp
  | comma
  | sym (s : List Char)
deriving DecidableEq, Repr

/-- What may stand beside `##`: an identifier or a parameter. -/
inductive Operand where
  | lit (s : List Char)
  | arg (i : Nat)
deriving DecidableEq, Repr

/-- A piece of a replacement list. Parameters are numbered; the last number stands for `__VA_ARGS__`. -/
inductive Part where
  | tok (t : Tok)
  | arg (i : Nat)
  /-- `l ## r` -/
  | cat (l r : Operand)
deriving DecidableEq, Repr

/-- A piece of a replacement list or a `__VA_OPT__`, which cannot be nested. -/
inductive Elem where
  | one (p : Part)
  | opt (ps : List Part)
deriving DecidableEq, Repr

/-- A definition: the number of the named parameters and whether there is an ellipsis, or `none` for a macro without a
parameter list; and the replacement list. -/
structure Def where
  params : Option (Nat × Bool)
  body : List Elem

/-- The macros. -/
inductive Macro where
  | stripParens | stripInner | stripOuter | stripOuter_ | stripped
  | parens | commaDelimiter | noDelimiter | identity | expand | expand3 | expand2 | expand1
  | indirect | forEach | helper | again
  | makeSignature | makeSignatureList | makeOverloadedMock
  | makeParam | makeParamList | forwardArg | forwardArgs
  | infosSpecs | infosBasic | selectInfos | addOverload
  | methodOverride | methodOverrides | mockOverloaded | mockMethod
  | mockMethodShort | mockOverloadedShort | addOverloadShort
deriving DecidableEq, Repr

/-- All of them. -/
def Macro.all : List Macro :=
  [.stripParens, .stripInner, .stripOuter, .stripOuter_, .stripped,
   .parens, .commaDelimiter, .noDelimiter, .identity, .expand, .expand3, .expand2, .expand1,
   .indirect, .forEach, .helper, .again,
   .makeSignature, .makeSignatureList, .makeOverloadedMock,
   .makeParam, .makeParamList, .forwardArg, .forwardArgs,
   .infosSpecs, .infosBasic, .selectInfos, .addOverload,
   .methodOverride, .methodOverrides, .mockOverloaded, .mockMethod,
   .mockMethodShort, .mockOverloadedShort, .addOverloadShort]

/-- Their names (InterfaceMock.hpp 62-437). -/
def Macro.spell : Macro → List Char
  | .stripParens => "MIMICPP_DETAIL_STRIP_PARENS".toList
  | .stripInner => "MIMICPP_DETAIL_STRIP_PARENS_INNER".toList
  | .stripOuter => "MIMICPP_DETAIL_STRIP_PARENS_OUTER".toList
  | .stripOuter_ => "MIMICPP_DETAIL_STRIP_PARENS_OUTER_".toList
  | .stripped => "MIMICPP_DETAIL_STRIP_PARENS_STRIPPED_MIMICPP_DETAIL_STRIP_PARENS_INNER".toList
  | .parens => "MIMICPP_DETAIL_PARENS".toList
  | .commaDelimiter => "MIMICPP_DETAIL_COMMA_DELIMITER".toList
  | .noDelimiter => "MIMICPP_DETAIL_NO_DELIMITER".toList
  | .identity => "MIMICPP_DETAIL_IDENTITY".toList
  | .expand => "MIMICPP_DETAIL_EXPAND".toList
  | .expand3 => "MIMICPP_DETAIL_EXPAND3".toList
  | .expand2 => "MIMICPP_DETAIL_EXPAND2".toList
  | .expand1 => "MIMICPP_DETAIL_EXPAND1".toList
  | .indirect => "MIMICPP_DETAIL_FOR_EACH_EXT_INDIRECT".toList
  | .forEach => "MIMICPP_DETAIL_FOR_EACH_EXT".toList
  | .helper => "MIMICPP_DETAIL_FOR_EACH_EXT_HELPER".toList
  | .again => "MIMICPP_FOR_EACH_EXT_AGAIN".toList
  | .makeSignature => "MIMICPP_DETAIL_MAKE_SIGNATURE".toList
  | .makeSignatureList => "MIMICPP_DETAIL_MAKE_SIGNATURE_LIST".toList
  | .makeOverloadedMock => "MIMICPP_DETAIL_MAKE_OVERLOADED_MOCK".toList
  | .makeParam => "MIMICPP_DETAIL_MAKE_PARAM".toList
  | .makeParamList => "MIMICPP_DETAIL_MAKE_PARAM_LIST".toList
  | .forwardArg => "MIMICPP_DETAIL_FORWARD_ARG".toList
  | .forwardArgs => "MIMICPP_DETAIL_FORWARD_ARGS".toList
  | .infosSpecs => "MIMICPP_DETAIL_MAKE_OVERLOAD_INFOS_SPECS".toList
  | .infosBasic => "MIMICPP_DETAIL_MAKE_OVERLOAD_INFOS_BASIC".toList
  | .selectInfos => "MIMICPP_DETAIL_SELECT_MAKE_OVERLOAD_INFOS".toList
  | .addOverload => "MIMICPP_ADD_OVERLOAD".toList
  | .methodOverride => "MIMICPP_DETAIL_MAKE_METHOD_OVERRIDE".toList
  | .methodOverrides => "MIMICPP_DETAIL_MAKE_METHOD_OVERRIDES".toList
  | .mockOverloaded => "MIMICPP_MOCK_OVERLOADED_METHOD".toList
  | .mockMethod => "MIMICPP_MOCK_METHOD".toList
  | .mockMethodShort => "MOCK_METHOD".toList
  | .mockOverloadedShort => "MOCK_OVERLOADED_METHOD".toList
  | .addOverloadShort => "ADD_OVERLOAD".toList

/-- The macro with this name. -/
def lookup (s : List Char) : Option Macro := Macro.all.find? (fun m => m.spell == s)

/-- The name of a macro as a token. -/
def Macro.tok (m : Macro) : Tok := .id m.spell false

/-- An ordinary identifier. -/
def word (s : String) : Tok := .id s.toList false

/-- A punctuator. -/
def punct (s : String) : Tok := .sym s.toList

instance : Coe Tok Part := ⟨.tok⟩
instance : Coe Macro Part := ⟨fun m => .tok m.tok⟩

/-- Pieces without `__VA_OPT__`. -/
def plainBody (ps : List Part) : List Elem := ps.map .one

open Macro in
/-- The definitions. -/
def Macro.define : Macro → Def
  /- 62: `(x)  OUTER(INNER x)` -/
  | stripParens => ⟨some (1, false), plainBody [stripOuter, Tok.lp, stripInner, .arg 0, Tok.rp]⟩
  /- 68: `(...)  INNER __VA_ARGS__` -/
  | stripInner => ⟨some (0, true), plainBody [stripInner, .arg 0]⟩
  /- 74: `(...)  OUTER_(__VA_ARGS__)` -/
  | stripOuter => ⟨some (0, true), plainBody [stripOuter_, Tok.lp, .arg 0, Tok.rp]⟩
  /- 80: `(...)  STRIPPED_ ## __VA_ARGS__` -/
  | stripOuter_ => ⟨some (0, true), plainBody [.cat (.lit "MIMICPP_DETAIL_STRIP_PARENS_STRIPPED_".toList) (.arg 0)]⟩
  /- 86 -/
  | stripped => ⟨none, []⟩
  /- 106 -/
  | parens => ⟨none, plainBody [Tok.lp, Tok.rp]⟩
  /- 112 -/
  | commaDelimiter => ⟨some (0, false), plainBody [Tok.comma]⟩
  /- 118 -/
  | noDelimiter => ⟨some (0, false), []⟩
  /- 124 -/
  | identity => ⟨some (0, true), plainBody [.arg 0]⟩
  /- 130 -/
  | expand => ⟨some (0, true), plainBody [expand3, Tok.lp, expand3, Tok.lp, expand3, Tok.lp, expand3, Tok.lp, .arg 0,
      Tok.rp, Tok.rp, Tok.rp, Tok.rp]⟩
  /- 136 -/
  | expand3 => ⟨some (0, true), plainBody [expand2, Tok.lp, expand2, Tok.lp, expand2, Tok.lp, expand2, Tok.lp, .arg 0,
      Tok.rp, Tok.rp, Tok.rp, Tok.rp]⟩
  /- 142 -/
  | expand2 => ⟨some (0, true), plainBody [expand1, Tok.lp, expand1, Tok.lp, expand1, Tok.lp, expand1, Tok.lp, .arg 0,
      Tok.rp, Tok.rp, Tok.rp, Tok.rp]⟩
  /- 148 -/
  | expand1 => ⟨some (0, true), plainBody [.arg 0]⟩
  /- 157: `(macro, sequence, ...)  macro(sequence, __VA_ARGS__)` -/
  | indirect => ⟨some (2, true), plainBody [.arg 0, Tok.lp, .arg 1, Tok.comma, .arg 2, Tok.rp]⟩
  /- 174-175: `(macro, token, delimiter, projection_macro, bound, ...)` -/
  | forEach => ⟨some (5, true), [.opt [expand, Tok.lp, helper, Tok.lp, .arg 0, Tok.comma, .arg 1, Tok.comma, .arg 1, Tok.comma,
      .arg 2, Tok.comma, .arg 3, Tok.comma, .arg 4, Tok.comma, .arg 5, Tok.rp, Tok.rp]]⟩
  /- 181-183: `(macro, token, sequence, delimiter, projection_macro, bound, a1, ...)` -/
  | helper => ⟨some (7, true), plainBody [indirect, Tok.lp, .arg 0, Tok.comma, .arg 2, Tok.comma, stripParens, Tok.lp, .arg 5,
      Tok.rp, Tok.comma, .arg 4, Tok.lp, .arg 6, Tok.rp, Tok.rp] ++
      [.opt [.arg 3, Tok.lp, Tok.rp, again, parens, Tok.lp, .arg 0, Tok.comma, .arg 1, Tok.comma, .cat (.arg 2) (.arg 1),
        Tok.comma, .arg 3, Tok.comma, .arg 4, Tok.comma, .arg 5, Tok.comma, .arg 7, Tok.rp]]⟩
  /- 189 -/
  | again => ⟨some (0, false), plainBody [helper]⟩
  /- 209: `(sequence, bound_data, ret, param_type_list, specs, ...)` -/
  | makeSignature => ⟨some (5, true), plainBody [.arg 2, .arg 3, .arg 4]⟩
  /- 215-222 -/
  | makeSignatureList => ⟨some (0, true), plainBody [forEach, Tok.lp, makeSignature, Tok.comma, Tok.comma, commaDelimiter,
      Tok.comma, stripParens, Tok.comma, Tok.comma, .arg 0, Tok.rp]⟩
  /- 230-231: `(mock_name, signatures)` -/
  | makeOverloadedMock => ⟨some (2, false), plainBody [punct "::", word "mimicpp", punct "::", word "Mock", punct "<",
      stripParens, Tok.lp, .arg 1, Tok.rp, punct ">", .arg 0, punct "{", punct "}"]⟩
  /- 249: `(sequence, bound_data, type)` -/
  | makeParam => ⟨some (3, false), plainBody [stripParens, Tok.lp, .arg 2, Tok.rp, .cat (.lit "arg_".toList) (.arg 0)]⟩
  /- 255-262 -/
  | makeParamList => ⟨some (0, true), plainBody [forEach, Tok.lp, makeParam, Tok.comma, word "i", Tok.comma, commaDelimiter,
      Tok.comma, identity, Tok.comma, Tok.comma, .arg 0, Tok.rp]⟩
  /- 280-281: `(sequence, bound_data, type)` -/
  | forwardArg => ⟨some (3, false), plainBody [punct "::", word "std", punct "::", word "forward", punct "<", punct "::",
      word "std", punct "::", word "add_rvalue_reference_t", punct "<", stripParens, Tok.lp, .arg 2, Tok.rp, punct ">>", Tok.lp,
      .cat (.lit "arg_".toList) (.arg 0), Tok.rp]⟩
  /- 287-294 -/
  | forwardArgs => ⟨some (0, true), plainBody [forEach, Tok.lp, forwardArg, Tok.comma, word "i", Tok.comma, commaDelimiter,
      Tok.comma, identity, Tok.comma, Tok.comma, .arg 0, Tok.rp]⟩
  /- 312-315: `(ret, param_type_list, specs, ...)` -/
  | infosSpecs => ⟨some (3, true), plainBody [Tok.lp, .arg 0, Tok.comma, .arg 1, Tok.comma, .arg 2, Tok.comma, Tok.lp,
      makeParamList, Tok.lp, stripParens, Tok.lp, .arg 1, Tok.rp, Tok.rp, Tok.rp, Tok.comma, Tok.lp, forwardArgs, Tok.lp,
      stripParens, Tok.lp, .arg 1, Tok.rp, Tok.rp, Tok.rp, Tok.rp]⟩
  /- 323-324: `(ret, param_type_list, ...)` -/
  | infosBasic => ⟨some (2, true), plainBody [infosSpecs, Tok.lp, .arg 0, Tok.comma, .arg 1, Tok.comma, Tok.rp]⟩
  /- 331: `(_1, N, ...)` -/
  | selectInfos => ⟨some (2, true), plainBody [.arg 1]⟩
  /- 340-344: `(ret, param_type_list, ...)` -/
  | addOverload => ⟨some (2, true), plainBody [selectInfos, Tok.lp, .arg 2, Tok.comma, infosSpecs, Tok.comma, infosBasic, Tok.rp,
      Tok.lp, .arg 0, Tok.comma, .arg 1, Tok.comma, .arg 2, Tok.comma, Tok.rp]⟩
  /- 367-371: `(ignore, mock_name, fn_name, ret, param_type_list, specs, param_list, forward_list, ...)` -/
  | methodOverride => ⟨some (8, true), plainBody [word "inline", stripParens, Tok.lp, .arg 3, Tok.rp, .arg 2, .arg 6,
      stripParens, Tok.lp, .arg 5, Tok.rp, word "override", punct "{", word "return", .arg 1, Tok.lp, stripParens, Tok.lp,
      .arg 7, Tok.rp, Tok.rp, punct ";", punct "}"]⟩
  /- 379-386: `(mock_name, fn_name, ...)` -/
  | methodOverrides => ⟨some (2, true), plainBody [forEach, Tok.lp, methodOverride, Tok.comma, Tok.comma, noDelimiter,
      Tok.comma, stripParens, Tok.comma, Tok.lp, .arg 0, Tok.comma, .arg 1, Tok.rp, Tok.comma, .arg 2, Tok.rp]⟩
  /- 398-402: `(fn_name, ...)` -/
  | mockOverloaded => ⟨some (1, true), plainBody [methodOverrides, Tok.lp, .cat (.arg 0) (.lit ['_']), Tok.comma, .arg 0,
      Tok.comma, .arg 1, Tok.rp, makeOverloadedMock, Tok.lp, .cat (.arg 0) (.lit ['_']), Tok.comma, Tok.lp, makeSignatureList,
      Tok.lp, .arg 1, Tok.rp, Tok.rp, Tok.rp]⟩
  /- 414-417: `(fn_name, ret, param_type_list, ...)` -/
  | mockMethod => ⟨some (3, true), plainBody [mockOverloaded, Tok.lp, .arg 0, Tok.comma, addOverload, Tok.lp, .arg 1, Tok.comma,
      .arg 2] ++ [.opt [Tok.comma]] ++ plainBody [.arg 3, Tok.rp, Tok.rp]⟩
  /- 425 -/
  | mockMethodShort => ⟨none, plainBody [mockMethod]⟩
  /- 431 -/
  | mockOverloadedShort => ⟨none, plainBody [mockOverloaded]⟩
  /- 437 -/
  | addOverloadShort => ⟨none, plainBody [addOverload]⟩

end Mimic.Pp
