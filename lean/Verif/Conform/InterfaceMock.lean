import Verif.Model.Preprocessor
import Verif.Spec.InterfaceMock

/-!
# The repository's own tests of the macros, carried out by the model

Transcribes the test cases of `/repo/test/unit-tests/InterfaceMock.cpp` 24-320. The tests turn the replacement into a text with `#`,
whose white space the model does not have; here the tokens are compared. In the tests about mocks the expansion is compared with the
declarations a reader would write.
-/

set_option autoImplicit false

namespace Mimic.Conform.Macros
open Mimic.Pp

/-- A token under construction: nothing yet, an identifier or a punctuator. -/
inductive Pending where
  | none
  | ident (s : List Char)
  | sym (c : Char)

def Pending.flush : Pending → List Tok
  | .none => []
  | .ident s => [.id s.reverse false]
  | .sym c => [.sym [c]]

/-- The tokens of a text, as far as the tests need it: `::`, `&&` and `>>` are single tokens. -/
def lex : Pending → List Char → List Tok
  | p, [] => p.flush
  | p, c :: cs =>
    if c.isAlphanum || c == '_' then
      match p with
      | .ident s => lex (.ident (c :: s)) cs
      | p => p.flush ++ lex (.ident [c]) cs
    else if c == ' ' then p.flush ++ lex .none cs
    else if c == '(' then p.flush ++ .lp :: lex .none cs
    else if c == ')' then p.flush ++ .rp :: lex .none cs
    else if c == ',' then p.flush ++ .comma :: lex .none cs
    else
      match p with
      | .sym d => if c == d && (c == ':' || c == '&' || c == '>') then .sym [c, c] :: lex .none cs else .sym [d] :: lex (.sym c) cs
      | p => p.flush ++ lex (.sym c) cs

def toks (s : String) : List Tok := lex .none s.toList

example : toks "std::tuple<int, float&&> arg_i" =
    [word "std", punct "::", word "tuple", punct "<", word "int", .comma, word "float", punct "&&", punct ">", word "arg_i"] := by decide

/-- A replacement is as expected. A preprocessor paints the names it will not replace again; in the tests none of them is left. -/
def becomes (text out : String) : Bool := preprocess 600 (toks text) == some (toks out)

set_option maxRecDepth 20000

/-- 24-58: `STRIP_PARENS`. -/
example : ∀ row ∈ [("MIMICPP_DETAIL_STRIP_PARENS()", ""), ("MIMICPP_DETAIL_STRIP_PARENS(())", ""),
      ("MIMICPP_DETAIL_STRIP_PARENS((()))", "()"), ("MIMICPP_DETAIL_STRIP_PARENS(Test())", "Test()"),
      ("MIMICPP_DETAIL_STRIP_PARENS((Test()))", "Test()"), ("MIMICPP_DETAIL_STRIP_PARENS(((Test())))", "(Test())"),
      ("MIMICPP_DETAIL_STRIP_PARENS(((,Test(),)))", "(,Test(),)")],
    becomes row.1 row.2 = true := by decide +kernel

/-- 60-82: `MAKE_SIGNATURE_LIST`. -/
example : ∀ row ∈ [("MIMICPP_DETAIL_MAKE_SIGNATURE_LIST()", ""), ("MIMICPP_DETAIL_MAKE_SIGNATURE_LIST((void, (), ))", "void()"),
      ("MIMICPP_DETAIL_MAKE_SIGNATURE_LIST((const int&, (float&&), const noexcept), (void, (), ))",
        "const int&(float&&) const noexcept, void()")],
    becomes row.1 row.2 = true := by decide +kernel

/-- 84-106: `MAKE_OVERLOADED_MOCK`. -/
example : ∀ row ∈ [("MIMICPP_DETAIL_MAKE_OVERLOADED_MOCK(mock, ( void() ))", "::mimicpp::Mock<void()> mock{}"),
      ("MIMICPP_DETAIL_MAKE_OVERLOADED_MOCK(mock, ( float&(int&&) ))", "::mimicpp::Mock<float&(int&&)> mock{}")],
    becomes row.1 row.2 = true := by decide +kernel

/-- 108-134: `MAKE_PARAM_LIST`. -/
example : ∀ row ∈ [("MIMICPP_DETAIL_MAKE_PARAM_LIST()", ""), ("MIMICPP_DETAIL_MAKE_PARAM_LIST(int)", "int arg_i"),
      ("MIMICPP_DETAIL_MAKE_PARAM_LIST(const int&, int&&)", "const int& arg_i, int&& arg_ii"),
      ("MIMICPP_DETAIL_MAKE_PARAM_LIST(int, int)", "int arg_i, int arg_ii"),
      ("MIMICPP_DETAIL_MAKE_PARAM_LIST((std::tuple<int, float>))", "std::tuple<int, float> arg_i")],
    becomes row.1 row.2 = true := by decide +kernel

/-- 136-165: `FORWARD_ARGS`. The last row has `> >>`: the model joins no characters to tokens, and a compiler reads `>>>` alike. -/
example : ∀ row ∈ [("MIMICPP_DETAIL_FORWARD_ARGS()", ""),
      ("MIMICPP_DETAIL_FORWARD_ARGS(int)", "::std::forward<::std::add_rvalue_reference_t< int>>(arg_i)"),
      ("MIMICPP_DETAIL_FORWARD_ARGS(const int&, int&&)", "::std::forward<::std::add_rvalue_reference_t< const int&>>(arg_i), " ++
        "::std::forward<::std::add_rvalue_reference_t< int&&>>(arg_ii)"),
      ("MIMICPP_DETAIL_FORWARD_ARGS(int, int)", "::std::forward<::std::add_rvalue_reference_t< int>>(arg_i), " ++
        "::std::forward<::std::add_rvalue_reference_t< int>>(arg_ii)"),
      ("MIMICPP_DETAIL_FORWARD_ARGS((std::tuple<int, float>))",
        "::std::forward<::std::add_rvalue_reference_t< std::tuple<int, float> >>(arg_i)")],
    becomes row.1 row.2 = true := by decide +kernel

/-- 167-196: `ADD_OVERLOAD`. -/
example : ∀ row ∈ [("MIMICPP_ADD_OVERLOAD(void, ())", "(void, (), , (), ())"),
      ("MIMICPP_ADD_OVERLOAD(const int&&, (const std::string&, int&&), const noexcept)",
        "(const int&&, (const std::string&, int&&), const noexcept, (const std::string& arg_i, int&& arg_ii), " ++
        "(::std::forward<::std::add_rvalue_reference_t< const std::string&>>(arg_i), " ++
        "::std::forward<::std::add_rvalue_reference_t< int&&>>(arg_ii)))"),
      ("MIMICPP_ADD_OVERLOAD((std::tuple<int, float>), ())", "((std::tuple<int, float>), (), , (), ())"),
      ("MIMICPP_ADD_OVERLOAD(void, ((std::tuple<int, float>)))",
        "(void, ((std::tuple<int, float>)), , (std::tuple<int, float> arg_i), " ++
        "(::std::forward<::std::add_rvalue_reference_t< std::tuple<int, float> >>(arg_i)))")],
    becomes row.1 row.2 = true := by decide +kernel

/-- 198-276: `MOCK_OVERLOADED_METHOD`. -/
example : ∀ row ∈ [("MIMICPP_MOCK_OVERLOADED_METHOD(foo, MIMICPP_ADD_OVERLOAD(void, ()))",
        "inline void foo() override { return foo_(); } ::mimicpp::Mock<void()> foo_{}"),
      ("MIMICPP_MOCK_OVERLOADED_METHOD(foo, MIMICPP_ADD_OVERLOAD(int, (float&&), const noexcept))",
        "inline int foo(float&& arg_i) const noexcept override { return " ++
        "foo_(::std::forward<::std::add_rvalue_reference_t<float&&>>(arg_i)); } ::mimicpp::Mock<int(float&&) const noexcept> foo_{}"),
      ("MIMICPP_MOCK_OVERLOADED_METHOD(foo, MIMICPP_ADD_OVERLOAD(void, ()), MIMICPP_ADD_OVERLOAD(int, (float&&), const noexcept))",
        "inline void foo() override { return foo_(); } inline int foo(float&& arg_i) const noexcept override { return " ++
        "foo_(::std::forward<::std::add_rvalue_reference_t<float&&>>(arg_i)); } " ++
        "::mimicpp::Mock<void(), int(float&&) const noexcept> foo_{}")],
    becomes row.1 row.2 = true := by decide +kernel

/-- 278-320: `MOCK_METHOD`. -/
example : ∀ row ∈ [("MIMICPP_MOCK_METHOD(foo, void, ())",
        "inline void foo() override { return foo_(); } ::mimicpp::Mock<void()> foo_{}"),
      ("MIMICPP_MOCK_METHOD(foo, int, (float&&), const noexcept)",
        "inline int foo(float&& arg_i) const noexcept override { return " ++
        "foo_(::std::forward<::std::add_rvalue_reference_t<float&&>>(arg_i)); } ::mimicpp::Mock<int(float&&) const noexcept> foo_{}")],
    becomes row.1 row.2 = true := by decide +kernel

end Mimic.Conform.Macros
