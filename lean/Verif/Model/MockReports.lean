import Verif.Model.Mock
import Verif.Model.Reports

/-!
# Texts of reports about calls of mocks

Models `/repo/include/mimic++/Mock.hpp` 29-45 (what a front-end puts into `call::Info`) together with `make_call_report`
(`/repo/include/mimic++/Reports.hpp` 241-262) and the printing of `ValueCategory` and `Constness` (`Printer.hpp` 166-218).
-/

set_option autoImplicit false

namespace Mimic

variable {τ β : Type}

/-- Where a call is made and with what: the source location, the name of the return type, and per argument the name of its type and
its value. -/
structure CallSite where
  loc : Text
  returnType : Text
  args : List (Text × Val)

/-- The texts that a call through overload `i` of variable `m` hands to the reporter. -/
def MWorld.callTexts (mw : MWorld τ β) (loc : Nat → Text) (what : Nat → Option Text) (site : CallSite) (m i : Nat) (a : β) :
    M (List Text) :=
  match mw.frontend m i with
  | none => .error (.client "no such mock or overload")
  | some (none, _, _) => .error (.ub "call of a moved-from mock")
  | some (some c, cat, con) =>
    mw.w.callTexts loc what
      { loc := site.loc, constness := lit con.word, category := lit cat.word, returnType := site.returnType, args := site.args }
      c ⟨a, cat, con⟩

end Mimic
