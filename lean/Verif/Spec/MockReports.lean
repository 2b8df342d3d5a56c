import Verif.Spec.Mock
import Verif.Spec.Reports
import Verif.Model.MockReports

/-!
# Specification vocabulary for reports about calls of mocks

What the reports about calls have to say about overloads, as a function of the history with mocks.
-/

set_option autoImplicit false

namespace Mimic

variable {τ β : Type}

/-- The objects an overload can be used on: `false` lvalues, `true` rvalues. -/
def Sig.objects (f : Sig τ) : List Bool :=
  match f.ref with
  | .none => [false, true]
  | .lvalue => [false]
  | .rvalue => [true]

/-- How reports call these objects. -/
def Sig.objectsText (f : Sig τ) : Text :=
  match f.ref with
  | .none => lit "any"
  | .lvalue => lit "lvalue"
  | .rvalue => lit "rvalue"

/-- How reports call the constness of an overload. -/
def Sig.constText (f : Sig τ) : Text := if f.isConst then lit "const" else lit "mutable"

/-- How reports describe the overload an expectation was created through. -/
def Sig.categoryLine (g : Sig τ) : Text := lit "expect: from " ++ g.objectsText ++ lit " category overload"

def Sig.constLine (g : Sig τ) : Text := lit "expect: from " ++ g.constText ++ lit " qualified overload"

/-- The descriptions of the given policies that say `b` about the call. -/
def linesOf (b : Bool) (a : CallInfo β) (ps : List (Policy (CallInfo β))) : List Text :=
  (ps.filter (fun p => p.accepts a == some b)).filterMap (fun p => p.description.map (·.toList))

/-- What is said about an expectation through overload `g` with respect to a call through overload `f`: whether there are objects
that both can be used on, and whether they are equally const. -/
def overloadLines (b : Bool) (f g : Sig τ) : List Text :=
  (if f.objects.any (· ∈ g.objects) = b then [g.categoryLine] else []) ++
    (if (f.isConst == g.isConst) = b then [g.constLine] else [])

/-- The text about expectation `e` with respect to the call `a` through overload `j`, which is `f`, of mock `k` with the given
signatures. -/
def MTrace.matchText (tr : MTrace τ β) (loc : Nat → Text) (k j : Nat) (sigs : List (Sig τ)) (f : Sig τ) (a : β) (e : Nat)
    (t : Text) : Prop :=
  ∃ (i : Nat) (g : Sig τ) (args extra : List (Policy (CallInfo β))) (state header : Text),
    tr.origin e = some (k, i) ∧ sigs[i]? = some g ∧ tr.asked e i args extra ∧ tr.plain.stateText e state ∧
    ((tr.candidate k j (f.info a) e ∧ header = lit "Matched expectation: {\n") ∨
     (tr.accepts k j (f.info a) e ∧ ¬ tr.plain.applicable e ∧
        header = lit "Inapplicable, but otherwise matched expectation: {\n" ++ lit "reason: " ++ state ++ lit "\n") ∨
     (¬ tr.accepts k j (f.info a) e ∧ header = lit "Unmatched expectation: {\n")) ∧
    t = header ++ lit "from: " ++ loc e ++ lit "\n" ++
      titled (lit "failed:\n") (linesOf false (f.info a) args ++ overloadLines false f g ++ linesOf false (f.info a) extra) ++
      titled (lit "passed:\n") (linesOf true (f.info a) args ++ overloadLines true f g ++ linesOf true (f.info a) extra) ++
      lit "}\n"

/-- The text about expectation `e` by itself. -/
def MTrace.expectationText (tr : MTrace τ β) (loc : Nat → Text) (e : Nat) (t : Text) : Prop :=
  ∃ (k i : Nat) (sigs : List (Sig τ)) (g : Sig τ) (args extra : List (Policy (CallInfo β))) (state : Text),
    tr.origin e = some (k, i) ∧ tr.sigs k = some sigs ∧ sigs[i]? = some g ∧ tr.asked e i args extra ∧ tr.plain.stateText e state ∧
    t = lit "Expectation report:\n" ++ lit "from: " ++ loc e ++ lit "\n" ++ lit "times: " ++ state ++ lit "\n" ++
      titled (lit "expects:\n") (args.filterMap (fun p => p.description.map (·.toList)) ++ [g.categoryLine, g.constLine] ++
        extra.filterMap (fun p => p.description.map (·.toList)))

end Mimic
