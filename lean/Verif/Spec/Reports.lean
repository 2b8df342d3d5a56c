import Verif.Spec.Trace
import Verif.Spec.Printer

/-!
# Specification vocabulary for the texts of reports

What the reports have to say, as a function of the history.
-/

set_option autoImplicit false

namespace Mimic

variable {α : Type}

/-- The elements of two lists of the same length are related one by one. -/
def Each {β γ : Type} (R : β → γ → Prop) : List β → List γ → Prop
  | [], [] => True
  | x :: xs, y :: ys => R x y ∧ Each R xs ys
  | _, _ => False

/-- How often. -/
def howOften (n : Nat) : Text :=
  match n with
  | 0 => lit "never"
  | 1 => lit "once"
  | 2 => lit "twice"
  | n => decimal n ++ lit " times"

/-- What a text about an expectation with `n` matches and the limits `min` and `max` says. -/
def timesText (n min max : Nat) : Text :=
  if n = max then lit "already saturated (matched " ++ howOften n ++ lit ")"
  else if n < min then
    lit "matched " ++ howOften n ++ lit " - " ++
      (if min = max then lit "exactly " ++ howOften max
       else lit "between " ++ decimal min ++ lit " and " ++ decimal max ++ lit " times") ++ lit " is expected"
  else lit "accepts further matches (matched " ++ decimal n ++ lit " out of " ++ decimal max ++ lit " times)"

/-- The text about the state of expectation `e`. `out` are the sequences in which it is not its turn. -/
def Trace.stateText (tr : Trace α) (e : Nat) (t : Text) : Prop :=
  ∃ (d : Decl α) (out : List Nat), tr.decl e = some d ∧ 0 ≤ d.min ∧ d.min ≤ d.max ∧ d.seqs.Nodup ∧
    out.Nodup ∧ (∀ s, s ∈ out ↔ s ∈ d.seqs ∧ ¬ tr.turn e s) ∧
    t = timesText (tr.matched e) d.min.toNat d.max.toNat ++
      (if (tr.matched e : Int) = d.max then
        (if d.seqs = [] then [] else lit ",\n\tand is part of " ++ decimal d.seqs.length ++ lit " sequence(s).")
       else if out = [] then
        (if d.seqs = [] then []
         else lit ",\n\tand is the current element of " ++ decimal d.seqs.length ++ lit " sequence(s).")
       else lit ",\n\tbut is not the current element of " ++ decimal out.length ++ lit " sequence(s) (" ++
        decimal d.seqs.length ++ lit " total).")

/-- A list of descriptions with a title; nothing if there are none. -/
def titled (title : Text) (ds : List Text) : Text :=
  if ds = [] then [] else title ++ ds.flatMap (fun d => lit "\t" ++ d ++ lit ",\n")

/-- The descriptions of the policies that accept the call. -/
def Decl.passed (d : Decl α) (a : α) : List Text :=
  (d.policies.filter (fun p => p.accepts a == some true)).filterMap (fun p => p.description.map (·.toList))

/-- The descriptions of the policies that do not accept the call. -/
def Decl.failed (d : Decl α) (a : α) : List Text :=
  (d.policies.filter (fun p => p.accepts a == some false)).filterMap (fun p => p.description.map (·.toList))

/-- The text about expectation `e` of mock `m` with respect to the call `a`. -/
def Trace.matchText (tr : Trace α) (loc : Nat → Text) (m : Nat) (a : α) (e : Nat) (t : Text) : Prop :=
  ∃ (d : Decl α) (state header : Text), tr.decl e = some d ∧ tr.stateText e state ∧
    ((tr.candidate m a e ∧ header = lit "Matched expectation: {\n") ∨
     (tr.accepts m a e ∧ ¬ tr.applicable e ∧
        header = lit "Inapplicable, but otherwise matched expectation: {\n" ++ lit "reason: " ++ state ++ lit "\n") ∨
     (¬ tr.accepts m a e ∧ header = lit "Unmatched expectation: {\n")) ∧
    t = header ++ lit "from: " ++ loc e ++ lit "\n" ++ titled (lit "failed:\n") (d.failed a) ++
      titled (lit "passed:\n") (d.passed a) ++ lit "}\n"

/-- The text about expectation `e` by itself. -/
def Trace.expectationText (tr : Trace α) (loc : Nat → Text) (e : Nat) (t : Text) : Prop :=
  ∃ (d : Decl α) (state : Text), tr.decl e = some d ∧ tr.stateText e state ∧
    t = lit "Expectation report:\n" ++ lit "from: " ++ loc e ++ lit "\n" ++ lit "times: " ++ state ++ lit "\n" ++
      titled (lit "expects:\n") (d.policies.filterMap (fun p => p.description.map (·.toList)))

/-- The text about a call with the given source location and so on, and the types and printed values of its arguments. -/
def callText (loc constness category returnType : Text) (args : List (Text × Text)) : Text :=
  lit "call from " ++ loc ++ lit "\nconstness: " ++ constness ++ lit "\nvalue category: " ++ category ++
    lit "\nreturn type: " ++ returnType ++ lit "\n" ++
    (if args = [] then []
     else lit "args:\n" ++ args.zipIdx.flatMap (fun p =>
       lit "\targ[" ++ decimal p.2 ++ lit "]: {\n\t\ttype: " ++ p.1.1 ++ lit ",\n\t\tvalue: " ++ p.1.2 ++ lit "\n\t},\n"))

/-- The text `t` tells what is observed, if `matching e` are the texts about expectation `e` with respect to the call, `alone e`
the texts about `e` by itself, `call` the text about the call, and `what e` the message of the exception that came out of `e`. -/
def Tells (matching alone : Nat → Text → Prop) (what : Nat → Option Text) (call : Text) : Event → Text → Prop
  | .fullMatch e, t => ∃ b, matching e b ∧ t = lit "Found match for " ++ call ++ lit "\n" ++ b ++ lit "\n"
  | .inapplicable es, t => ∃ bs, Each matching es bs ∧
      t = lit "No applicable match for " ++ call ++ lit "\nTested expectations:\n" ++ bs.flatMap (· ++ lit "\n")
  | .noMatch es, t => ∃ bs, Each matching es bs ∧
      t = lit "No match for " ++ call ++ lit "\n" ++
        (if es = [] then lit "No expectations available.\n"
         else decimal es.length ++ lit " available expectation(s):\n" ++ bs.flatMap (· ++ lit "\n"))
  | .unhandled e, t => ∃ b, alone e b ∧
      t = lit "Unhandled exception: " ++
        (match what e with
         | some message => lit "what: " ++ message ++ lit "\n"
         | none => lit "Unknown exception type.\n") ++
        lit "while checking expectation:\n" ++ b ++ lit "\nFor " ++ call ++ lit "\n"
  | _, _ => False

/-- The text tells what is observed, if the call `a` of mock `m` is described by `call` and the exceptions by `what`. -/
abbrev Trace.tells (tr : Trace α) (loc : Nat → Text) (what : Nat → Option Text) (call : Text) (m : Nat) (a : α) : Event → Text → Prop :=
  Tells (tr.matchText loc m a) (tr.expectationText loc) what call

end Mimic
