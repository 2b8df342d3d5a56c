import Verif.Model.Printer
import Verif.Model.Reach

/-!
# Printing of arguments as a part of calls

Models `/repo/include/mimic++/Printer.hpp` 235-448 for objects whose printing may throw or never end, `make_call_report`
(`/repo/include/mimic++/Reports.hpp` 241-262) and where it is called (`/repo/include/mimic++/Expectation.hpp` 27-46 and 300-352).

`Model/Printer.lean` prints values that are finite and whose printers return. Here an object is anything, together with what the
compiler knows about its type; what is inside of it are objects again. Printing counts the depth of recursion; running out of it
stands for a stack that never suffices if no depth does.
-/

set_option autoImplicit false

namespace Mimic.Shown

variable {V α : Type}

/-- What the `detail::Printer` of a type does (Printer.hpp 358-546). -/
inductive Own (V : Type) where
  /-- `std::source_location`, `std::nullopt_t`, pointers and strings: no other objects are inside -/
  | leaf (v : Val)
  /-- 388-406 -/
  | optional (o : Option V)
  /-- 408-448: everything with `std::tuple_size`, also `std::ranges::subrange` -/
  | tuple (vs : List V)

/-- What the compiler knows about the type of an object, together with the object's content. -/
structure Facts (V : Type) where
  /-- `custom::Printer`, and what it does: it prints a text, or throws -/
  custom : Option (Except Nat Text)
  /-- `detail::Printer` -/
  own : Option (Own V)
  /-- `std::ranges::forward_range`, and the elements -/
  elems : Option (List V)
  /-- formattable, and what `std::format` makes of it -/
  format : Option Text

/-- See `Traits`. -/
def Facts.traits (f : Facts V) : Traits :=
  { custom := f.custom.isSome, internal := f.own.isSome, range := f.elems.isSome, formattable := f.format.isSome }

/-- How printing can fail. -/
inductive Fail where
  /-- an exception of a `custom::Printer` comes out -/
  | thrown (x : Nat)
  | stop (x : Stop)
deriving DecidableEq, Repr

/-- `none`: the depth of recursion did not suffice. -/
abbrev Result (β : Type) := Option (Except Fail β)

/-- One after the other (Printer.hpp 341-352, 434-443). -/
def each (p : V → Result Text) : List V → Result (List Text)
  | [] => some (.ok [])
  | v :: vs =>
    match p v with
    | none => none
    | some (.error x) => some (.error x)
    | some (.ok t) =>
      match each p vs with
      | none => none
      | some (.error x) => some (.error x)
      | some (.ok ts) => some (.ok (t :: ts))

/-- The separators (Printer.hpp 349, 413-416). -/
def commas : List Text → Text
  | [] => []
  | [t] => t
  | t :: u :: ts => t ++ lit ", " ++ commas (u :: ts)

/-- The braces around several texts (Printer.hpp 336-338, 354-356, 432, 445). -/
def inBraces : Result (List Text) → Result Text
  | none => none
  | some (.error x) => some (.error x)
  | some (.ok ts) => some (.ok (lit "{ " ++ commas ts ++ lit " }"))

/-- Printer.hpp 395-405. -/
def asValue : Result Text → Result Text
  | none => none
  | some (.error x) => some (.error x)
  | some (.ok t) => some (.ok (lit "{ value: " ++ t ++ lit " }"))

/-- A printer without recursion. -/
def lift : M Text → Result Text
  | .ok t => some (.ok t)
  | .error x => some (.error (.stop x))

/-- `mimicpp::print` (Printer.hpp 299-356) with a limited depth of recursion. -/
def shown (F : V → Facts V) : Nat → V → Result Text
  | 0, _ => none
  | n + 1, v =>
    match resolve (F v).traits 4 with
    /- 235-248 -/
    | some .custom =>
      match (F v).custom with
      | some (.ok t) => some (.ok t)
      | some (.error x) => some (.error (.thrown x))
      | none => none
    /- 253-266 -/
    | some .internal =>
      match (F v).own with
      | some (.leaf x) => lift (print x)
      | some (.optional none) => some (.ok (lit "nullopt"))
      | some (.optional (some w)) => asValue (shown F n w)
      | some (.tuple vs) => inBraces (each (shown F n) vs)
      | none => none
    /- 331-356 -/
    | some .range => inBraces (each (shown F n) ((F v).elems.getD []))
    /- 275-285 -/
    | some .format => some (.ok ((F v).format.getD []))
    /- 287-297 -/
    | some .unknown => some (.ok (lit "{?}"))
    | none => none

/-- How a call ends. -/
inductive End (α : Type) where
  /-- as far as the expectations and reporters decide it -/
  | done (w : World α) (ev : List Event)
  /-- with an exception of a printer -/
  | threw (x : Nat) (w : World α)
  | stop (x : Stop)

/-- A call of a mock (Expectation.hpp 300-352) with the given arguments. If the policies of an expectation throw,
`make_match_report` (27-46) makes a report in its handler, and it is `noexcept`. Afterwards one of 335, 344 and 349 makes a
report, before anything is counted. -/
def call (F : V → Facts V) (n : Nat) (w : World α) (args : List V) (coll : Nat) (a : α) : Option (End α) :=
  match w.colls[coll]? with
  | none => some (.stop (.client "call on a non-existing mock"))
  | some es =>
    match scan w a es.reverse with
    | .error x => some (.stop x)
    | .ok r =>
      match each (shown F n) args with
      | none => none
      | some (.error (.stop x)) => some (.stop x)
      | some (.error (.thrown x)) =>
        if r.thrown.isEmpty then some (.threw x w)
        else some (.stop (.terminate "make_match_report is noexcept"))
      | some (.ok _) =>
        match w.step (.call coll a) with
        | .error x => some (.stop x)
        | .ok (w', ev) => some (.done w' ev)

end Mimic.Shown
