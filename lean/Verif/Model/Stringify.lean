import Verif.Model.Printer

/-!
# Custom printers

Models the choice of the printer for objects of types that may have a specialisation of `custom::Printer`, and for the objects
inside of them: `/repo/include/mimic++/Printer.hpp` 44-53, 223-356, 388-448, 472-546.

`Model/Printer.lean` models what is printed once the choice has been made (`Val`). Here the choice itself is made: `dress` turns
an object of a C++ type into such a `Val`.
-/

set_option autoImplicit false

namespace Mimic.Stringify

/-- How an object is passed to `print`: as a non-const lvalue, as something const, or as a temporary. -/
inductive Pass where
  | mutable
  | const
  | temporary
deriving DecidableEq, Repr

/-- The parameter of the `print` function of a custom printer. -/
inductive Takes where
  /-- by value, `const T&`, or a forwarding reference -/
  | anything
  /-- `T&` -/
  | reference
  /-- `T&&` -/
  | rvalue
deriving DecidableEq, Repr

/-- `printer_for<Printer, OutIter, T>` (44-53): `Printer::print(out, std::declval<T&&>())` must be well-formed, where `T` also
tells how the object is passed. -/
def Takes.accepts : Takes → Pass → Bool
  | .anything, _ => true
  | .reference, p => p == .mutable
  | .rvalue, p => p == .temporary

/-- Objects, with numbers for their types. -/
inductive Obj where
  /-- an object that is printed without printing other objects, and how that is done when there is no custom printer for it:
  numbers, classes, pointers, strings of `char`, source locations -/
  | leaf (type : Nat) (v : Val)
  /-- a string of other characters that knows its length, by the type of the characters, the literal's prefix and the values -/
  | str (type charType : Nat) (literal : Text) (cs : List Nat)
  /-- `std::optional` without value -/
  | empty (type : Nat)
  /-- `std::optional` with value -/
  | engaged (type : Nat) (o : Obj)
  /-- everything with `std::tuple_size`; for each element, whether it is a reference to something that is not const. A
  `std::ranges::subrange` is such a thing, too. -/
  | tuple (type : Nat) (refs : List Bool) (os : List Obj)
  /-- other types, which may be ranges: how the elements are passed and what they are, when the object is not const and when it
  is. `none`: it is not a `forward_range` then. Last, what `std::format` makes of the object, if it is formattable. -/
  | other (type : Nat) (loose : Option Pass) (ms : List Obj) (cst : Option Pass) (cs : List Obj) (format : Option Text)

/-- `std::remove_cvref_t<T>` -/
def Obj.type : Obj → Nat
  | .leaf t _ | .str t _ _ _ | .empty t | .engaged t _ | .tuple t _ _ | .other t _ _ _ _ _ => t

/-- A specialisation of `custom::Printer`. Simplification: it returns a text; printers that throw are not modelled. -/
structure Printer where
  takes : Takes
  text : Obj → Text
  /-- the text for a character, when the type is used as the character type of strings -/
  char : Nat → Text

/-- The specialisations of `custom::Printer` of a program. -/
abbrev Registry := Nat → Option Printer

/-- No specialisations. -/
def Registry.nothing : Registry := fun _ => none

/-- The type `std::nullopt_t`. -/
def nulloptType : Nat := 0

/-- The custom printer used for an object of type `type` that is passed as `p`, if there is one (235-241). -/
def Registry.find (reg : Registry) (p : Pass) (type : Nat) : Option Printer :=
  match reg type with
  | some c => if c.takes.accepts p then some c else none
  | none => none

/-- The call of `print(out, value, priority_tag<4>{})` (305-323), given what each of the overloads would print if it was viable. -/
def choose (custom : Option Text) (internal range : Option Val) (format : Option Val) : Val :=
  match resolve ⟨custom.isSome, internal.isSome, range.isSome, format.isSome⟩ 4 with
  | some .custom => .custom (custom.getD [])
  | some .internal => internal.getD .unknown
  | some .range => range.getD .unknown
  | some .format => format.getD .unknown
  | _ => .unknown

/-- Whether an atom is printed by `std::format` or not at all, or else by a `detail::Printer`. -/
def isFormat : Val → Bool
  | .int _ | .formatted _ => true
  | _ => false

def isInternal : Val → Bool
  | .int _ | .formatted _ | .unknown => false
  | _ => true

def ifSo (b : Bool) (v : Val) : Option Val := if b then some v else none

/-- The range overload is viable only if the object is a `forward_range` the way it is passed (262-267). A temporary is iterated
like an lvalue, since the parameter has a name (331-341). -/
def iterated (p : Pass) (loose cst : Option Pass) : Option Pass :=
  if p = .const then cst else loose

/-- The custom text for an object, if it is used. -/
def customText (reg : Registry) (p : Pass) (o : Obj) : Option Text :=
  (reg.find p o.type).map (·.text o)

mutual

/-- `mimicpp::print` for an object passed as `p`: which printer is chosen for it and the objects inside. -/
def dress (reg : Registry) : Pass → Obj → Val
  | p, .leaf type v => choose (customText reg p (.leaf type v)) (ifSo (isInternal v) v) none (ifSo (isFormat v) v)
  /- 489-543: the printer for the characters is looked up for a temporary, and then called with a const character. Simplification:
  a printer for the character type that takes `T&&` does not compile there; it is treated as if it was not used. -/
  | p, .str type charType literal cs =>
    choose (customText reg p (.str type charType literal cs))
      (some (match reg charType with
        | some c => if c.takes = .anything then .chars literal (cs.map c.char) else .wide literal cs
        | none => .wide literal cs)) none none
  /- 388-406: `std::nullopt` is printed with all ways of printing, too -/
  | p, .empty type =>
    choose (customText reg p (.empty type))
      (some (match reg.find .const nulloptType with
        | some c => .custom (c.text (.leaf nulloptType .nullopt))
        | none => .optional none)) none none
  /- 388-406: the optional is const, and so is its value -/
  | p, .engaged type o => choose (customText reg p (.engaged type o)) (some (.optional (some (dress reg .const o)))) none none
  /- 423-448: the tuple is const, and so are the elements, unless they are references -/
  | p, .tuple type refs os => choose (customText reg p (.tuple type refs os)) (some (.tuple (dressTuple reg refs os))) none none
  /- 331-356 -/
  | p, .other type loose ms cst cs format =>
    choose (customText reg p (.other type loose ms cst cs format)) none
      ((iterated p loose cst).map fun q => .range (if p = .const then dressRange reg q cs else dressRange reg q ms))
      (format.map .formatted)

/-- The elements of a tuple (408-421). -/
def dressTuple (reg : Registry) : List Bool → List Obj → List Val
  | _, [] => []
  | refs, o :: os => dress reg (if refs.headD false then .mutable else .const) o :: dressTuple reg refs.tail os

/-- The elements of a range (341-352). -/
def dressRange (reg : Registry) (q : Pass) : List Obj → List Val
  | [] => []
  | o :: os => dress reg q o :: dressRange reg q os

end

/-- `mimicpp::print` (305-333) with the custom printers of the program. -/
def stringify (reg : Registry) (p : Pass) (o : Obj) : M Text :=
  print (dress reg p o)

/-- An argument of a call, by its type and whether the parameter is const: it is printed as an lvalue (Reports.hpp 250-256). -/
def argVal (reg : Registry) (a : Text × Bool × Obj) : Text × Val :=
  (a.1, dress reg (if a.2.1 then .const else .mutable) a.2.2)

/-- `make_call_report` (Reports.hpp 241-262). -/
def stringifyArgs (reg : Registry) (args : List (Text × Bool × Obj)) : M (List (Text × Text)) :=
  makeArgs (args.map (argVal reg))

end Mimic.Stringify
