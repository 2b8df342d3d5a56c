import Verif.Model.Stringify
import Verif.Spec.Printer

/-!
# What users expect of custom printers
-/

set_option autoImplicit false

namespace Mimic.Stringify

mutual

/-- The documented text of an object: a custom printer for its type is preferred over everything else, also for the objects inside
of others. It does not matter how the object is passed. -/
inductive Shows (reg : Registry) : Obj → Text → Prop
  | custom {o : Obj} {c : Printer} : reg o.type = some c → Shows reg o (c.text o)
  | leaf {type : Nat} {v : Val} {t : Text} : reg type = none → print v = .ok t → Shows reg (.leaf type v) t
  | chars {type ct : Nat} {l : Text} {cs : List Nat} {c : Printer} : reg type = none → reg ct = some c →
      Shows reg (.str type ct l cs) (l ++ lit "\"" ++ (cs.map c.char).flatten ++ lit "\"")
  | dump {type ct : Nat} {l : Text} {cs : List Nat} : reg type = none → reg ct = none →
      Shows reg (.str type ct l cs) (l ++ lit "\"" ++ dump cs ++ lit "\"")
  | empty {type : Nat} {t : Text} : reg type = none → Shows reg (.leaf nulloptType .nullopt) t → Shows reg (.empty type) t
  | engaged {type : Nat} {o : Obj} {t : Text} : reg type = none → Shows reg o t →
      Shows reg (.engaged type o) (lit "{ value: " ++ t ++ lit " }")
  | tuple {type : Nat} {refs : List Bool} {os : List Obj} {ts : List Text} : reg type = none → ShowsAll reg os ts →
      Shows reg (.tuple type refs os) (braced ts)
  | range {type : Nat} {q q' : Pass} {os : List Obj} {f : Option Text} {ts : List Text} : reg type = none → ShowsAll reg os ts →
      Shows reg (.other type (some q) os (some q') os f) (braced ts)
  | format {type : Nat} {ms cs : List Obj} {t : Text} : reg type = none → Shows reg (.other type none ms none cs (some t)) t
  | unknown {type : Nat} {ms cs : List Obj} : reg type = none → Shows reg (.other type none ms none cs none) (lit "{?}")

inductive ShowsAll (reg : Registry) : List Obj → List Text → Prop
  | nil : ShowsAll reg [] []
  | cons {o : Obj} {os : List Obj} {t : Text} {ts : List Text} : Shows reg o t → ShowsAll reg os ts →
      ShowsAll reg (o :: os) (t :: ts)

end

/-- C++'s rules for binding a parameter: a value, a `const T&` or a forwarding reference takes everything, a `T&` only lvalues that
are not const, a `T&&` only temporaries. -/
inductive Binds : Takes → Pass → Prop
  | anything {p : Pass} : Binds .anything p
  | reference : Binds .reference .mutable
  | rvalue : Binds .rvalue .temporary

/-- The custom printers without the one for `type`. -/
def Registry.without (reg : Registry) (type : Nat) : Registry := fun t => if t = type then none else reg t

/-- All custom printers take their objects by value or as `const T&`, like the ones in the documentation. -/
def Registry.accepting (reg : Registry) : Prop := ∀ type c, reg type = some c → c.takes = .anything

mutual

/-- Whether the object and the objects inside have the same elements, no matter whether they are const: not so for views that
compute while they are iterated, such as `std::views::filter`, and for `std::vector<bool>`. -/
def Obj.steady : Obj → Prop
  | .leaf _ _ => True
  | .str _ _ _ _ | .empty _ => True
  | .engaged _ o => o.steady
  | .tuple _ _ os => steadyAll os
  | .other _ loose ms cst cs _ => loose.isSome = cst.isSome ∧ (loose.isSome = true → ms = cs) ∧ steadyAll ms ∧ steadyAll cs

def steadyAll : List Obj → Prop
  | [] => True
  | o :: os => o.steady ∧ steadyAll os

end

mutual

/-- The types of an object, of the objects inside, and of everything else that is printed for it. -/
def Obj.types : Obj → List Nat
  | .leaf t _ => [t]
  | .str t ct _ _ => [t, ct]
  | .empty t => [t, nulloptType]
  | .engaged t o => t :: o.types
  | .tuple t _ os => t :: typesAll os
  | .other t _ ms _ cs _ => t :: (typesAll ms ++ typesAll cs)

def typesAll : List Obj → List Nat
  | [] => []
  | o :: os => o.types ++ typesAll os

end

/-- The types of the objects inside, and of everything else that is printed for an object. -/
def Obj.inner : Obj → List Nat
  | .leaf _ _ => []
  | .str _ ct _ _ => [ct]
  | .empty _ => [nulloptType]
  | .engaged _ o => o.types
  | .tuple _ _ os => typesAll os
  | .other _ _ ms _ cs _ => typesAll ms ++ typesAll cs

end Mimic.Stringify
