import Verif.Model.Stringify
import Verif.Model.PrintCall

/-!
# The objects of `Model/Stringify.lean` as objects of `Model/PrintCall.lean`
-/

set_option autoImplicit false

namespace Mimic.Stringify

/-- The elements of a tuple, and how they are passed. -/
def passed : List Bool → List Obj → List (Pass × Obj)
  | _, [] => []
  | refs, o :: os => ((if refs.headD false then .mutable else .const), o) :: passed refs.tail os

/-- What the compiler knows about an object that is passed in a certain way. -/
def facts (reg : Registry) : Pass × Obj → Shown.Facts (Pass × Obj)
  | (p, o) =>
    let custom := (customText reg p o).map .ok
    match o with
    | .leaf _ v =>
      { custom, own := (ifSo (isInternal v) v).map .leaf, elems := none,
        format := match v with
          | .int i => some (signed i)
          | .formatted t => some t
          | _ => none }
    | .str _ charType literal cs =>
      { custom, elems := none, format := none,
        own := some (.leaf (match reg charType with
          | some c => if c.takes = .anything then .chars literal (cs.map c.char) else .wide literal cs
          | none => .wide literal cs)) }
    | .empty _ =>
      { custom, elems := none, format := none,
        own := some (match reg.find .const nulloptType with
          | some c => .leaf (.custom (c.text (.leaf nulloptType .nullopt)))
          | none => .optional none) }
    | .engaged _ o => { custom, own := some (.optional (some (.const, o))), elems := none, format := none }
    | .tuple _ refs os => { custom, own := some (.tuple (passed refs os)), elems := none, format := none }
    | .other _ loose ms cst cs format =>
      { custom, own := none, format
        elems := (iterated p loose cst).map fun q => (if p = .const then cs else ms).map fun o => (q, o) }

end Mimic.Stringify
