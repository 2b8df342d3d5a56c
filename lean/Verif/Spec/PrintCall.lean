import Verif.Model.PrintCall
import Verif.Spec.Printer
import Verif.Spec.Trace

/-!
# Specification vocabulary for printed arguments
-/

set_option autoImplicit false

namespace Mimic.Shown

variable {V : Type}

/-- Printing `v` prints `w`, too: `v` is an optional, a tuple or a range, in this order, and has no printer of the client. -/
inductive Inside (F : V → Facts V) (w v : V) : Prop where
  | optional : (F v).custom = none → (F v).own = some (.optional (some w)) → Inside F w v
  | tuple {vs : List V} : (F v).custom = none → (F v).own = some (.tuple vs) → w ∈ vs → Inside F w v
  | range {vs : List V} : (F v).custom = none → (F v).own = none → (F v).elems = some vs → w ∈ vs → Inside F w v

/-- There is no infinite nesting in `v`. -/
def Finite (F : V → Facts V) (v : V) : Prop := Acc (Inside F) v

/-- Printing `v` reaches a printer of the client that throws. -/
inductive HasThrowing (F : V → Facts V) : V → Prop where
  | here {v : V} {x : Nat} : (F v).custom = some (.error x) → HasThrowing F v
  | inside {v w : V} : Inside F w v → HasThrowing F w → HasThrowing F v

/-- Printing `v` reaches characters that cannot be read. -/
inductive HasBad (F : V → Facts V) : V → Prop where
  | here {v : V} {x : Val} : (F v).custom = none → (F v).own = some (.leaf x) → x.badString → HasBad F v
  | inside {v w : V} : Inside F w v → HasBad F w → HasBad F v

/-- `std::filesystem::path`, given by its components. It is a range of paths, none of which has more than one component
(`[fs.path.itr]`): the component `""` after a trailing slash is the empty path, which has none. It has no printer of its own. In
C++26 it is formattable. -/
def pathFacts (format : List Text → Option Text) : List Text → Facts (List Text) := fun p =>
  { custom := none, own := none, elems := some (p.map fun c => if c.isEmpty then [] else [c]), format := format p }

/-- Objects for which `Model/Printer.lean` is made. -/
def valFacts : Val → Facts Val
  | .custom t => { custom := some (.ok t), own := none, elems := none, format := none }
  | .optional o => { custom := none, own := some (.optional o), elems := none, format := none }
  | .tuple vs => { custom := none, own := some (.tuple vs), elems := none, format := none }
  | .range vs => { custom := none, own := none, elems := some vs, format := none }
  | .int i => { custom := none, own := none, elems := none, format := some (signed i) }
  | .formatted t => { custom := none, own := none, elems := none, format := some t }
  | .unknown => { custom := none, own := none, elems := none, format := none }
  | v => { custom := none, own := some (.leaf v), elems := none, format := none }

end Mimic.Shown
