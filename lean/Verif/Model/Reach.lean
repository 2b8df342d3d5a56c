import Verif.Model.World

/-!
# Histories

A history is the list of client operations performed so far, each with what was observed while it ran.
-/

set_option autoImplicit false

namespace Mimic

/-- Operations performed so far with their observations, oldest first. -/
abbrev Trace (α : Type) := List (Op α × List Event)

/-- `Reach tr w`: the library can produce the history `tr` and is then in state `w`. Every history a
client can produce on the code of `/repo/include/mimic++/Expectation.hpp` 200-357 and 567-645 (see
`World.step`) is of this form. -/
inductive Reach {α : Type} : Trace α → World α → Prop where
  | init : Reach [] World.init
  | step {tr : Trace α} {w w' : World α} {op : Op α} {ev : List Event} :
    Reach tr w → w.step op = .ok (w', ev) → Reach (tr ++ [(op, ev)]) w'

end Mimic
