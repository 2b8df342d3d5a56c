import Verif.Model.Watched
import Verif.Spec.Watcher

/-!
# Specification vocabulary for watched objects
-/

set_option autoImplicit false

namespace Mimic

variable {α : Type}

/-- Everything that happened to the single watchers. -/
def CTrace.flat (tr : CTrace α) : WTrace α := tr.flatMap (fun st => st.2.inner)

/-- The watchers that came into being, in this order. -/
def CLog.objects (log : CLog α) : List (Nat × Watcher) :=
  log.inner.flatMap (fun st => st.2.filterMap (fun x => match x with | .object o k => some (o, k) | _ => none))

/-- The watchers of the watched object `c`, in the order of `Watchers...`. -/
def CTrace.parts (tr : CTrace α) (c : Nat) : Option (List (Nat × Watcher)) :=
  tr.findSome? (fun st => if st.2.made = some c then some st.2.objects else none)

/-- The watched object `c` was destroyed. -/
def CTrace.dropped (tr : CTrace α) (c : Nat) : Prop := ∃ log, (COp.drop c, log) ∈ tr

end Mimic
