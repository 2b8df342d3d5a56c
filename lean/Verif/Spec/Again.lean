import Verif.Spec.Parts
import Verif.Spec.Trace

/-!
# Specification: mocks that are used again

A part of a test that begins when other things have happened. It uses some mocks that exist already, which it knows as mock 0, 1, ...,
and otherwise only what it creates itself.
-/

set_option autoImplicit false

namespace Mimic.Again

open Mimic.Parts

variable {α : Type}

/-- The part goes on, with the names `N`, in the world `w`: the world in the end, and what was observed, in the numbers of the part. -/
def goOn (N : Names) (w : World α) : List (Op α) → M (World α × List Event)
  | [] => .ok (w, [])
  | op :: ops =>
    match N.op op with
    | none => .error (.client "use of an object that was never created")
    | some op' =>
      match w.step op' with
      | .error x => .error x
      | .ok (w', ev) =>
        let N' := ev.foldl Names.learn N
        match goOn N' w' ops with
        | .error x => .error x
        | .ok (w'', ev') => .ok (w'', ev.map N'.event ++ ev')

/-- The part begins: it knows these mocks. -/
def beginWith (ms : List Nat) (w : World α) (ops : List (Op α)) : M (World α × List Event) := goOn ⟨[], [], ms⟩ w ops

/-- The same part as a test of its own, with new mocks. -/
def alone (k : Nat) (ops : List (Op α)) : List (Op α) := List.replicate k .newMock ++ ops

/-- What is observed when the new mocks are created. -/
def creations (k : Nat) : List Event := (List.range k).map .mockCreated

/-- All expectations of a mock have ended. -/
def Bare (tr : Trace α) (m : Nat) : Prop :=
  Event.mockCreated m ∈ tr.events ∧ ∀ e d, tr.decl e = some d → d.mock = m → Event.destroyed e ∈ tr.events

/-- Several such parts are carried out one after the other, with the same mocks: what each of them observed. -/
def sections (ms : List Nat) : List (List (Op α)) → World α → M (List (List Event))
  | [], _ => .ok []
  | ops :: rest, w =>
    match beginWith ms w ops with
    | .error x => .error x
    | .ok (w', log) =>
      match sections ms rest w' with
      | .error x => .error x
      | .ok logs => .ok (log :: logs)

/-- Everything that was declared has ended. -/
def Tidy (log : List Event) : Prop := ∀ e, Event.created e ∈ log → Event.destroyed e ∈ log

end Mimic.Again
