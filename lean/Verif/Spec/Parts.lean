import Verif.Model.World

/-!
# Specification: tests that consist of independent parts

Several programs, each of which is written as if it was alone: its first mock is number 0, and so on. They are carried out together
on one instance of the library, in any order.
-/

set_option autoImplicit false

namespace Mimic.Parts

variable {α ι : Type}

/-- The objects a part has created so far, by the numbers the library knows them by. The number a part knows an object by is its
position here. -/
structure Names where
  seqs : List Nat
  exps : List Nat
  mocks : List Nat
deriving DecidableEq, Repr

/-- A part in the beginning. -/
def Names.nothing : Names := { seqs := [], exps := [], mocks := [] }

/-- The objects for some numbers; `none` if one does not exist. -/
def lookAll (l : List Nat) : List Nat → Option (List Nat)
  | [] => some []
  | k :: ks =>
    match l[k]?, lookAll l ks with
    | some K, some Ks => some (K :: Ks)
    | _, _ => none

/-- An operation of a part, as the library sees it; `none` if the part uses an object it never created. -/
def Names.op (N : Names) : Op α → Option (Op α)
  | .newSequence st => some (.newSequence st)
  | .dropSequence s => (N.seqs[s]?).map .dropSequence
  | .newMock => some .newMock
  | .expect m min max tags ps =>
    match N.mocks[m]?, lookAll N.seqs tags with
    | some M, some Ts => some (.expect M min max Ts ps)
    | _, _ => none
  | .call m a => (N.mocks[m]?).map fun M => .call M a
  | .destroy e => (N.exps[e]?).map .destroy

/-- The objects that are created belong to the part. -/
def Names.learn (N : Names) : Event → Names
  | .sequenceCreated s _ => { N with seqs := N.seqs ++ [s] }
  | .mockCreated c => { N with mocks := N.mocks ++ [c] }
  | .created e => { N with exps := N.exps ++ [e] }
  | _ => N

/-- What is observed, in the numbers of the part. -/
def Names.event (N : Names) : Event → Event
  | .sequenceCreated s st => .sequenceCreated (N.seqs.idxOf s) st
  | .sequenceDestroyed s => .sequenceDestroyed (N.seqs.idxOf s)
  | .sequenceError s k n => .sequenceError (N.seqs.idxOf s) k n
  | .mockCreated c => .mockCreated (N.mocks.idxOf c)
  | .created e => .created (N.exps.idxOf e)
  | .rejected => .rejected
  | .destroyed e => .destroyed (N.exps.idxOf e)
  | .unfulfilled e => .unfulfilled (N.exps.idxOf e)
  | .unhandled e => .unhandled (N.exps.idxOf e)
  | .fullMatch e => .fullMatch (N.exps.idxOf e)
  | .inapplicable es => .inapplicable (es.map (N.exps.idxOf ·))
  | .noMatch es => .noMatch (es.map (N.exps.idxOf ·))

/-- One instance of the library, used by several parts. -/
structure Joint (ι α : Type) where
  world : World α
  names : ι → Names

/-- Before the test starts. -/
def Joint.init : Joint ι α := { world := .init, names := fun _ => .nothing }

/-- Part `i` does something. -/
def Joint.step [DecidableEq ι] (j : Joint ι α) (i : ι) (op : Op α) : M (Joint ι α × List Event) :=
  match (j.names i).op op with
  | none => .error (.client "use of an object that was never created")
  | some op' => do
    let (w, ev) ← j.world.step op'
    let N := ev.foldl Names.learn (j.names i)
    return ({ world := w, names := fun k => if k = i then N else j.names k }, ev.map N.event)

/-- All parts together: the final state, and what was observed by which part. -/
def Joint.run [DecidableEq ι] (j : Joint ι α) : List (ι × Op α) → M (Joint ι α × List (ι × Event))
  | [] => .ok (j, [])
  | (i, op) :: ops => do
    let (j', ev) ← j.step i op
    let (j'', ev') ← j'.run ops
    return (j'', ev.map (fun e => (i, e)) ++ ev')

/-- The entries of part `i`: its operations, or what it observes. -/
def part {A : Type} [DecidableEq ι] (i : ι) (l : List (ι × A)) : List A :=
  l.filterMap fun x => if x.1 = i then some x.2 else none

end Mimic.Parts
