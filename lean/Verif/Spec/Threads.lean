import Verif.Model.Threads
import Verif.Spec.Parts

/-!
# Specification: threads with mocks, sequences and expectations of their own, and threads that share a lock
-/

set_option autoImplicit false

namespace Mimic.Threads

open Parts (Names lookAll part)

variable {α ι : Type}

/-! ## Threads that share nothing -/

/-- A step of a thread that is written as if the thread was alone (its first mock is number 0, and so on), as the library sees it; `none`
if the thread uses an object it never created. -/
def act (N : Names) : Act α → Option (Act α)
  | .newSequence st => some (.newSequence st)
  | .dropSequence s => (N.seqs[s]?).map .dropSequence
  | .newMock => some .newMock
  | .attach m min max tags ps =>
    match N.mocks[m]?, lookAll N.seqs tags with
    | some M, some Ts => some (.attach M min max Ts ps)
    | _, _ => none
  | .push => some .push
  | .scan m a => (N.mocks[m]?).map fun M => .scan M a
  | .report => some .report
  | .consume => some .consume
  | .remove e => (N.exps[e]?).map .remove
  | .release => some .release
  | .query e => (N.exps[e]?).map .query

/-- What a thread sees of a step: reports, exceptions, the creation and end of objects, and the answer of a query. -/
def Log.seen (l : Log) : List Event × Option Bool := (l.ev, l.answer)

/-- Several threads, each with its own objects, on one instance of the library. -/
structure Joint (ι α : Type) where
  state : State ι α
  names : ι → Names

/-- Before the threads start. -/
def Joint.init : Joint ι α := { state := .init, names := fun _ => .nothing }

/-- An entry of the record of a joint run: what the thread saw, in its own numbers, and what really happened. -/
structure Entry where
  seen : List Event × Option Bool
  log : Log
deriving DecidableEq, Repr

/-- Thread `i` makes a step. -/
def Joint.step [DecidableEq ι] (j : Joint ι α) (i : ι) (a : Act α) : M (Joint ι α × Entry) :=
  match act (j.names i) a with
  | none => .error (.client "use of an object that was never created")
  | some a' => do
    let (s, log) ← j.state.step i a'
    let N := log.ev.foldl Names.learn (j.names i)
    return ({ state := s, names := fun k => if k = i then N else j.names k }, ⟨(log.ev.map N.event, log.answer), log⟩)

/-- The threads make steps in the given order. -/
def Joint.run [DecidableEq ι] (j : Joint ι α) : List (ι × Act α) → M (Joint ι α × List (ι × Entry))
  | [] => .ok (j, [])
  | (i, a) :: as => do
    let (j', x) ← j.step i a
    let (j'', xs) ← j'.run as
    return (j'', (i, x) :: xs)

/-- Two steps access the same memory, and one of them writes. -/
def Conflict (x y : Log) : Prop :=
  ∃ l, (l ∈ x.writes ∧ (l ∈ y.reads ∨ l ∈ y.writes)) ∨ (l ∈ x.reads ∧ l ∈ y.writes)

/-- Two worlds hold the same in a place of memory. A sequence object is shared through `std::shared_ptr`s, one of which belongs to the
client; that one is not part of the sequence object. -/
def Same (w v : World α) : Loc → Prop
  | .storage c => w.colls[c]? = v.colls[c]?
  | .exp e => w.exps[e]? = v.exps[e]?
  | .seq s => (w.seqs[s]?).map (fun c => (c.seq, c.alive)) = (v.seqs[s]?).map (fun c => (c.seq, c.alive))

/-- How many `std::shared_ptr`s to a sequence exist. -/
def refs (w : World α) (s : Nat) : Nat :=
  (if w.hasHandle s then 1 else 0) + w.exps.countP (fun x => x.alive && x.holds s)

/-- Two worlds in which the same objects have been created, the same sequence objects belong to the client, and the (atomic) reference
counts are the same. -/
structure Alike (w v : World α) : Prop where
  seqs : w.seqs.length = v.seqs.length
  exps : w.exps.length = v.exps.length
  colls : w.colls.length = v.colls.length
  handles : ∀ s, w.hasHandle s = v.hasHandle s
  refs : ∀ s, refs w s = Threads.refs v s

/-- A data race: two steps of different threads follow each other immediately, so that nothing orders them, they conflict, and they do
not hold a mutex in common. -/
def Race (log : List (ι × Log)) : Prop :=
  ∃ (n : Nat) (i k : ι) (x y : Log), log[n]? = some (i, x) ∧ log[n + 1]? = some (k, y) ∧ i ≠ k ∧ Conflict x y ∧
    (x.mutex = none ∨ x.mutex ≠ y.mutex)

/-! ## Operations in one piece -/

/-- The operation that begins with a step, if the step begins one. -/
def begins : Act α → Option (Op α)
  | .newSequence st => some (.newSequence st)
  | .dropSequence s => some (.dropSequence s)
  | .newMock => some .newMock
  | .attach c min max tags ps => some (.expect c min max tags ps)
  | .scan c a => some (.call c a)
  | .remove e => some (.destroy e)
  | _ => none

/-- No thread makes a step while another thread is in the middle of an operation, e.g. because every thread holds one and the same mutex
during each operation. -/
def Undisturbed [DecidableEq ι] (s : State ι α) : List (ι × Act α) → Prop
  | [] => True
  | (i, a) :: as =>
    (∀ k, k ≠ i → s.phase k = .idle) ∧ ∀ s' log, s.step i a = .ok (s', log) → Undisturbed s' as

end Mimic.Threads
