import Verif.Spec.Build
import Verif.Spec.Whole

/-!
# Specification: all rules for builders together

What a client may do with builders, and what it observes, said only in terms of the history so far. Every operation of such a client stands
for some operations of a client that writes down each expectation at once (often none at all); what is observed is what the rules for those
(`Verif/Spec/Whole.lean`) prescribe. So a history `btr` with builders comes along with the history `tr` without builders that it stands for.
-/

set_option autoImplicit false

namespace Mimic.Builders

variable {α φ : Type}

/-- What has been said about a builder object. -/
structure Note (α φ : Type) where
  /-- the mock, whether its function returns nothing, and what the arguments are compared with -/
  mock : Nat
  returnsVoid : Bool
  args : List (Policy α)
  /-- everything that was added with `&&`, in this order -/
  items : List (Item α φ)
  /-- it has not been moved from -/
  usable : Bool
  /-- the sequences it keeps alive -/
  keeps : List Nat
  /-- the object has not ended -/
  there : Bool

/-- What a builder of which `n` is known still keeps alive after an item was added to it: it is moved from, except that the list of its
sequences is copied when more sequences are added. -/
def Note.after (n : Note α φ) (item : Item α φ) : Note α φ :=
  { n with usable := false, keeps := match item with | .sequences _ => n.keeps | _ => [] }

/-- The builder that is the result of adding the item. -/
def Note.with (n : Note α φ) (item : Item α φ) : Note α φ :=
  { n with items := n.items ++ [item], keeps := sequencesOf (n.items ++ [item]) }

/-- Builder objects are numbered in the order of their creation; adding an item makes a new one, unless it throws, and so does a move. -/
def noteStep (ns : List (Note α φ)) : BOp α φ × List Event → List (Note α φ)
  | (.beginExpect m rv args, _) => ns ++ [⟨m, rv, args, [], true, [], true⟩]
  | (.extend b item, []) => match ns[b]? with
    | some n => ns.set b (n.after item) ++ [n.with item]
    | none => ns
  | (.finalize b, _) => ns.modify b (fun n => { n with usable := false })
  | (.dropBuilder b, _) => ns.modify b (fun n => { n with there := false })
  | (.moveBuilder b, _) => match ns[b]? with
    | some n => ns.set b { n with usable := false, keeps := [] } ++ [n]
    | none => ns
  | _ => ns

/-- What has been said about all builder objects. -/
def notes (btr : BTrace α φ) : List (Note α φ) := btr.foldl noteStep []

/-- The object for sequence `s` exists. -/
def Object (btr : BTrace α φ) (tr : Trace α) (s : Nat) : Prop := (∃ st, tr.kind s st) ∧ ∀ ev, (BOp.dropObject s, ev) ∉ btr

/-- Sequence `s` is kept alive by its object or by a builder. -/
def Held (btr : BTrace α φ) (tr : Trace α) (s : Nat) : Prop := Object btr tr s ∨ ∃ n ∈ notes btr, n.there = true ∧ s ∈ n.keeps

/-- Of the sequences `ss` those are left over, in this order, which nobody holds. -/
inductive Freed (held : Nat → Prop) : List Nat → List Nat → Prop where
  | nil : Freed held [] []
  | keep {s : Nat} {ss l : List Nat} : held s → Freed held ss l → Freed held (s :: ss) l
  | gone {s : Nat} {ss l : List Nat} : ¬ held s → Freed held ss l → Freed held (s :: ss) (s :: l)

/-- The limits that were mentioned; once if there are none. -/
def limits (is : List (Item α φ)) : Int × Int := (timesOf is).head?.getD (1, 1)

/-- The operations without builders an operation stands for. -/
inductive Means (btr : BTrace α φ) (tr : Trace α) : BOp α φ → List (Op α) → Prop where
  | newSequence {st : Strategy} : Means btr tr (.newSequence st) [.newSequence st]
  | newMock : Means btr tr .newMock [.newMock]
  | call {m : Nat} {a : α} : Means btr tr (.call m a) [.call m a]
  | destroy {e : Nat} : Means btr tr (.destroy e) [.destroy e]
  /-- As long as there are only builders, nothing happens. -/
  | beginExpect {m : Nat} {rv : Bool} {args : List (Policy α)} : Means btr tr (.beginExpect m rv args) []
  | extend {b : Nat} {item : Item α φ} : Means btr tr (.extend b item) []
  | moveBuilder {b : Nat} : Means btr tr (.moveBuilder b) []
  /-- The expectation has everything that was said, in the order it was written. -/
  | finalize {b : Nat} {n : Note α φ} : (notes btr)[b]? = some n →
    Means btr tr (.finalize b)
      [.expect n.mock (limits n.items).1 (limits n.items).2 (sequencesOf n.items) (n.args ++ policiesOf n.items)]
  /-- The client gives up those sequences which none of its objects and builders holds any more. -/
  | dropObject {s : Nat} {l : List Nat} : Freed (Held (btr ++ [(.dropObject s, [])]) tr) [s] l →
    Means btr tr (.dropObject s) (l.map Op.dropSequence)
  | dropBuilder {b : Nat} {n : Note α φ} {l : List Nat} : (notes btr)[b]? = some n →
    Freed (Held (btr ++ [(.dropBuilder b, [])]) tr) n.keeps l → Means btr tr (.dropBuilder b) (l.map Op.dropSequence)

/-- The item compiles after those already there, and mentions only what exists. -/
def Fits (btr : BTrace α φ) (tr : Trace α) (n : Note α φ) : Item α φ → Prop
  | .policy _ => True
  | .finalizer _ => finalizersOf n.items = []
  | .times min max => timesOf n.items = [] ∧ (-2147483648 ≤ min ∧ min ≤ 2147483647) ∧ (-2147483648 ≤ max ∧ max ≤ 2147483647)
  | .sequences ss => ∀ s ∈ ss, Object btr tr s

/-- The client may do this. -/
def Allowed (btr : BTrace α φ) (tr : Trace α) : BOp α φ → Prop
  | .newSequence _ => True
  | .newMock => True
  | .call m _ => Event.mockCreated m ∈ tr.events
  | .destroy e => tr.live e
  | .dropObject s => Object btr tr s
  | .beginExpect m _ _ => Event.mockCreated m ∈ tr.events
  | .extend b item => ∃ n, (notes btr)[b]? = some n ∧ n.there = true ∧ n.usable = true ∧ Fits btr tr n item
  | .finalize b => ∃ n, (notes btr)[b]? = some n ∧ n.there = true ∧ n.usable = true ∧
      (n.returnsVoid = true ∨ finalizersOf n.items ≠ [])
  | .dropBuilder b => ∃ n, (notes btr)[b]? = some n ∧ n.there = true
  | .moveBuilder b => ∃ n, (notes btr)[b]? = some n ∧ n.there = true

/-- `std::invalid_argument` is thrown: the limits make no sense, or a sequence is mentioned twice. -/
def Refused (btr : BTrace α φ) (op : BOp α φ) : Prop :=
  ∃ b n item, op = .extend b item ∧ (notes btr)[b]? = some n ∧
    ((∃ min max, item = .times min max ∧ ¬ (0 ≤ min ∧ min ≤ max)) ∨ ∃ ss, item = .sequences ss ∧ ¬ (sequencesOf n.items ++ ss).Nodup)

/-- The program is terminated: an expectation is attached to a sequence that is full (C18). -/
def Terminates (btr : BTrace α φ) (tr : Trace α) (op : BOp α φ) : Prop :=
  Allowed btr tr op ∧ ∃ ops, Means btr tr op ops ∧ ∃ o ∈ ops, tr.overflows o

/-- After the history `btr`, which stands for `tr`, the operation makes the observations `ev`; it stands for `l`. -/
inductive Prescribed (btr : BTrace α φ) (tr : Trace α) (op : BOp α φ) : List Event → Trace α → Prop where
  | refused : Refused btr op → Prescribed btr tr op [.rejected] []
  | done {l : Trace α} : ¬ Refused btr op → Means btr tr op (l.map (·.1)) → Whole.Lawful (tr ++ l) → Prescribed btr tr op l.events l

/-- A history with builders that keeps all rules, and the history without builders it stands for. -/
inductive Lawful : BTrace α φ → Trace α → Prop where
  | nil : Lawful [] []
  | step {btr : BTrace α φ} {tr l : Trace α} {op : BOp α φ} {ev : List Event} :
    Lawful btr tr → Allowed btr tr op → Prescribed btr tr op ev l → Lawful (btr ++ [(op, ev)]) (tr ++ l)

/-- The histories of any library with states `σ`: `step q op` says what is observed, `none` if the history cannot go on like that. -/
inductive Runs {σ : Type} (step : σ → BOp α φ → Option (σ × List Event)) (start : σ) : BTrace α φ → σ → Prop where
  | init : Runs step start [] start
  | step {tr : BTrace α φ} {q q' : σ} {op : BOp α φ} {ev : List Event} :
    Runs step start tr q → step q op = some (q', ev) → Runs step start (tr ++ [(op, ev)]) q'

end Mimic.Builders
