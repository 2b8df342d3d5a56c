import Verif.Model.Reach
import Verif.Model.Times

/-!
# The expectation builder

Models `/repo/include/mimic++/ExpectationBuilder.hpp` 18-193 and 264-287, and
`/repo/include/mimic++/Sequence.hpp` 285-357 and 437-486.

`φ` is the type of finalize policies (`finally::returns(...)`, `finally::throws(...)`, ...); they play no
role for matching.
-/

set_option autoImplicit false

namespace Mimic

/-- ExpectationBuilder.hpp 18-24 and 187-192: `BasicExpectationBuilder`. The template parameters
`timesConfigured` and `FinalizePolicy` are carried as data; `finalizer = none` stands for
`InitFinalize`. `returnsVoid` is a property of the signature. -/
structure Builder (α φ : Type) where
  coll : Nat
  returnsVoid : Bool
  timesConfigured : Bool
  times : TimesConfig
  seqs : List Nat
  finalizer : Option φ
  policies : List (Policy α)

/-- What `operator &&` accepts. The arguments are evaluated before the operator is called. -/
inductive Item (α φ : Type) where
  /-- `expect::arg<...>(...)`, `then::...` and all other expectation policies -/
  | policy (p : Policy α)
  /-- `finally::...` -/
  | finalizer (f : φ)
  /-- `expect::times(min, max)`; the other factories are special cases (ControlPolicy.hpp 306-382) -/
  | times (min max : Int)
  /-- `expect::in_sequence(s)` or `expect::in_sequences(s, t, ...)` -/
  | sequences (ss : List Nat)

/-- ExpectationBuilder.hpp 264-287: `make_expectation_builder`; `args` are the policies made from the arguments of
`expect_call` (245-258, added from left to right). -/
def Builder.start {α φ : Type} (coll : Nat) (returnsVoid : Bool) (args : List (Policy α)) : Builder α φ :=
  { coll, returnsVoid, timesConfigured := false, times := {}, seqs := [], finalizer := none,
    policies := args }

/-- The constraints of the overloads of `operator &&`: at most one finalizer (ExpectationBuilder.hpp 60-62),
at most one times policy (112-114). -/
def Builder.accepts {α φ : Type} (b : Builder α φ) : Item α φ → Bool
  | .policy _ => true
  | .finalizer _ => b.finalizer.isNone
  | .times _ _ => !b.timesConfigured
  | .sequences _ => true

/-- ExpectationBuilder.hpp 60-152: `operator &&`, for accepted items. `none` stands for the thrown
`std::invalid_argument`: by `TimesConfig`'s constructor, by the `Config` constructor while evaluating
`in_sequences(...)`, or by `Config::concat`. -/
def Builder.and {α φ : Type} (b : Builder α φ) : Item α φ → Option (Builder α φ)
  | .policy p => some { b with policies := b.policies ++ [p] }
  | .finalizer f => some { b with finalizer := some f }
  | .times min max =>
    match TimesConfig.make min max with
    | none => none
    | some t => some { b with timesConfigured := true, times := t }
  | .sequences ss =>
    match seqConfig ss with
    | none => none
    | some c =>
      match seqConfigConcat b.seqs c with
      | none => none
      | some l => some { b with seqs := l }

/-- The type of the builder after an item, as far as the constraints need it (the template parameters
`timesConfigured` and `FinalizePolicy`, ExpectationBuilder.hpp 66-71, 118-123). -/
def typeChecks {α φ : Type} : Bool → Bool → List (Item α φ) → Bool
  | _, _, [] => true
  | t, f, .policy _ :: is => typeChecks t f is
  | t, f, .finalizer _ :: is => !f && typeChecks t true is
  | t, f, .times _ _ :: is => !t && typeChecks true f is
  | t, f, .sequences _ :: is => typeChecks t f is

/-- Result of a whole builder expression. -/
inductive Built (α φ : Type) where
  /-- does not compile -/
  | illFormed
  /-- `std::invalid_argument` -/
  | threw
  | ok (b : Builder α φ)

/-- Evaluation of `b && i₁ && i₂ && ...`. -/
def Builder.eval {α φ : Type} (b : Builder α φ) : List (Item α φ) → Option (Builder α φ)
  | [] => some b
  | i :: is =>
    match b.and i with
    | none => none
    | some b' => b'.eval is

/-- A whole builder expression: first it must compile, then it is evaluated. -/
def Builder.build {α φ : Type} (b : Builder α φ) (is : List (Item α φ)) : Built α φ :=
  if typeChecks b.timesConfigured b.finalizer.isSome is then
    match b.eval is with
    | none => .threw
    | some b' => .ok b'
  else .illFormed

/-! ### Builders as objects of the client

A builder is an ordinary movable object; the client may keep it, extend it later or throw it away.
It shares ownership of the sequences it was given. -/

/-- A builder object. `builder = none`: moved from. `refs`: the sequences whose `std::shared_ptr` the object
holds in `m_SequenceConfig`. -/
structure BCell (α φ : Type) where
  builder : Option (Builder α φ)
  refs : List Nat
  alive : Bool

/-- The world with sequence objects (`LazySequence`, `GreedySequence`) and builder objects. In the underlying `World`
the flag `handle` of a sequence means that the client holds a `std::shared_ptr` to it, in whatever object. -/
structure BWorld (α φ : Type) where
  w : World α
  objs : List Bool
  builders : List (BCell α φ)

def BWorld.init {α φ : Type} : BWorld α φ := { w := World.init, objs := [], builders := [] }

/-- Client operations with explicit builders. -/
inductive BOp (α φ : Type) where
  | newSequence (strategy : Strategy)
  /-- End of life of a `LazySequence` / `GreedySequence` object. -/
  | dropObject (s : Nat)
  | newMock
  /-- `auto builder = mock.expect_call(...)` -/
  | beginExpect (coll : Nat) (returnsVoid : Bool) (args : List (Policy α))
  /-- `auto builder2 = std::move(builder) && item` -/
  | extend (b : Nat) (item : Item α φ)
  /-- `ScopedExpectation e = std::move(builder)` -/
  | finalize (b : Nat)
  /-- End of life of a builder object. -/
  | dropBuilder (b : Nat)
  /-- `auto builder2 = std::move(builder)`, the defaulted move constructor (ExpectationBuilder.hpp 56-57) -/
  | moveBuilder (b : Nat)
  | call (coll : Nat) (a : α)
  | destroy (e : Nat)

/-- The `LazySequence` / `GreedySequence` object `s` exists. -/
def BWorld.object {α φ : Type} (bw : BWorld α φ) (s : Nat) : Bool :=
  bw.objs[s]? == some true

/-- Some object of the client holds a `std::shared_ptr` to sequence `s`: the sequence object (Sequence.hpp 254-283)
or a builder. -/
def BWorld.clientRef {α φ : Type} (bw : BWorld α φ) (s : Nat) : Bool :=
  bw.object s || bw.builders.any (fun c => c.alive && c.refs.contains s)

/-- Release of the client's `std::shared_ptr`s to the given sequences (the objects holding them are already gone). -/
def BWorld.releaseRefs {α φ : Type} (bw : BWorld α φ) : List Nat → M (BWorld α φ × List Event)
  | [] => .ok (bw, [])
  | s :: ss => do
    if bw.clientRef s then bw.releaseRefs ss
    else
      let (w', ev) ← bw.w.step (.dropSequence s)
      let (bw', ev') ← BWorld.releaseRefs { bw with w := w' } ss
      return (bw', ev ++ ev')

/-- Sequences and limits mentioned in an item are usable: the sequence objects exist, the limits are `int`s. -/
def BWorld.usable {α φ : Type} (bw : BWorld α φ) : Item α φ → Bool
  | .times min max => isInt min && isInt max
  | .sequences ss => ss.all bw.object
  | _ => true

/-- What is left in `m_SequenceConfig` of the builder `operator &&` was applied to: adding sequences copies
(`Config::concat` is `const`, ExpectationBuilder.hpp 136), all other overloads move. -/
def Item.leftOver {α φ : Type} (x : Builder α φ) : Item α φ → List Nat
  | .sequences _ => x.seqs
  | _ => []

/-- Lifts an operation that does not involve builders. -/
def BWorld.plain {α φ : Type} (bw : BWorld α φ) (op : Op α) : M (BWorld α φ × List Event) := do
  let (w', ev) ← bw.w.step op
  return ({ bw with w := w' }, ev)

/-- One client operation. In `finalize` (ExpectationBuilder.hpp 154-185) the control policy copies the sequence
configuration (ControlPolicy.hpp 170-178 takes it by reference to const), so the builder keeps its references. In `moveBuilder` all members
are moved; this may also be done with a builder that was moved from before. -/
def BWorld.step {α φ : Type} (bw : BWorld α φ) : BOp α φ → M (BWorld α φ × List Event)
  | .newSequence st => do
    let (w', ev) ← bw.w.step (.newSequence st)
    return ({ bw with w := w', objs := bw.objs ++ [true] }, ev)
  | .dropObject s =>
    if bw.object s then BWorld.releaseRefs { bw with objs := bw.objs.set s false } [s]
    else .error (.client "destruction of a dead sequence object")
  | .newMock => bw.plain .newMock
  | .call coll a => bw.plain (.call coll a)
  | .destroy e => bw.plain (.destroy e)
  | .beginExpect coll rv args =>
    if coll < bw.w.colls.length then
      .ok ({ bw with builders := bw.builders ++ [⟨some (.start coll rv args), [], true⟩] }, [])
    else .error (.client "expect_call on a non-existing mock")
  | .extend b item =>
    match bw.builders[b]? with
    | some ⟨some x, _, true⟩ =>
      if x.accepts item && bw.usable item then
        match x.and item with
        | none => .ok (bw, [.rejected])
        | some x' =>
          .ok ({ bw with builders := bw.builders.set b ⟨none, item.leftOver x, true⟩ ++ [⟨some x', x'.seqs, true⟩] }, [])
      else .error (.client "ill-formed, or an item that refers to a dead object")
    | _ => .error (.client "use of a moved-from or dead builder")
  | .finalize b =>
    match bw.builders[b]? with
    | some ⟨some x, refs, true⟩ =>
      if x.returnsVoid || x.finalizer.isSome then do
        let (w', ev) ← bw.w.step (.expect x.coll x.times.min x.times.max x.seqs x.policies)
        return ({ bw with w := w', builders := bw.builders.set b ⟨none, refs, true⟩ }, ev)
      else .error (.client "ill-formed: finalize policy missing")
    | _ => .error (.client "use of a moved-from or dead builder")
  | .dropBuilder b =>
    match bw.builders[b]? with
    | some ⟨x, refs, true⟩ =>
      BWorld.releaseRefs { bw with builders := bw.builders.set b ⟨x, refs, false⟩ } refs
    | _ => .error (.client "destruction of a dead builder")
  | .moveBuilder b =>
    match bw.builders[b]? with
    | some ⟨x, refs, true⟩ => .ok ({ bw with builders := bw.builders.set b ⟨none, [], true⟩ ++ [⟨x, refs, true⟩] }, [])
    | _ => .error (.client "move of a dead builder")

/-- Operations performed so far with their observations, oldest first. -/
abbrev BTrace (α φ : Type) := List (BOp α φ × List Event)

/-- Histories of clients with builders. -/
inductive BReach {α φ : Type} : BTrace α φ → BWorld α φ → Prop where
  | init : BReach [] BWorld.init
  | step {tr : BTrace α φ} {bw bw' : BWorld α φ} {op : BOp α φ} {ev : List Event} :
    BReach tr bw → bw.step op = .ok (bw', ev) → BReach (tr ++ [(op, ev)]) bw'

end Mimic
