import Verif.Model.Builder

/-!
# Creating expectations from things whose constructors may throw

Models what `/repo/include/mimic++/ExpectationBuilder.hpp` 37-52 (the constructor of the builder), 60-152 (`operator &&`),
154-185 (`finalize`) and 245-287 (`expect_call`'s arguments) and `/repo/include/mimic++/Expectation.hpp` 434-452 (the
constructor of the expectation) do if a move or copy constructor of a policy or finalizer throws. These are types of the
client, or contain objects of the client (matchers, predicates, actions).

Every policy and finalizer carries the number of constructions that still succeed.
-/

set_option autoImplicit false

namespace Mimic.Fragile

/-- How many further constructions (by move or copy) of an object from this one succeed; `none`: all of them. -/
abbrev Good := Option Nat

/-- Constructing an object from another one; the result is the new object's number. `none`: the constructor throws. -/
def construct : Good → Option Good
  | none => some none
  | some 0 => none
  | some (n + 1) => some (some n)

/-- Constructing a tuple from a tuple, element by element. -/
def constructAll : List Good → Option (List Good)
  | [] => some []
  | g :: gs =>
    match construct g, constructAll gs with
    | some g', some gs' => some (g' :: gs')
    | _, _ => none

/-- ExpectationBuilder.hpp 187-192: a builder together with the numbers of the objects in `m_ExpectationPolicies` and
`m_FinalizePolicy` (`InitFinalize` is an empty class and never fails). -/
structure FBuilder (α φ : Type) where
  b : Builder α φ
  policies : List Good
  finalizer : Good

/-- ExpectationBuilder.hpp 275-282: the builder `make_expectation_builder` starts with. -/
def FBuilder.start {α φ : Type} (coll : Nat) (returnsVoid : Bool) : FBuilder α φ :=
  { b := .start coll returnsVoid [], policies := [], finalizer := none }

/-- The finalizer object the new builder's `m_FinalizePolicy` is constructed from: ExpectationBuilder.hpp 77 for a
finalizer, 102, 126, 150 otherwise. -/
def finalizerSource {α φ : Type} (x : FBuilder α φ) : Item α φ → Good → Good
  | .finalizer _, g => g
  | _, _ => x.finalizer

/-- The objects the new builder's `m_ExpectationPolicies` are constructed from: ExpectationBuilder.hpp 103-110 for a policy,
78, 127, 151 otherwise. -/
def policySources {α φ : Type} (x : FBuilder α φ) : Item α φ → Good → List Good
  | .policy _, g => x.policies ++ [g]
  | _, _ => x.policies

/-- ExpectationBuilder.hpp 60-152: `operator &&`. All four overloads construct a new builder from the members of the old
one; its constructor (37-52) is `noexcept`, whatever the types. `none` stands for `std::invalid_argument`, which is thrown
before that (by the evaluation of the item, or by `concat`). -/
def FBuilder.and {α φ : Type} (x : FBuilder α φ) (item : Item α φ) (g : Good) : M (Option (FBuilder α φ)) :=
  match x.b.and item with
  | none => .ok none
  | some b' =>
    match construct (finalizerSource x item g), constructAll (policySources x item g) with
    | some f, some ps => .ok (some { b := b', policies := ps, finalizer := f })
    | _, _ => .error (.terminate "the constructor of BasicExpectationBuilder is noexcept")

/-- Evaluation of `b && i₁ && i₂ && ...`. -/
def FBuilder.eval {α φ : Type} (x : FBuilder α φ) : List (Item α φ × Good) → M (Option (FBuilder α φ))
  | [] => .ok (some x)
  | (i, g) :: is => do
    match ← x.and i g with
    | none => return none
    | some x' => x'.eval is

/-- The construction of the `BasicExpectation` object from the builder's members (ExpectationBuilder.hpp 178-183,
Expectation.hpp 434-452); its constructor is `noexcept` only if no construction can throw. -/
def FBuilder.constructs {α φ : Type} (x : FBuilder α φ) : Bool :=
  (construct x.finalizer).isSome && (constructAll x.policies).isSome

/-- What the evaluation of `ScopedExpectation e = mock.expect_call(...) && ...` ends with. -/
inductive Out where
  /-- without an exception of the client's objects; these are the observations -/
  | done (ev : List Event)
  /-- an exception of one of the client's objects comes out; `e` is the number the model gives to this attempt -/
  | threw (e : Nat)
deriving DecidableEq, Repr

/-- ExpectationBuilder.hpp 160-185, if the construction of the expectation throws: the control policy has been constructed
before (169-172) and has attached itself to the sequences; it is destroyed during stack unwinding, and nothing detaches.
(The sequences survive, because the client's sequence objects exist.) The storage is not touched. In the model's table of
expectations the attempt takes a number like any other one, but never lives. -/
def finalizeThrows {α : Type} (w : World α) (coll : Nat) (t : TimesConfig) (tags : List Nat)
    (policies : List (Policy α)) : M (World α × Out) := do
  let (h, c) ← Control.make t tags w.seqs
  return ({ w with seqs := h, exps := w.exps ++ [{ coll := coll, control := c, policies := policies, alive := false }] },
    .threw w.exps.length)

/-- The sequence objects mentioned in an item exist, the limits are `int`s. -/
def usable {α φ : Type} (w : World α) : Item α φ → Bool
  | .times min max => isInt min && isInt max
  | .sequences ss => ss.all w.hasHandle
  | _ => true

/-- `ScopedExpectation e = mock.expect_call(args...) && items...`; the policies made from the arguments are the first items
(ExpectationBuilder.hpp 245-258). -/
def create {α φ : Type} (w : World α) (coll : Nat) (returnsVoid : Bool) (items : List (Item α φ × Good)) :
    M (World α × Out) :=
  if decide (coll < w.colls.length) && items.all (fun i => usable w i.1) && typeChecks false false (items.map (·.1)) then do
    match ← (FBuilder.start coll returnsVoid).eval items with
    | none => return (w, .done [.rejected])
    | some x =>
      if x.b.returnsVoid || x.b.finalizer.isSome then
        if x.constructs then do
          let (w', ev) ← w.expect x.b.coll x.b.times.min x.b.times.max x.b.seqs x.b.policies
          return (w', .done ev)
        else finalizeThrows w x.b.coll x.b.times x.b.seqs x.b.policies
      else .error (.client "ill-formed: finalize policy missing")
  else .error (.client "ill-formed, or something that does not exist")

/-- What a client can do. -/
inductive FOp (α φ : Type) where
  | op (o : Op α)
  | create (coll : Nat) (returnsVoid : Bool) (items : List (Item α φ × Good))

/-- One client operation. -/
def step {α φ : Type} (w : World α) : FOp α φ → M (World α × Out)
  | .op o => do
    let (w', ev) ← w.step o
    return (w', .done ev)
  | .create coll rv items => create w coll rv items

/-- Operations performed so far and how they ended, oldest first. -/
abbrev FTrace (α φ : Type) := List (FOp α φ × Out)

/-- Histories in which creations may fail (the code is that of ExpectationBuilder.hpp 154-185, see `create`). -/
inductive FReach {α φ : Type} : FTrace α φ → World α → Prop where
  | init : FReach [] World.init
  | step {tr : FTrace α φ} {w w' : World α} {op : FOp α φ} {out : Out} :
    FReach tr w → Fragile.step w op = .ok (w', out) → FReach (tr ++ [(op, out)]) w'

end Mimic.Fragile
