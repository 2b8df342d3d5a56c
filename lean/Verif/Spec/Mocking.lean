import Verif.Spec.Mock
import Verif.Spec.Overload
import Verif.Spec.Whole

/-!
# Specification: all rules for mocks with overloads together

For every operation of a client that uses mocks with overloads, and moves them: what the client may do and what it observes, said only in
terms of the history so far. The rules use the words of `Verif/Spec/Mock.lean` and the rules for the library itself
(`Verif/Spec/Whole.lean`).
-/

set_option autoImplicit false

namespace Mimic.Mocking

variable {τ β : Type}

/-- The types of the mock variables: a new variable has the type it is declared with, or that of the variable it is moved from. -/
def typesStep (ts : List (List (Sig τ))) : MOp τ β → List (List (Sig τ))
  | .newMock sigs => ts ++ [sigs]
  | .moveMock m => ts ++ [ts[m]?.getD []]
  | _ => ts

/-- The signatures of variable `m`. -/
def HasType (tr : MTrace τ β) (m : Nat) (sigs : List (Sig τ)) : Prop :=
  (tr.foldl (fun ts st => typesStep ts st.1) [])[m]? = some sigs

/-- `n` is the number of different combinations of return type and parameters. -/
def Groups (sigs : List (Sig τ)) (n : Nat) : Prop :=
  ∃ ks : List (τ × List τ), ks.Nodup ∧ (∀ k, k ∈ ks ↔ ∃ f ∈ sigs, k = (f.ret, f.params)) ∧ ks.length = n

/-- Variable `m` holds mock `k`, whose overload `j` is `f`; `sigs` are all its overloads. -/
def Uses (tr : MTrace τ β) (m j k : Nat) (sigs : List (Sig τ)) (f : Sig τ) : Prop :=
  tr.holds m k ∧ tr.sigs k = some sigs ∧ sigs[j]? = some f

/-- `e` is alive and was created through an overload of mock `k` that has the same return type and parameters as `f`. -/
def Looked (tr : MTrace τ β) (k : Nat) (sigs : List (Sig τ)) (f : Sig τ) (e : Nat) : Prop :=
  tr.plain.live e ∧ ∃ i g, tr.origin e = some (k, i) ∧ sigs[i]? = some g ∧ g.ret = f.ret ∧ g.params = f.params

/-- One of the things its creator asked for throws. -/
def Fails (tr : MTrace τ β) (a : CallInfo β) (e : Nat) : Prop :=
  ∃ d, tr.plain.decl e = some d ∧ ∃ p ∈ d.policies, p.accepts a = none

/-- How a call through overload `j` of mock `k` ends. -/
inductive Outcome (tr : MTrace τ β) (k j : Nat) (sigs : List (Sig τ)) (f : Sig τ) (a : CallInfo β) : Event → Prop where
  /-- There is a candidate of this overload: the chosen one resolves the call. -/
  | resolved {x e : Nat} {older : List Nat} :
    YoungestFirst (tr.candidate k j a) (x :: older) → tr.plain.Chosen x older e → Outcome tr k j sigs f a (.fullMatch e)
  /-- Some expectations of this overload accept the call, but none of them is applicable. -/
  | inapplicable {x : Nat} {es : List Nat} :
    (∀ e, ¬ tr.candidate k j a e) → YoungestFirst (tr.accepts k j a) (x :: es) → Outcome tr k j sigs f a (.inapplicable (x :: es))
  /-- No expectation of this overload accepts the call; the report tells about all that were looked at. -/
  | noMatch {es : List Nat} :
    (∀ e, ¬ tr.accepts k j a e) → YoungestFirst (fun e => Looked tr k sigs f e ∧ ¬ Fails tr a e) es →
    Outcome tr k j sigs f a (.noMatch es)

/-- After the history `tr`, the operation `op` has to make the observations `ev`. -/
inductive Prescribed (tr : MTrace τ β) : MOp τ β → List Event → Prop where
  | newSequence {st : Strategy} {ev : List Event} :
    Whole.Prescribed tr.plain (.newSequence st) ev → Prescribed tr (.newSequence st) ev
  | dropSequence {s : Nat} {ev : List Event} :
    Whole.Prescribed tr.plain (.dropSequence s) ev → Prescribed tr (.dropSequence s) ev
  | destroy {e : Nat} {ev : List Event} : Whole.Prescribed tr.plain (.destroy e) ev → Prescribed tr (.destroy e) ev
  /-- A storage for each combination of return type and parameters. -/
  | newMock {sigs : List (Sig τ)} {n c : Nat} :
    Whole.NextNumber (fun m => Event.mockCreated m ∈ tr.plain.events) n → Groups sigs c →
    Prescribed tr (.newMock sigs) ((List.range' n c).map Event.mockCreated)
  | moveMock {m : Nat} : Prescribed tr (.moveMock m) []
  | assignMock {dst src : Nat} : Prescribed tr (.assignMock dst src) []
  | dropMock {m : Nat} : Prescribed tr (.dropMock m) []
  | expect {m j : Nat} {min max : Int} {tags : List Nat} {args extra : List (Policy (CallInfo β))} {ev : List Event} :
    Whole.Prescribed tr.plain (.expect 0 min max tags (args ++ extra)) ev → Prescribed tr (.expect m j min max tags args extra) ev
  | call {m j k : Nat} {a : β} {sigs : List (Sig τ)} {f : Sig τ} {us : List Nat} {last : Event} :
    Uses tr m j k sigs f → YoungestFirst (fun e => Looked tr k sigs f e ∧ Fails tr (f.info a) e) us →
    Outcome tr k j sigs f (f.info a) last → Prescribed tr (.call m j a) (us.map Event.unhandled ++ [last])

/-- The client may do this. -/
def Allowed (tr : MTrace τ β) : MOp τ β → Prop
  | .newSequence _ => True
  | .dropSequence s => tr.plain.handle s
  | .destroy e => tr.plain.live e
  | .newMock sigs => sigs ≠ [] ∧ (∀ f ∈ sigs, f.variadic = false) ∧ sigs.Pairwise Overloadable
  | .moveMock m => tr.living m
  | .assignMock dst src => tr.living dst ∧ tr.living src ∧ ∃ sigs, HasType tr dst sigs ∧ HasType tr src sigs
  | .dropMock m => tr.living m
  | .expect m j min max tags _ _ => (∃ k sigs f, Uses tr m j k sigs f) ∧ (∀ s ∈ tags, tr.plain.handle s) ∧
      (-2147483648 ≤ min ∧ min ≤ 2147483647) ∧ (-2147483648 ≤ max ∧ max ≤ 2147483647)
  | .call m j _ => ∃ k sigs f, Uses tr m j k sigs f

/-- The program is terminated: an expectation is attached to a sequence that is full (C18). -/
def Terminates (tr : MTrace τ β) (op : MOp τ β) : Prop := Allowed tr op ∧ tr.plain.overflows op.plain

/-- There is undefined behaviour: an overload of a variable that was moved from is called or asked for an expectation. -/
def Undefined (tr : MTrace τ β) (op : MOp τ β) : Prop :=
  ∃ m j sigs, tr.living m ∧ (∀ k, ¬ tr.holds m k) ∧ HasType tr m sigs ∧ j < sigs.length ∧
    ((∃ a, op = .call m j a) ∨ ∃ min max tags args extra, op = .expect m j min max tags args extra)

/-- A history that keeps all rules. -/
def Lawful (tr : MTrace τ β) : Prop :=
  ∀ (pre : MTrace τ β) op ev post, tr = pre ++ (op, ev) :: post → Allowed pre op ∧ ¬ Terminates pre op ∧ Prescribed pre op ev

/-- The histories of any library with states `σ`: `step q op` says what is observed, `none` if the history cannot go on like that. -/
inductive Runs {σ : Type} (step : σ → MOp τ β → Option (σ × List Event)) (start : σ) : MTrace τ β → σ → Prop where
  | init : Runs step start [] start
  | step {tr : MTrace τ β} {q q' : σ} {op : MOp τ β} {ev : List Event} :
    Runs step start tr q → step q op = some (q', ev) → Runs step start (tr ++ [(op, ev)]) q'

end Mimic.Mocking
