import Verif.Props.Safety

/-!
# Specification: all rules together

For every operation of the client, what has to be observed, said only in terms of the history so far. The rules use the words of
`Verif/Spec/Trace.lean` and nothing else: no state of the library, no reference semantics.
-/

set_option autoImplicit false

namespace Mimic.Whole

variable {α : Type}

/-- Things are numbered in the order of their creation: `n` is the number the next one gets. -/
def NextNumber (used : Nat → Prop) (n : Nat) : Prop := ∀ k, used k ↔ k < n

/-- What is observed when sequence `s` ends. -/
inductive EndOf (tr : Trace α) (s : Nat) : List Event → Prop where
  /-- No attached expectation has resolved too few calls. -/
  | fine : (∀ e, tr.attached e s → ¬ tr.tooFew e) → EndOf tr s [.sequenceDestroyed s]
  /-- The attached expectation at position `k` is the first one that has resolved too few calls. -/
  | missing {es : List Nat} {k e : Nat} :
    OldestFirst (fun e => tr.attached e s) es → es[k]? = some e → tr.tooFew e →
    (∀ j e', j < k → es[j]? = some e' → ¬ tr.tooFew e') →
    EndOf tr s [.sequenceError s k es.length, .sequenceDestroyed s]

/-- What is observed when the given sequences lose an owner, one after the other: those which nobody keeps end. -/
inductive Ends (tr : Trace α) (kept : Nat → Prop) : List Nat → List Event → Prop where
  | nil : Ends tr kept [] []
  | keep {s : Nat} {ss : List Nat} {evs : List Event} : kept s → Ends tr kept ss evs → Ends tr kept (s :: ss) evs
  | gone {s : Nat} {ss : List Nat} {ev evs : List Event} :
    ¬ kept s → EndOf tr s ev → Ends tr kept ss evs → Ends tr kept (s :: ss) (ev ++ evs)

/-- How a call ends. -/
inductive Outcome (tr : Trace α) (m : Nat) (a : α) : Event → Prop where
  /-- There is a candidate: the chosen one resolves the call. -/
  | resolved {x e : Nat} {older : List Nat} :
    YoungestFirst (tr.candidate m a) (x :: older) → tr.Chosen x older e → Outcome tr m a (.fullMatch e)
  /-- Some expectations accept the call, but none of them is applicable. -/
  | inapplicable {x : Nat} {es : List Nat} :
    (∀ e, ¬ tr.candidate m a e) → YoungestFirst (tr.accepts m a) (x :: es) → Outcome tr m a (.inapplicable (x :: es))
  /-- No expectation accepts the call. -/
  | noMatch {es : List Nat} :
    (∀ e, ¬ tr.accepts m a e) →
    YoungestFirst (fun e => (tr.live e ∧ ∃ d, tr.decl e = some d ∧ d.mock = m) ∧ ¬ tr.throws m a e) es →
    Outcome tr m a (.noMatch es)

/-- Some policy of expectation `e` says at the end that it has not been satisfied. -/
def dissatisfied (tr : Trace α) (e : Nat) : Prop := ∃ d, tr.decl e = some d ∧ ∃ p ∈ d.policies, p.isSatisfied = false

/-- After the history `tr`, the operation `op` has to make the observations `ev`. -/
inductive Prescribed (tr : Trace α) : Op α → List Event → Prop where
  | newSequence {st : Strategy} {n : Nat} :
    NextNumber (fun s => ∃ st, tr.kind s st) n → Prescribed tr (.newSequence st) [.sequenceCreated n st]
  | newMock {n : Nat} :
    NextNumber (fun m => Event.mockCreated m ∈ tr.events) n → Prescribed tr .newMock [.mockCreated n]
  | created {m : Nat} {min max : Int} {ss : List Nat} {ps : List (Policy α)} {n : Nat} :
    0 ≤ min → min ≤ max → ss.Nodup → NextNumber (fun e => ∃ d, tr.decl e = some d) n →
    Prescribed tr (.expect m min max ss ps) [.created n]
  | rejected {m : Nat} {min max : Int} {ss : List Nat} {ps : List (Policy α)} :
    ¬ (0 ≤ min ∧ min ≤ max ∧ ss.Nodup) → Prescribed tr (.expect m min max ss ps) [.rejected]
  | call {m : Nat} {a : α} {us : List Nat} {last : Event} :
    YoungestFirst (tr.throws m a) us → Outcome tr m a last →
    Prescribed tr (.call m a) (us.map Event.unhandled ++ [last])
  | drop {s : Nat} {evs : List Event} :
    Ends tr (fun s => ∃ e, tr.live e ∧ tr.attached e s) [s] evs → Prescribed tr (.dropSequence s) evs
  | fulfilled {e : Nat} {d : Decl α} {evs : List Event} :
    tr.decl e = some d → ¬ (tr.tooFew e ∨ dissatisfied tr e) →
    Ends tr (fun s => tr.handle s ∨ ∃ e', e' ≠ e ∧ tr.live e' ∧ tr.attached e' s) d.seqs evs →
    Prescribed tr (.destroy e) (.destroyed e :: evs)
  | unfulfilled {e : Nat} {d : Decl α} {evs : List Event} :
    tr.decl e = some d → tr.tooFew e ∨ dissatisfied tr e →
    Ends tr (fun s => tr.handle s ∨ ∃ e', e' ≠ e ∧ tr.live e' ∧ tr.attached e' s) d.seqs evs →
    Prescribed tr (.destroy e) (.destroyed e :: .unfulfilled e :: evs)

/-- A history that keeps all rules: every operation was allowed after what had happened before, and made exactly the prescribed
observations. -/
def Lawful (tr : Trace α) : Prop :=
  ∀ pre op ev post, tr = pre ++ (op, ev) :: post → pre.valid op ∧ ¬ pre.overflows op ∧ Prescribed pre op ev

/-- The histories of any library with states `σ`: `step q op` says what is observed, `none` if the client must not do that. -/
inductive Runs {σ : Type} (step : σ → Op α → Option (σ × List Event)) (start : σ) : Trace α → σ → Prop where
  | init : Runs step start [] start
  | step {tr : Trace α} {q q' : σ} {op : Op α} {ev : List Event} :
    Runs step start tr q → step q op = some (q', ev) → Runs step start (tr ++ [(op, ev)]) q'

end Mimic.Whole
