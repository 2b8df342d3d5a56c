import Verif.Spec.Watchful
import Verif.Spec.Scoped

/-!
# Specification: all rules for scoped expectations and reporters together

For every operation of a client that holds its expectations by `ScopedExpectation`s, with any reporter and with any number of
exceptions on their way: what the client observes, said only in terms of the history so far. The rules use the words of
`Verif/Spec/Scoped.lean` and the rules for the library itself (`Verif/Spec/Whole.lean`).
-/

set_option autoImplicit false

namespace Mimic.Scoping

open Watchful (Next)

variable {α : Type}

/-- The installed reporter answers this report with an exception. -/
def Throws (c : Ctx) (r : Report) : Prop := (c.reporter r c.uncaught).throws = true

/-- The same while one more exception is on its way. -/
def ThrowsMeanwhile (c : Ctx) (r : Report) : Prop := (c.reporter r (c.uncaught + 1)).throws = true

/-- The exception `x` reaches the client: a call that is not resolved; an unfulfilled expectation, if the reporter throws; invalid
arguments. -/
inductive Leaves (c : Ctx) (ev : List Event) : Exn → Prop where
  | noMatch {es : List Nat} : Event.noMatch es ∈ ev → Leaves c ev .unmatched
  | inapplicable {es : List Nat} : Event.inapplicable es ∈ ev → Leaves c ev .unmatched
  | unfulfilled {e : Nat} : Event.unfulfilled e ∈ ev → Throws c .unfulfilledExpectation → Leaves c ev (.unfulfilled e)
  | rejected : Event.rejected ∈ ev → Leaves c ev .invalidArgument

/-- The program is terminated: the reporter throws where nothing may be thrown. -/
inductive Kills (c : Ctx) (ev : List Event) : Prop where
  | fullMatch {e : Nat} : Event.fullMatch e ∈ ev → Throws c .fullMatch → Kills c ev
  | unhandled {e : Nat} : Event.unhandled e ∈ ev → Throws c .unhandledException → Kills c ev
  | sequence {s k n : Nat} : Event.sequenceError s k n ∈ ev → (∀ x, ¬ Leaves c ev x) → Throws c .error → Kills c ev
  | second {s k n : Nat} {x : Exn} : Event.sequenceError s k n ∈ ev → Leaves c ev x → ThrowsMeanwhile c .error → Kills c ev

/-- The reporter returns although it must not, which is undefined behaviour. -/
def Breaks (c : Ctx) (ev : List Event) : Prop :=
  ¬ Kills c ev ∧ (((∃ es, Event.noMatch es ∈ ev) ∧ ¬ Throws c .noMatches) ∨ ((∃ es, Event.inapplicable es ∈ ev) ∧ ¬ Throws c .inapplicableMatches))

/-- The operation comes to its end, with the exception `x` or without one. -/
def Ends (c : Ctx) (ev : List Event) (x : Option Exn) : Prop :=
  ¬ Kills c ev ∧ ¬ Breaks c ev ∧ ∀ y, x = some y ↔ Leaves c ev y

/-- The number of the next `ScopedExpectation`. -/
def NextHolder (tr : STrace α) (n : Nat) : Prop := Whole.NextNumber (fun o => ∃ st ∈ tr, st.log.slot = some o) n

/-- An operation that is not about expectations themselves. -/
def Ordinary : Op α → Prop
  | .expect .. => False
  | .destroy _ => False
  | _ => True

/-- After the history `tr`, the operation is allowed, and this happens. -/
inductive Rule (tr : STrace α) (c : Ctx) : SOp α → SLog α → Prop where
  | plain {op : Op α} {ev : List Event} {x : Option Exn} : Ordinary op → Next tr.flat op ev → Ends c ev x →
    Rule tr c (.plain op) ⟨[(op, ev)], none, x, none⟩
  /-- A new expectation has a new holder. -/
  | expect {m : Nat} {min max : Int} {ss : List Nat} {ps : List (Policy α)} {e n : Nat} :
    Next tr.flat (.expect m min max ss ps) [.created e] → NextHolder tr n →
    Rule tr c (.expect m min max ss ps) ⟨[(.expect m min max ss ps, [.created e])], some n, none, none⟩
  | rejected {m : Nat} {min max : Int} {ss : List Nat} {ps : List (Policy α)} :
    Next tr.flat (.expect m min max ss ps) [.rejected] →
    Rule tr c (.expect m min max ss ps) ⟨[(.expect m min max ss ps, [.rejected])], none, some .invalidArgument, none⟩
  | moveConstruct {s n : Nat} : tr.exists s → NextHolder tr n → Rule tr c (.moveConstruct s) ⟨[], some n, none, none⟩
  /-- Nothing ends if the left side holds nothing, or if an object is assigned to itself. -/
  | moveAssignSilent {d s : Nat} : tr.exists d → tr.exists s → d = s ∨ (∀ e, ¬ tr.owns d e) →
    Rule tr c (.moveAssign d s) ⟨[], none, none, none⟩
  /-- Otherwise the expectation on the left side ends, which must not throw. -/
  | moveAssign {d s e : Nat} {ev : List Event} : tr.owns d e → tr.exists s → d ≠ s → Next tr.flat (.destroy e) ev → Ends c ev none →
    Rule tr c (.moveAssign d s) ⟨[(.destroy e, ev)], none, none, none⟩
  | dropSilent {o : Nat} : tr.exists o → (∀ e, ¬ tr.owns o e) → Rule tr c (.drop o) ⟨[], none, none, none⟩
  /-- The expectation ends with its holder. -/
  | drop {o e : Nat} {ev : List Event} {x : Option Exn} : tr.owns o e → Next tr.flat (.destroy e) ev → Ends c ev x →
    Rule tr c (.drop o) ⟨[(.destroy e, ev)], none, x, none⟩
  /-- The answer is whether the expectation could end now without being reported. -/
  | isSatisfied {o e : Nat} {b : Bool} : tr.owns o e → (b = true ↔ ¬ tr.flat.unmet e) →
    Rule tr c (.isSatisfied o) ⟨[], none, none, some b⟩

/-- After the history `tr`, the operation terminates the program. -/
inductive Terminates (tr : STrace α) (c : Ctx) : SOp α → Prop where
  | plain {op : Op α} {ev : List Event} : Ordinary op → Next tr.flat op ev → Kills c ev → Terminates tr c (.plain op)
  /-- Attaching an expectation to a sequence that is full (C18). -/
  | full {m : Nat} {min max : Int} {ss : List Nat} {ps : List (Policy α)} : tr.flat.valid (.expect m min max ss ps) →
    tr.flat.overflows (.expect m min max ss ps) → Terminates tr c (.expect m min max ss ps)
  | drop {o e : Nat} {ev : List Event} : tr.owns o e → Next tr.flat (.destroy e) ev → Kills c ev → Terminates tr c (.drop o)
  /-- Nothing may leave an assignment. -/
  | moveAssign {d s e : Nat} {ev : List Event} : tr.owns d e → tr.exists s → d ≠ s → Next tr.flat (.destroy e) ev →
    Kills c ev ∨ (∃ x, Leaves c ev x) → Terminates tr c (.moveAssign d s)

/-- After the history `tr`, the operation is undefined behaviour. -/
inductive Undefined (tr : STrace α) (c : Ctx) : SOp α → Prop where
  /-- The reporter breaks its rules. -/
  | plain {op : Op α} {ev : List Event} : Ordinary op → Next tr.flat op ev → Breaks c ev → Undefined tr c (.plain op)
  /-- The client asks an object that was moved from. -/
  | isSatisfied {o : Nat} : tr.exists o → (∀ e, ¬ tr.owns o e) → Undefined tr c (.isSatisfied o)

/-- The client uses only what exists. -/
def Allowed (tr : STrace α) : SOp α → Prop
  | .plain op => Ordinary op ∧ tr.flat.valid op
  | .expect m min max ss ps => tr.flat.valid (.expect m min max ss ps)
  | .moveConstruct s => tr.exists s
  | .moveAssign d s => tr.exists d ∧ tr.exists s
  | .drop o => tr.exists o
  | .isSatisfied o => tr.exists o

/-- A history that keeps all rules. -/
def Lawful (tr : STrace α) : Prop :=
  ∀ (pre : STrace α) st post, tr = pre ++ st :: post → Rule pre st.ctx st.op st.log

/-- The histories of any library with states `σ`: `step q c op` says what happens, `none` if the history cannot go on like that. -/
inductive Runs {σ : Type} (step : σ → Ctx → SOp α → Option (σ × SLog α)) (start : σ) : STrace α → σ → Prop where
  | init : Runs step start [] start
  | step {tr : STrace α} {q q' : σ} {c : Ctx} {op : SOp α} {log : SLog α} :
    Runs step start tr q → step q c op = some (q', log) → Runs step start (tr ++ [⟨c, op, log⟩]) q'

end Mimic.Scoping
