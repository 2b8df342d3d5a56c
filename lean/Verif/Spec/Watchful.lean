import Verif.Spec.Whole
import Verif.Spec.WatcherProgress

/-!
# Specification: all rules for watched objects together

For every operation of a client that uses watched objects, what has to happen, said only in terms of the history so far. The rules use
the words of `Verif/Spec/Watcher.lean` and the rules for everything else (`Verif/Spec/Whole.lean`).
-/

set_option autoImplicit false

namespace Mimic.Watchful

variable {α : Type}

/-- After the history `t`, the operation `op` is allowed, and it makes the observations `ev` (C105). -/
def Next (t : Trace α) (op : Op α) (ev : List Event) : Prop :=
  t.valid op ∧ ¬ t.overflows op ∧ Whole.Prescribed t op ev

/-- An exception leaves the report: no expectation resolves it, or the one that does throws. -/
def Throws (a0 : Trigger α) (ev : List Event) : Prop :=
  (∀ e, Event.fullMatch e ∉ ev) ∨ ∃ e, Event.fullMatch e ∈ ev ∧ a0.throws e = true

/-- The number of the next watched object. -/
def NextObject (tr : WTrace α) (n : Nat) : Prop := Whole.NextNumber (fun o => ∃ kd, tr.isKind o kd) n

/-- There is an object `o` of this kind. -/
def Is (tr : WTrace α) (o : Nat) (kd : Watcher) : Prop := tr.exists o ∧ tr.isKind o kd

/-- The client uses only mocks it created. -/
def OwnMock (tr : WTrace α) (op : Op α) : Prop :=
  (∀ m min max ss ps, op = .expect m min max ss ps → tr.mine m) ∧ (∀ m a, op = .call m a → tr.mine m)

/-- After the history `tr`, the operation is allowed, and this happens. -/
inductive Rule (a0 : Trigger α) (tr : WTrace α) : WOp α → List (WEvent α) → Prop where
  /-- Everything that has nothing to do with watched objects. -/
  | plain {op : Op α} {ev : List Event} : OwnMock tr op → Next tr.flat op ev → Rule a0 tr (.plain op) [.lib op ev]
  /-- A new object has a new watch. -/
  | create {kd : Watcher} {n k : Nat} : NextObject tr n → Next tr.flat .newMock [.mockCreated k] →
    Rule a0 tr (.create kd) [.lib .newMock [.mockCreated k], .object n kd, .born n k]
  /-- So has a copy. -/
  | copy {s : Nat} {kd : Watcher} {n k : Nat} : Is tr s kd → NextObject tr n → Next tr.flat .newMock [.mockCreated k] →
    Rule a0 tr (.copy s) [.lib .newMock [.mockCreated k], .object n kd, .born n k]
  /-- Moving an object whose lifetime is watched is not reported. -/
  | moveLifetime {s n : Nat} : Is tr s .lifetime → NextObject tr n → Rule a0 tr (.move s) [.object n .lifetime]
  /-- Moving an object whose relocations are watched is reported. -/
  | move {s n k c : Nat} {ev : List Event} : Is tr s .relocation → tr.carries s c → NextObject tr n →
    Next tr.flat .newMock [.mockCreated k] → Next (tr.flat ++ [(.newMock, [.mockCreated k])]) (.call c a0.arg) ev → ¬ Throws a0 ev →
    Rule a0 tr (.move s) [.lib .newMock [.mockCreated k], .lib (.call c a0.arg) ev, .object n .relocation]
  /-- If the report ends with an exception, there is no new object. -/
  | moveThrows {s k c : Nat} {ev : List Event} : Is tr s .relocation → tr.carries s c →
    Next tr.flat .newMock [.mockCreated k] → Next (tr.flat ++ [(.newMock, [.mockCreated k])]) (.call c a0.arg) ev → Throws a0 ev →
    Rule a0 tr (.move s) [.lib .newMock [.mockCreated k], .lib (.call c a0.arg) ev, .exception]
  /-- Copy-assignment: an object with nothing to report gets a new watch. -/
  | copyAssign {d s k : Nat} {kd : Watcher} : Is tr d kd → Is tr s kd → (kd = .lifetime → ∀ c, ¬ tr.carries d c) →
    Next tr.flat .newMock [.mockCreated k] →
    Rule a0 tr (.copyAssign d s) [.lib .newMock [.mockCreated k], .born d k]
  /-- An object whose lifetime is watched reports its end before. -/
  | copyAssignEnds {d s k c : Nat} {ev : List Event} : Is tr d .lifetime → Is tr s .lifetime → tr.carries d c →
    Next tr.flat (.call c a0.arg) ev → ¬ Throws a0 ev → Next (tr.flat ++ [(.call c a0.arg, ev)]) .newMock [.mockCreated k] →
    Rule a0 tr (.copyAssign d s) [.lib (.call c a0.arg) ev, .lib .newMock [.mockCreated k], .born d k]
  /-- If the report ends with an exception, nothing else happens. -/
  | copyAssignThrows {d s c : Nat} {ev : List Event} : Is tr d .lifetime → Is tr s .lifetime → tr.carries d c →
    Next tr.flat (.call c a0.arg) ev → Throws a0 ev →
    Rule a0 tr (.copyAssign d s) [.lib (.call c a0.arg) ev, .exception]
  /-- Move-assignment of objects whose lifetime is watched is not reported. -/
  | moveAssignLifetime {d s : Nat} : Is tr d .lifetime → Is tr s .lifetime → Rule a0 tr (.moveAssign d s) []
  /-- Move-assignment of objects whose relocations are watched: the source reports. -/
  | moveAssign {d s c : Nat} {ev : List Event} : Is tr d .relocation → Is tr s .relocation → tr.carries s c →
    Next tr.flat (.call c a0.arg) ev → ¬ Throws a0 ev → Rule a0 tr (.moveAssign d s) [.lib (.call c a0.arg) ev]
  | moveAssignThrows {d s c : Nat} {ev : List Event} : Is tr d .relocation → Is tr s .relocation → tr.carries s c →
    Next tr.flat (.call c a0.arg) ev → Throws a0 ev → Rule a0 tr (.moveAssign d s) [.lib (.call c a0.arg) ev, .exception]
  /-- Nothing is reported when an object ends whose relocations are watched, or which carries no watch. -/
  | dropSilent {o : Nat} {kd : Watcher} : Is tr o kd → (kd = .lifetime → ∀ c, ¬ tr.carries o c) → Rule a0 tr (.drop o) []
  /-- The end of an object whose lifetime is watched is reported. -/
  | drop {o c : Nat} {ev : List Event} : Is tr o .lifetime → tr.carries o c → Next tr.flat (.call c a0.arg) ev → ¬ Throws a0 ev →
    Rule a0 tr (.drop o) [.lib (.call c a0.arg) ev]
  | dropThrows {o c : Nat} {ev : List Event} : Is tr o .lifetime → tr.carries o c → Next tr.flat (.call c a0.arg) ev → Throws a0 ev →
    Rule a0 tr (.drop o) [.lib (.call c a0.arg) ev, .exception]
  /-- The end of an object can be expected only once. -/
  | again {o : Nat} {op : WOp α} : Is tr o .lifetime → tr.armed o →
    ((∃ min max ss ps, op = .expect o min max ss ps) ∨ op = .abandon o) → Rule a0 tr op [.logicError]
  /-- It is expected exactly once, whatever the client says. -/
  | expectEnd {o c : Nat} {min max : Int} {ss : List Nat} {ps : List (Policy α)} {ev : List Event} : Is tr o .lifetime → ¬ tr.armed o →
    tr.carries o c → Next tr.flat (.expect c 1 1 ss ps) ev → Rule a0 tr (.expect o min max ss ps) [.lib (.expect c 1 1 ss ps) ev]
  /-- Relocations are expected as often as the client says. -/
  | expectMoves {o c : Nat} {min max : Int} {ss : List Nat} {ps : List (Policy α)} {ev : List Event} : Is tr o .relocation →
    tr.carries o c → Next tr.flat (.expect c min max ss ps) ev →
    Rule a0 tr (.expect o min max ss ps) [.lib (.expect c min max ss ps) ev]
  /-- Nothing else happens if the client does not keep what `expect_destruct` or `expect_relocate` gives them. -/
  | abandon {o c : Nat} {kd : Watcher} : Is tr o kd → (kd = .lifetime → ¬ tr.armed o) → tr.carries o c → Rule a0 tr (.abandon o) []

/-- A history that keeps all rules. -/
def Lawful (a0 : Trigger α) (tr : WTrace α) : Prop :=
  ∀ (pre : WTrace α) op log post, tr = pre ++ (op, log) :: post → Rule a0 pre op log

/-- The histories of any library with states `σ`: `step q op` says what happens, `none` if the client must not do that. -/
inductive Runs {σ : Type} (step : σ → WOp α → Option (σ × List (WEvent α))) (start : σ) : WTrace α → σ → Prop where
  | init : Runs step start [] start
  | step {tr : WTrace α} {q q' : σ} {op : WOp α} {log : List (WEvent α)} :
    Runs step start tr q → step q op = some (q', log) → Runs step start (tr ++ [(op, log)]) q'

end Mimic.Watchful
