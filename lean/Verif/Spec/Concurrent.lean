import Verif.Model.Concurrent
import Verif.Spec.Trace

/-!
# Specification vocabulary for schedules

Everything here is a function of the schedule: which thread did what, and what was observed.
-/

set_option autoImplicit false

namespace Mimic

variable {α : Type}

/-- What happened before step `i`. -/
abbrev KTrace.before (tr : KTrace α) (i : Nat) : KTrace α := tr.take i

/-- All observations of a schedule, oldest first. -/
def KTrace.events (tr : KTrace α) : List Event := tr.flatMap (·.log.ev)

/-- What expectation number `e` was created with. -/
def KTrace.decl (tr : KTrace α) (e : Nat) : Option (Decl α) :=
  tr.findSome? (fun x =>
    match x.act with
    | .expect mock min max policies =>
      if Event.created e ∈ x.log.ev then some { mock, min, max, seqs := [], policies } else none
    | _ => none)

/-- Expectation `e` exists and has not been withdrawn. -/
def KTrace.live (tr : KTrace α) (e : Nat) : Prop :=
  (∃ d, tr.decl e = some d) ∧ Event.destroyed e ∉ tr.events

/-- How many calls were reported as resolved by expectation `e`. -/
def KTrace.resolved (tr : KTrace α) (e : Nat) : Nat := tr.events.count (.fullMatch e)

/-- What one step means for the call that thread `t` is in. -/
def flightStep (t : Nat) (cur : Option (Nat × Nat)) (x : KEntry α) : Option (Nat × Nat) :=
  if x.thread = t then
    match x.act with
    | .scan c _ => x.log.chosen.map (fun e => (c, e))
    | .consume => none
    | _ => cur
  else cur

/-- The call that thread `t` is in between matching and counting, if any: the mock, and the expectation that resolves it. -/
def KTrace.flight (tr : KTrace α) (t : Nat) : Option (Nat × Nat) := tr.foldl (flightStep t) none

/-- What one step means for where thread `t` is. -/
def phaseStep (t : Nat) (cur : Local) (x : KEntry α) : Local :=
  if x.thread = t then
    match x.act with
    | .scan c _ =>
      match x.log.chosen with
      | some e => .matched c e
      | none => cur
    | .report =>
      match cur with
      | .matched c e => .reported c e
      | l => l
    | .consume => .idle
    | .remove e => .removed e
    | .release => .idle
    | _ => cur
  else cur

/-- Where thread `t` is: idle, in a call whose match is (not) reported yet, or in the middle of withdrawing an expectation. -/
def KTrace.phase (tr : KTrace α) (t : Nat) : Local := tr.foldl (phaseStep t) .idle

/-- The object of expectation `e` has been destroyed. -/
def KTrace.released (tr : KTrace α) (e : Nat) : Prop := ∃ x ∈ tr, x.act matches .release ∧ Loc.exp e ∈ x.log.writes

/-- How many calls expectation `e` has counted, as told by the schedule. -/
def KTrace.counted : KTrace α → Nat → Nat
  | tr, e => tr.countP (fun x =>
    match x.act with
    | .consume => decide (Loc.exp e ∈ x.log.writes)
    | _ => false)

/-- Every policy of a living expectation `e` of mock `c` accepts the call `a`. -/
def KTrace.accepts (tr : KTrace α) (c : Nat) (a : α) (e : Nat) : Prop :=
  tr.live e ∧ ∃ d, tr.decl e = some d ∧ d.mock = c ∧ ∀ p ∈ d.policies, p.accepts a = some true

/-- Some policy of a living expectation `e` of mock `c` throws when it looks at the call `a`. -/
def KTrace.throws (tr : KTrace α) (c : Nat) (a : α) (e : Nat) : Prop :=
  tr.live e ∧ ∃ d, tr.decl e = some d ∧ d.mock = c ∧ ∃ p ∈ d.policies, p.accepts a = none

/-- `e` could resolve the call `a` of mock `c`: it accepts the call and has not counted exactly as many calls as its upper
limit. -/
def KTrace.candidate (tr : KTrace α) (c : Nat) (a : α) (e : Nat) : Prop :=
  tr.accepts c a e ∧ ∃ d, tr.decl e = some d ∧ (tr.counted e : Int) ≠ d.max

/-- Thread `t` holds the client's mutex `k`: the last thing that happened to it is that `t` locked it. -/
def holderStep (k : Nat) (cur : Option Nat) (x : KEntry α) : Option Nat :=
  match x.act with
  | .lock k' => if k' = k then some x.thread else cur
  | .unlock k' => if k' = k then none else cur
  | _ => cur

/-- Who holds the client's mutex `k`. -/
def KTrace.holder (tr : KTrace α) (k : Nat) : Option Nat := tr.foldl (holderStep k) none

/-- The steps that thread `t` can make: the client only uses things that exist, passes `int`s as limits, and waits for
mutexes. -/
def KTrace.valid (n m : Nat) (tr : KTrace α) (t : Nat) : KAct α → Prop
  | .expect c min max _ =>
    t < n ∧ tr.phase t = .idle ∧ c < m ∧
      (-2147483648 ≤ min ∧ min ≤ 2147483647) ∧ (-2147483648 ≤ max ∧ max ≤ 2147483647)
  | .scan c _ => t < n ∧ tr.phase t = .idle ∧ c < m
  | .report => ∃ c e, tr.phase t = .matched c e
  | .consume => ∃ c e, tr.phase t = .reported c e
  | .remove e => t < n ∧ tr.phase t = .idle ∧ tr.live e
  | .release => ∃ e, tr.phase t = .removed e
  | .query e => t < n ∧ tr.phase t = .idle ∧ tr.live e
  | .lock k => t < n ∧ tr.holder k = none
  | .unlock k => tr.holder k = some t

/-- The step uses an expectation object that has been destroyed, or counts a call beyond what the counter can hold, or (if
assertions are compiled in) beyond the upper limit. -/
def KTrace.bad (asserts : Bool) (tr : KTrace α) (t : Nat) (act : KAct α) : Prop :=
  (act matches .consume) ∧ ∃ c e d, tr.phase t = .reported c e ∧ tr.decl e = some d ∧
    (tr.released e ∨ (asserts = true ∧ d.max ≤ tr.counted e) ∨ (tr.counted e : Int) = 2147483647)

/-- No two calls that are resolved by the same expectation overlap between matching and counting. -/
def KTrace.Exclusive (tr : KTrace α) : Prop :=
  ∀ p, p <+: tr → ∀ t₁ t₂ c₁ c₂ e, KTrace.flight p t₁ = some (c₁, e) → KTrace.flight p t₂ = some (c₂, e) → t₁ = t₂

/-- No call begins while another call of the same mock is between matching and counting, and no expectation is withdrawn
while a call that it resolves is between matching and counting. -/
def KTrace.Separate (tr : KTrace α) : Prop :=
  ∀ p x, p ++ [x] <+: tr → ∀ t c e, KTrace.flight p t = some (c, e) →
    (∀ a, x.act ≠ .scan c a) ∧ x.act ≠ .remove e

/-- `HB tr i j`: step `i` happens before step `j`: by the order within a thread, or because `i` releases a mutex that `j`
acquires later, or by a chain of these. -/
inductive HB (tr : KTrace α) : Nat → Nat → Prop where
  | thread {i j : Nat} {x y : KEntry α} : i < j → tr[i]? = some x → tr[j]? = some y → x.thread = y.thread → HB tr i j
  | mutex {i j : Nat} {x y : KEntry α} {m : Mutex} : i < j → tr[i]? = some x → tr[j]? = some y →
    x.log.releases = some m → y.log.acquires = some m → HB tr i j
  | trans {i j k : Nat} : HB tr i j → HB tr j k → HB tr i k

/-- Two steps access the same memory, and one of them writes. -/
def Conflict (x y : KLog) : Prop :=
  ∃ l, (l ∈ x.writes ∧ (l ∈ y.reads ∨ l ∈ y.writes)) ∨ (l ∈ x.reads ∧ l ∈ y.writes)

/-- A data race. -/
def Race (tr : KTrace α) (i j : Nat) : Prop :=
  i < j ∧ ∃ x y, tr[i]? = some x ∧ tr[j]? = some y ∧ x.thread ≠ y.thread ∧ Conflict x.log y.log ∧ ¬ HB tr i j

def RaceFree (tr : KTrace α) : Prop := ∀ i j, ¬ Race tr i j

/-- What one step is in a history of a single thread: a call takes place when it is matched, the end of an expectation when
it is withdrawn. -/
def KEntry.serial (x : KEntry α) : Trace α :=
  match x.act with
  | .expect c min max policies => [(.expect c min max [] policies, x.log.ev)]
  | .scan c a =>
    match x.log.chosen with
    | some e => [(.call c a, x.log.ev ++ [.fullMatch e])]
    | none => [(.call c a, x.log.ev)]
  | .remove e => [(.destroy e, x.log.ev)]
  | _ => []

/-- The schedule as a history of a single thread that first creates `m` mocks. -/
def KTrace.serial (m : Nat) (tr : KTrace α) : Trace α :=
  (List.range m).map (fun c => (Op.newMock, [Event.mockCreated c])) ++ tr.flatMap KEntry.serial

/-- The client guards every mock `c` by its mutex `g c`: calls begin and end while it is held, without letting it go in the
meantime, and expectations of the mock are withdrawn and queried only while it is held. -/
def KTrace.Guarded (g : Nat → Nat) (tr : KTrace α) : Prop :=
  ∀ p x, p ++ [x] <+: tr →
    match x.act with
    | .scan c _ => KTrace.holder p (g c) = some x.thread
    | .remove e => ∀ d, KTrace.decl p e = some d → KTrace.holder p (g d.mock) = some x.thread
    | .query e => ∀ d, KTrace.decl p e = some d → KTrace.holder p (g d.mock) = some x.thread
    | .unlock k => ∀ c e, KTrace.flight p x.thread = some (c, e) → g c ≠ k
    | _ => True

/-- Whoever queries an expectation got it from whoever created it. -/
def KTrace.HandedOver (tr : KTrace α) : Prop :=
  ∀ (i j e : Nat) (x y : KEntry α), tr[i]? = some x → tr[j]? = some y → Event.created e ∈ x.log.ev → y.act = .query e → HB tr i j

end Mimic
