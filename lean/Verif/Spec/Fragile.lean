import Verif.Model.Fragile
import Verif.Spec.Build
import Verif.Spec.Trace

/-!
# Specification vocabulary: attempts to create an expectation

Everything here is a function of the observable history, i.e. of the operations of the client and how they ended.
-/

set_option autoImplicit false

namespace Mimic.Fragile

variable {α φ : Type}

/-- Items that are objects which are kept: policies and finalizers. -/
def kept : Item α φ → Bool
  | .policy _ => true
  | .finalizer _ => true
  | _ => false

/-- The object in position `i` of `n` items has to be constructed once by its own `&&` and once by each later one. -/
def Survives (items : List (Item α φ × Good)) : Prop :=
  ∀ (i : Nat) (item : Item α φ) (k : Nat), items[i]? = some (item, some k) → kept item = true → items.length - i ≤ k

/-- And once more for the expectation itself. -/
def Completes (items : List (Item α φ × Good)) : Prop :=
  ∀ (i : Nat) (item : Item α φ) (k : Nat), items[i]? = some (item, some k) → kept item = true → items.length - i + 1 ≤ k

/-- What an expression asks for: the limits given (exactly once if there are none), all sequences, all policies. -/
def wanted (coll : Nat) (items : List (Item α φ × Good)) : Decl α :=
  { mock := coll
    min := ((timesOf (items.map (·.1))).head?.map (·.1)).getD 1
    max := ((timesOf (items.map (·.1))).head?.map (·.2)).getD 1
    seqs := sequencesOf (items.map (·.1))
    policies := policiesOf (items.map (·.1)) }

/-- All observations of a history, oldest first. -/
def events (tr : FTrace α φ) : List Event :=
  tr.flatMap (fun st => match st.2 with | .done ev => ev | .threw _ => [])

/-- What attempt number `e`, which failed, asked for. -/
def failedOf (tr : FTrace α φ) (e : Nat) : Option (Decl α) :=
  tr.findSome? (fun st =>
    match st with
    | (.create coll _ items, .threw e') => if e' = e then some (wanted coll items) else none
    | _ => none)

/-- What expectation number `e`, which was really created, was created with. -/
def declOf (tr : FTrace α φ) (e : Nat) : Option (Decl α) :=
  tr.findSome? (fun st =>
    match st with
    | (.op (.expect mock min max seqs policies), .done ev) =>
      if Event.created e ∈ ev then some { mock, min, max, seqs, policies } else none
    | (.create coll _ items, .done ev) => if Event.created e ∈ ev then some (wanted coll items) else none
    | _ => none)

/-- How many calls expectation `e` has resolved. -/
def matched (tr : FTrace α φ) (e : Nat) : Nat := (events tr).count (.fullMatch e)

/-- Expectation `e` was really created and has not gone out of scope. -/
def live (tr : FTrace α φ) (e : Nat) : Prop := (∃ d, declOf tr e = some d) ∧ Event.destroyed e ∉ events tr

/-- Expectation `e` was really created and attached to sequence `s`. -/
def attached (tr : FTrace α φ) (e s : Nat) : Prop := ∃ d, declOf tr e = some d ∧ s ∈ d.seqs

/-- Every policy of a living expectation `e` of mock `m` accepts the call `a`. -/
def accepts (tr : FTrace α φ) (m : Nat) (a : α) (e : Nat) : Prop :=
  live tr e ∧ ∃ d, declOf tr e = some d ∧ d.mock = m ∧ ∀ p ∈ d.policies, p.accepts a = some true

/-- The order rule for one sequence, in terms of the expectations that were really created: everything attached earlier
has reached its lower limit, nothing attached later has resolved a call. -/
def turn (tr : FTrace α φ) (e s : Nat) : Prop :=
  (∀ e' d, e' < e → declOf tr e' = some d → s ∈ d.seqs → d.min ≤ (matched tr e' : Int)) ∧
  (∀ e', e < e' → attached tr e' s → matched tr e' = 0)

/-- Expectation `e` is applicable according to that rule. -/
def applicable (tr : FTrace α φ) (e : Nat) : Prop :=
  (∃ d, declOf tr e = some d ∧ (matched tr e : Int) < d.max) ∧ ∀ s, attached tr e s → turn tr e s

/-- `e` should be able to resolve the call `a` of mock `m`. -/
def candidate (tr : FTrace α φ) (m : Nat) (a : α) (e : Nat) : Prop := accepts tr m a e ∧ applicable tr e

/-- An attempt whose failure cannot matter: it asked for no sequence, or for no call. -/
def Harmless (d : Decl α) : Prop := d.seqs = [] ∨ d.min = 0

/-- One step of the history of a client whose objects never throw. A failed creation is replaced by a creation that
succeeds and an immediate destruction. -/
def asIfStep : FOp α φ × Out → Trace α
  | (.op o, .done ev) => [(o, ev)]
  | (.op _, .threw _) => []
  | (.create coll _ items, .done ev) =>
    let d := wanted coll items
    if ev = [.rejected] then []
    else [(.expect d.mock d.min d.max d.seqs d.policies, ev)]
  | (.create coll _ items, .threw e) =>
    let d := wanted coll items
    [(.expect d.mock d.min d.max d.seqs d.policies, [.created e]),
     (.destroy e,
      .destroyed e :: if d.min ≤ 0 ∧ d.policies.all (·.isSatisfied) then [] else [.unfulfilled e])]

/-- The whole history. -/
def asIf (tr : FTrace α φ) : Trace α := tr.flatMap asIfStep

end Mimic.Fragile
