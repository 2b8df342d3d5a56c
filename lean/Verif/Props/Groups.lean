import Verif.Proofs.Groups
import Verif.Props.Threads

/-!
# A mutex for each group of objects that belong together (C93)
-/

set_option autoImplicit false

namespace Mimic.Groups

open Threads
open Parts (Names part)

variable {α τ ι : Type} [DecidableEq τ] [DecidableEq ι]

/-- C93: any number of threads use any number of groups of mocks, sequences and expectations, each under its mutex. Whatever the schedule, in
each group in which no operation is unfinished, the same is seen as if a single thread carried out the operations of this group one after the
other, in the order in which they were begun. -/
theorem C93_groups (as : List (τ × Item ι α)) (hp : (Guarded.init : Guarded τ ι α).Proper as) (g : Guarded τ ι α) (xs : List (Record τ ι))
    (h : Guarded.init.run as = .ok (g, xs)) (i : ι) (hi : ∀ t, g.group t = some i → g.state.phase t = .idle) :
    ∃ w, runProgram ((within i as).filterMap begins) = .ok (w, seenIn i xs) := by
  rcases Sim.run Sim.init hp with ⟨x, y, h1, -⟩ | ⟨g', j, xs', h1, h2, h3⟩
  · rw [h] at h1
    cases h1
  · rw [h] at h1
    simp only [Except.ok.injEq, Prod.mk.injEq] at h1
    obtain ⟨rfl, rfl⟩ := h1
    have hj : j.state.phase i = .idle := by
      apply Classical.byContradiction
      intro hj
      obtain ⟨t, h4, _, h5⟩ := h3.owner i hj
      rw [hi t h4] at h5
      exact hj h5.symm
    obtain ⟨w, hw⟩ := C73_threads (acts as) j (entries xs) h2 i hj
    rw [part_acts, part_entries] at hw
    exact ⟨w, hw⟩

/-- C93: nothing goes wrong that would not go wrong in one of the groups on its own, in a single thread. -/
theorem C93_safe (as : List (τ × Item ι α)) (hp : (Guarded.init : Guarded τ ι α).Proper as)
    (h : ∀ i, ∃ r, alone World.init .idle (within i as) = .ok r) : ∃ r, (Guarded.init : Guarded τ ι α).run as = .ok r := by
  rcases Sim.run Sim.init hp with ⟨x, y, -, h2⟩ | ⟨g', j, xs', h1, -⟩
  · obtain ⟨r, hr⟩ := C73_together (acts as) (fun i => by rw [part_acts]; exact h i)
    rw [h2] at hr
    cases hr
  · exact ⟨_, h1⟩

/-- C93: there is no data race: if steps of two threads access the same memory, and one of them writes, they belong to the same group, and
in between the first thread has unlocked its mutex and then the second one has locked it. -/
theorem C93_ordered (as : List (τ × Item ι α)) (hp : (Guarded.init : Guarded τ ι α).Proper as) (g : Guarded τ ι α) (xs : List (Record τ ι))
    (h : Guarded.init.run as = .ok (g, xs)) (n m : Nat) (hnm : n < m) (t u : τ) (htu : t ≠ u) (i k : ι) (x y : Entry)
    (hn : xs[n]? = some (.did t i x)) (hm : xs[m]? = some (.did u k y)) (hc : Conflict x.log y.log) :
    i = k ∧ ∃ a b : Nat, n < a ∧ a < b ∧ b < m ∧ xs[a]? = some (.unlocked t i) ∧ xs[b]? = some (.locked u i) := by
  have hik : i = k := by
    apply Classical.byContradiction
    intro hik
    rcases Sim.run Sim.init hp with ⟨x, y, h1, -⟩ | ⟨g', j, xs', h1, h2, h3⟩
    · rw [h] at h1
      cases h1
    · rw [h] at h1
      simp only [Except.ok.injEq, Prod.mk.injEq] at h1
      obtain ⟨rfl, rfl⟩ := h1
      exact C73_disjoint (acts as) j (entries xs) h2 i k hik x y (mem_entries (List.mem_of_getElem? hn))
        (mem_entries (List.mem_of_getElem? hm)) hc
  subst hik
  exact ⟨rfl, handed_over hp h hnm htu hn hm⟩

/-! ## Concrete cases -/

namespace Examples

/-- Accepts calls with the number `n`. -/
def is (n : Nat) : Policy Nat := { accepts := fun a => some (a == n) }

/-- Two groups (`false` and `true`), each with a sequence, a mock and two expectations. Two threads (0 and 1) make the calls of both groups
crosswise: thread 0 is interrupted in the middle of its call in group `false` while thread 1 makes a call in group `true`. -/
def schedule : List (Nat × Item Bool Nat) :=
  let setup : List (Act Nat) := [.newSequence .lazy, .newMock, .attach 0 1 1 [0] [is 1], .push, .attach 0 1 1 [0] [is 2], .push]
  let call (n : Nat) : List (Act Nat) := [.scan 0 n, .report, .consume]
  [(0, .lock false), (1, .lock true)] ++ setup.flatMap (fun a => [(0, .act false a), (1, .act true a)]) ++
    (call 1).flatMap (fun a => [(0, .act false a), (1, .act true a)]) ++
    [(0, .unlock false), (1, .unlock true), (0, .lock true), (1, .lock false)] ++
    (call 2).flatMap (fun a => [(0, .act true a), (1, .act false a)]) ++
    ([.remove 0, .release, .remove 1, .release, .dropSequence 0] : List (Act Nat)).flatMap (fun a => [(0, .act true a), (1, .act false a)]) ++
    [(0, .unlock true), (1, .unlock false)]

/-- Whether a schedule for these threads and groups is proper. -/
def proper (g : Guarded Nat Bool Nat) : List (Nat × Item Bool Nat) → Bool
  | [] => true
  | (t, a) :: as =>
    (match a with
    | .lock i => decide (g.held i = none)
    | .unlock i => decide (g.held i = some t) && (decide (g.state.phase t = .idle) || decide (g.group t ≠ some i))
    | .act i _ => decide (g.held i = some t) && (decide (g.state.phase t = .idle) || decide (g.group t = some i))) &&
      match g.step t a with
      | .ok r => proper r.1 as
      | .error _ => true

theorem proper_sound {as : List (Nat × Item Bool Nat)} {g : Guarded Nat Bool Nat} (h : proper g as = true) : g.Proper as := by
  induction as generalizing g with
  | nil => trivial
  | cons a as ih =>
    obtain ⟨t, a⟩ := a
    simp only [proper, Bool.and_eq_true] at h
    refine ⟨?_, fun g' x hs => ?_⟩
    · cases a <;> simpa [Guarded.proper] using h.1
    · rw [hs] at h
      exact ih h.2

/-- The hypotheses are met, and both groups see the same, although the calls of each were made by different threads. -/
example : (Guarded.init : Guarded Nat Bool Nat).Proper schedule := proper_sound (by decide +kernel)

example : ∀ i, ((Guarded.init : Guarded Nat Bool Nat).run schedule).toOption.map (fun r => (seenIn i r.2, r.1.state.phase 0, r.1.state.phase 1)) =
    some ([.sequenceCreated 0 .lazy, .mockCreated 0, .created 0, .created 1, .fullMatch 0, .fullMatch 1, .destroyed 0, .destroyed 1,
      .sequenceDestroyed 0], .idle, .idle) := by decide +kernel

/-- Steps that conflict: thread 0 counted the first call of group `false`, thread 1 looked at it later. -/
example : ((Guarded.init : Guarded Nat Bool Nat).run schedule).toOption.map (fun r =>
    (r.2.filterMap fun x => match x with | .did t false e => if .seq 0 ∈ e.log.writes then some t else none | _ => none)) =
    some [0, 0, 0, 0, 1, 1] := by decide +kernel

end Examples

end Mimic.Groups
