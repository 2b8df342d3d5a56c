import Verif.Proofs.Builders

/-!
# C114: the rules for builders determine everything that is observed

A client may keep the object that `expect_call` returns, add to it later, in several steps, move it, make the expectation out of it
or throw it away. `Builders.Lawful` (`Verif/Spec/Builders.lean`) says for every operation what the client may do and what it observes, and
which history without builders this stands for. Here: the library always does what is prescribed, nothing else is possible, and a history
that keeps the rules is a history of the library.
-/

set_option autoImplicit false

namespace Mimic

open Builders

variable {α φ : Type}

/-- C114: the histories of the library are exactly the histories that keep the rules. -/
theorem C114_histories (btr : BTrace α φ) : (∃ bw, BReach btr bw) ↔ ∃ tr, Lawful btr tr :=
  ⟨fun ⟨_, h⟩ => let ⟨tr, hl, _⟩ := reach_sim h; ⟨tr, hl⟩, fun ⟨_, h⟩ => let ⟨bw, hr, _⟩ := lawful_sim h; ⟨bw, hr⟩⟩

/-- C114: a history with builders stands for a history without: one of a client that writes down every expectation at once, with everything
that was said about it, in the order it was said. It makes the same observations, except for the items that were refused. -/
theorem C114_without {btr : BTrace α φ} {tr : Trace α} (h : Lawful btr tr) :
    (∃ w, Reach tr w) ∧ tr.events = (btr.flatMap (·.2)).filter (fun e => decide (e ≠ .rejected)) := by
  refine ⟨let ⟨_, _, hs⟩ := lawful_sim h; ⟨_, hs.reach⟩, ?_⟩
  induction h with
  | nil => rfl
  | step h1 h2 h3 ih =>
    obtain ⟨bw, _, hs⟩ := lawful_sim h1
    rw [events_append, ih, List.flatMap_append, List.filter_append]
    congr 1
    simp only [List.flatMap_cons, List.flatMap_nil, List.append_nil]
    cases h3 with
    | refused _ => rfl
    | done _ hm hl => exact (silent hs h2 hm hl).symm

/-- C114: what the library does in one step is what is prescribed, and it is carried out whenever it is allowed. -/
theorem C114_step {btr : BTrace α φ} {tr : Trace α} {bw : BWorld α φ} (h : BReach btr bw) (hl : Lawful btr tr) (op : BOp α φ)
    (ev : List Event) :
    (∃ bw', bw.step op = .ok (bw', ev)) ↔ Allowed btr tr op ∧ ¬ Terminates btr tr op ∧ ∃ l, Prescribed btr tr op ev l := by
  obtain ⟨tr', hl', hs⟩ := reach_sim h
  obtain ⟨_, rfl⟩ := lawful_unique hl hl' rfl
  exact hs.step_iff op ev

/-- C114: the program is terminated only where the rules say so. -/
theorem C114_terminates {btr : BTrace α φ} {tr : Trace α} {bw : BWorld α φ} (h : BReach btr bw) (hl : Lawful btr tr) (op : BOp α φ) :
    (∃ why, bw.step op = .error (.terminate why)) ↔ Terminates btr tr op := by
  obtain ⟨tr', hl', hs⟩ := reach_sim h
  obtain ⟨_, rfl⟩ := lawful_unique hl hl' rfl
  exact (hs.stops op).1

/-- C114: what is not allowed does not compile or uses an object that does not exist or was moved from; there is never undefined behaviour
of any other kind. -/
theorem C114_forbidden {btr : BTrace α φ} {tr : Trace α} {bw : BWorld α φ} (h : BReach btr bw) (hl : Lawful btr tr) (op : BOp α φ) :
    ((∃ why, bw.step op = .error (.client why)) ↔ ¬ Allowed btr tr op) ∧ ∀ why, bw.step op ≠ .error (.ub why) := by
  obtain ⟨tr', hl', hs⟩ := reach_sim h
  obtain ⟨_, rfl⟩ := lawful_unique hl hl' rfl
  exact (hs.stops op).2

/-- C114: the rules leave no choice. -/
theorem C114_determined {btr : BTrace α φ} {tr : Trace α} {op : BOp α φ} {ev ev' : List Event} {l l' : Trace α}
    (h : Prescribed btr tr op ev l) (h' : Prescribed btr tr op ev' l') : ev = ev' ∧ l = l' := prescribed_unique h h'

/-- C114: after a history that keeps the rules, the rules say something about every operation the client may carry out. -/
theorem C114_complete {btr : BTrace α φ} {tr : Trace α} (h : Lawful btr tr) {op : BOp α φ} (ha : Allowed btr tr op)
    (ht : ¬ Terminates btr tr op) : ∃ ev l, Prescribed btr tr op ev l := by
  obtain ⟨bw, _, hs⟩ := lawful_sim h
  by_cases hr : Refused btr op
  · exact ⟨_, _, .refused hr⟩
  · obtain ⟨_, l, _, h2, h3, _⟩ := (hs.does op).done ha hr ht
    exact ⟨_, l, .done hr h2 h3⟩

/-- C114: two lawful histories of the same operations are the same, and stand for the same. -/
theorem C114_unique {btr btr' : BTrace α φ} {tr tr' : Trace α} (h : Lawful btr tr) (h' : Lawful btr' tr')
    (he : btr.map (·.1) = btr'.map (·.1)) : btr = btr' ∧ tr = tr' := lawful_unique h h' he

/-- C114: any other library, whatever its states are and however it works, that keeps the rules whenever it is used as allowed, cannot be
told from this one: it has the same histories. -/
theorem C114_interchangeable {σ : Type} (start : σ) (step : σ → BOp α φ → Option (σ × List Event))
    (hdoes : ∀ btr tr q op, Runs step start btr q → Lawful btr tr → Allowed btr tr op → ¬ Terminates btr tr op →
      ∃ q' ev l, step q op = some (q', ev) ∧ Prescribed btr tr op ev l)
    (hnot : ∀ btr tr q op, Runs step start btr q → Lawful btr tr → ¬ (Allowed btr tr op ∧ ¬ Terminates btr tr op) → step q op = none)
    (btr : BTrace α φ) : (∃ q, Runs step start btr q) ↔ ∃ bw, BReach btr bw := by
  rw [C114_histories]
  exact runs_lawful hdoes hnot btr

/-! ### The rules at work -/

namespace Builders

def play (r : BTrace Nat Nat × BWorld Nat Nat) : List (BOp Nat Nat) → BTrace Nat Nat × BWorld Nat Nat
  | [] => r
  | op :: ops => match r.2.step op with
    | .ok (bw', ev) => play (r.1 ++ [(op, ev)], bw') ops
    | .error _ => play r ops

theorem play_reach (ops : List (BOp Nat Nat)) : ∀ {r : BTrace Nat Nat × BWorld Nat Nat}, BReach r.1 r.2 →
    BReach (play r ops).1 (play r ops).2 := by
  induction ops with
  | nil => exact fun h => h
  | cons op ops ih =>
    intro r h
    unfold play
    split
    · exact ih (h.step ‹_›)
    · exact ih h

/-- A sequence outlives its object because of a builder; a sequence that is mentioned twice and limits that make no sense are refused; a
builder that was moved from by adding sequences still keeps a sequence alive, one that was moved as a whole does not; another one is thrown
away. -/
def demo : List (BOp Nat Nat) :=
  [.newMock, .newSequence .lazy, .newSequence .greedy, .beginExpect 0 false [], .extend 0 (.sequences [0]), .extend 1 (.sequences [1, 0]),
   .extend 1 (.times 3 2), .extend 1 (.times 1 2), .extend 2 (.sequences [1]), .dropObject 0, .dropObject 1, .extend 3 (.finalizer 7),
   .moveBuilder 4, .finalize 4, .finalize 5, .dropBuilder 5, .dropBuilder 4, .call 0 5, .destroy 0, .dropBuilder 3, .dropBuilder 2, .dropBuilder 1, .dropBuilder 0]

def demoRun : BTrace Nat Nat × BWorld Nat Nat := play ([], BWorld.init) demo

theorem demo_reach : BReach demoRun.1 demoRun.2 := play_reach demo (r := ([], BWorld.init)) .init

example : demoRun.1.map (·.2) =
    [[.mockCreated 0], [.sequenceCreated 0 .lazy], [.sequenceCreated 1 .greedy], [], [], [.rejected], [.rejected], [], [], [], [], [],
     [], [.created 0], [], [], [.fullMatch 0], [.destroyed 0, .sequenceDestroyed 1], [], [.sequenceDestroyed 0], [], []] := by decide +kernel

/-- That history keeps the rules, and stands for one without builders … -/
theorem demo_lawful : ∃ tr, Lawful demoRun.1 tr := (C114_histories _).mp ⟨_, demo_reach⟩

theorem demo_step {n : Nat} {op : BOp Nat Nat} {ev ev' : List Event} {tr l : Trace Nat}
    (hl : Lawful (play ([], BWorld.init) (demo.take n)).1 tr) (h : Prescribed (play ([], BWorld.init) (demo.take n)).1 tr op ev' l)
    (he : ((play ([], BWorld.init) (demo.take n)).2.step op).toOption.map (·.2) = some ev) : ev' = ev := by
  cases hs : (play ([], BWorld.init) (demo.take n)).2.step op with
  | error x => rw [hs] at he; cases he
  | ok r =>
    rw [hs] at he
    injection he with he
    subst he
    obtain ⟨_, _, l', h'⟩ := (C114_step (play_reach _ (r := ([], BWorld.init)) .init) hl op _).mp ⟨_, hs⟩
    exact (C114_determined h h').1

/-- … a sequence that ends together with its object, although a builder needs it, would not … -/
example (tr l : Trace Nat) (hl : Lawful (play ([], BWorld.init) (demo.take 9)).1 tr) :
    ¬ Prescribed (play ([], BWorld.init) (demo.take 9)).1 tr (.dropObject 0) [.sequenceDestroyed 0] l := by
  intro h
  have := demo_step (ev := []) hl h (by decide +kernel)
  simp at this

/-- … and neither would a sequence that is mentioned twice and accepted. -/
example (tr l : Trace Nat) (hl : Lawful (play ([], BWorld.init) (demo.take 5)).1 tr) :
    ¬ Prescribed (play ([], BWorld.init) (demo.take 5)).1 tr (.extend 1 (.sequences [1, 0])) [] l := by
  intro h
  have := demo_step (ev := [.rejected]) hl h (by decide +kernel)
  simp at this

/-- A builder that was moved from must not be used. -/
example (tr : Trace Nat) (hl : Lawful demoRun.1 tr) : ¬ Allowed demoRun.1 tr (.extend 0 (.times 1 1)) :=
  (C114_forbidden demo_reach hl _).1.mp ⟨_, rfl⟩

/-- The hypotheses of `C114_interchangeable` are met by the library itself. -/
example (btr : BTrace Nat Nat) :
    (∃ q, Runs (fun (q : BWorld Nat Nat) op => (q.step op).toOption) BWorld.init btr q) ↔ ∃ bw, BReach btr bw := by
  have hb : ∀ btr q, Runs (fun (q : BWorld Nat Nat) op => (q.step op).toOption) BWorld.init btr q → BReach btr q := by
    intro btr q h
    induction h with
    | init => exact .init
    | @step tr q q' op ev _ hs ih =>
      refine ih.step ?_
      cases hq : q.step op with
      | error x => rw [hq] at hs; cases hs
      | ok r => rw [hq] at hs; injection hs with hs; rw [hs]
  refine C114_interchangeable _ _ (fun btr tr q op h hl ha ht => ?_) (fun btr tr q op h hl hn => ?_) btr
  · obtain ⟨ev, l, hp⟩ := C114_complete hl ha ht
    obtain ⟨q', hs⟩ := (C114_step (hb _ _ h) hl op ev).mpr ⟨ha, ht, l, hp⟩
    exact ⟨q', ev, l, by simp [hs, Except.toOption], hp⟩
  · cases hq : q.step op with
    | error x => rfl
    | ok r =>
      obtain ⟨h1, h2, _⟩ := (C114_step (hb _ _ h) hl op r.2).mp ⟨r.1, hq⟩
      exact absurd ⟨h1, h2⟩ hn

end Builders

end Mimic
