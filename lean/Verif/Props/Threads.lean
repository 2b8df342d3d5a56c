import Verif.Proofs.Threads
import Verif.Proofs.Footprint
import Verif.Proofs.ThreadsComplete

/-!
# Threads with mocks and sequences of their own, and threads that share a lock (C73)

Every order of the threads' steps is covered, not only every order of their operations: a call can be interrupted after its match was
picked and after it was reported, the creation of an expectation before the expectation is stored, and so on.
-/

set_option autoImplicit false

namespace Mimic.Threads

open Parts (part)

variable {α ι : Type} [DecidableEq ι]

/-- C73: however the steps of the threads interleave, each thread whose mocks, sequences and expectations are its own sees exactly what it
sees alone. -/
theorem C73_alone (acts : List (ι × Act α)) (j : Joint ι α) (log : List (ι × Entry)) (h : Joint.init.run acts = .ok (j, log)) (i : ι) :
    ∃ w p logs, alone World.init .idle (part i acts) = .ok (w, p, logs) ∧ logs.map Log.seen = (part i log).map Entry.seen := by
  rcases run_threads (acts := acts) (well_init (ι := ι) (α := α)) with ⟨j', log', v', p', h1, _, _, _, h2⟩ | ⟨x, y, k, h1, _⟩
  · rw [h] at h1
    cases h1
    obtain ⟨logs, h3, h4⟩ := h2 i
    exact ⟨_, _, logs, h3, h4⟩
  · rw [h] at h1
    cases h1

/-- C73: nothing goes wrong together that does not go wrong alone: no assertion fails, no dead object is used, no sequence is invalid. -/
theorem C73_together (acts : List (ι × Act α)) (h : ∀ i, ∃ r, alone World.init .idle (part i acts) = .ok r) :
    ∃ r, (Joint.init : Joint ι α).run acts = .ok r := by
  rcases run_threads (acts := acts) (well_init (ι := ι) (α := α)) with ⟨j', log', v', p', h1, _⟩ | ⟨x, y, k, _, h2⟩
  · exact ⟨_, h1⟩
  · obtain ⟨r, hr⟩ := h k
    rw [hr] at h2
    cases h2

/-- C73: the memory that one thread writes is never read or written by another, in the whole run. -/
theorem C73_disjoint (acts : List (ι × Act α)) (j : Joint ι α) (log : List (ι × Entry)) (h : Joint.init.run acts = .ok (j, log))
    (i k : ι) (hik : i ≠ k) (x y : Entry) (hx : (i, x) ∈ log) (hy : (k, y) ∈ log) : ¬ Conflict x.log y.log := by
  rcases run_threads (acts := acts) (well_init (ι := ι) (α := α)) with ⟨j', log', v', p', h1, hw, _, h2, _⟩ | ⟨x, y, k, h1, _⟩
  · rw [h] at h1
    cases h1
    have h3 := h2 _ hx
    have h4 := h2 _ hy
    rintro ⟨l, ⟨h5, h6 | h6⟩ | ⟨h5, h6⟩⟩
    · exact own_disjoint hw hik (h3.2 l h5) (h4.1 l h6)
    · exact own_disjoint hw hik (h3.2 l h5) (h4.2 l h6)
    · exact own_disjoint hw hik (h3.1 l h5) (h4.2 l h6)
  · rw [h] at h1
    cases h1

/-- C73: so there is no data race, neither on mocks nor on sequences. -/
theorem C73_race_free (acts : List (ι × Act α)) (j : Joint ι α) (log : List (ι × Entry)) (h : Joint.init.run acts = .ok (j, log)) :
    ¬ Race (log.map fun x => (x.1, x.2.log)) := by
  rintro ⟨n, i, k, x, y, h1, h2, hik, hc, _⟩
  rw [List.getElem?_map, Option.map_eq_some_iff] at h1 h2
  obtain ⟨⟨i', x'⟩, h1, h3⟩ := h1
  obtain ⟨⟨k', y'⟩, h2, h4⟩ := h2
  simp only [Prod.mk.injEq] at h3 h4
  obtain ⟨rfl, rfl⟩ := h3
  obtain ⟨rfl, rfl⟩ := h4
  exact C73_disjoint acts j log h i' k' hik x' y' (List.mem_of_getElem? h1) (List.mem_of_getElem? h2) hc

/-- C73: and what a thread sees alone, step by step, is what the operations in one piece do. -/
theorem C73_sequential (acts : List (Act α)) (w : World α) (logs : List Log) (h : alone World.init .idle acts = .ok (w, .idle, logs)) :
    runProgram (acts.filterMap begins) = .ok (w, logs.flatMap Log.ev) := by
  have := alone_run (u0 := World.init) (op := none) (evs := []) (u := World.init) (p := .idle) ⟨rfl, rfl⟩ h
  simpa [runProgram] using this

/-- C73: all in all, the reports, creations and ends of objects of a thread that finished its last operation are those of its operations
carried out one after the other in a single-threaded program. -/
theorem C73_threads (acts : List (ι × Act α)) (j : Joint ι α) (log : List (ι × Entry)) (h : Joint.init.run acts = .ok (j, log)) (i : ι)
    (hi : j.state.phase i = .idle) :
    ∃ w, runProgram ((part i acts).filterMap begins) = .ok (w, (part i log).flatMap fun x => x.seen.1) := by
  rcases run_threads (acts := acts) (well_init (ι := ι) (α := α)) with ⟨j', log', v', p', h1, hw, _, _, h2⟩ | ⟨x, y, k, h1, _⟩
  · rw [h] at h1
    cases h1
    obtain ⟨logs, h3, h4⟩ := h2 i
    have hp := hw.phase i
    rw [hi] at hp
    generalize hq : p' i = q at hp h3
    cases hp
    refine ⟨v' i, ?_⟩
    rw [C73_sequential _ _ _ h3]
    have e1 : logs.flatMap Log.ev = (logs.map Log.seen).flatMap (·.1) := by rw [List.flatMap_map]; rfl
    have e2 : (part i log).flatMap (fun x => x.seen.1) = ((part i log).map Entry.seen).flatMap (·.1) := by rw [List.flatMap_map]
    rw [e1, e2, h4]
  · rw [h] at h1
    cases h1

/-- C73: threads may share mocks, sequences and expectations if a lock of the client's own keeps them from taking steps while another is
in the middle of an operation: the result is that of a single-threaded program. -/
theorem C73_locked (acts : List (ι × Act α)) (s : State ι α) (logs : List (ι × Log)) (h : State.init.run acts = .ok (s, logs))
    (hu : Undisturbed (State.init : State ι α) acts) (hi : ∀ i, s.phase i = .idle) :
    runProgram (acts.filterMap fun a => begins a.2) = .ok (s.world, logs.flatMap fun x => x.2.ev) := by
  cases acts with
  | nil =>
    simp only [State.run, Except.ok.injEq, Prod.mk.injEq] at h
    obtain ⟨rfl, rfl⟩ := h
    rfl
  | cons a acts =>
    have h1 := undisturbed_alone (p := .idle) ⟨a.1, rfl, fun _ _ => rfl⟩ hu h hi
    have h2 := C73_sequential _ _ _ h1
    rw [List.filterMap_map, List.flatMap_map] at h2
    exact h2

/-- C73: the memory that the steps name is really all that matters: a step changes nothing but what it writes. -/
theorem C73_writes (w w' : World α) (p p' : Phase) (a : Act α) (log : Log) (h : step w p a = .ok (w', p', log)) (l : Loc)
    (hl : l ∉ log.writes) : Same w w' l :=
  (sound_step h).1 l hl

/-- C73: and it does and shows the same in any other world that only agrees with this one in what the step reads and writes. -/
theorem C73_reads (w w' : World α) (p p' : Phase) (a : Act α) (log : Log) (h : step w p a = .ok (w', p', log)) (v : World α)
    (ha : Alike w v) (hs : ∀ l, l ∈ log.reads ∨ l ∈ log.writes → Same w v l) :
    ∃ v', step v p a = .ok (v', p', log) ∧ (∀ l ∈ log.writes, Same w' v' l) ∧ Alike w' v' :=
  (sound_step h).2 v ha hs

/-- C73: the list of expectations of a mock is never accessed without the mock's lock, once the mock exists. -/
theorem C73_storages (w w' : World α) (p p' : Phase) (a : Act α) (log : Log) (h : step w p a = .ok (w', p', log)) (c : Nat)
    (hc : .storage c ∈ log.reads ∨ .storage c ∈ log.writes) : log.mutex = some c ∨ c = w.colls.length :=
  storage_locked h c hc

/-- C73: asking whether an expectation is satisfied tells whether withdrawing it at this point would be reported. -/
theorem C73_query (w : World α) (e : Nat) (r r' : World α × Phase × Log) (h : step w .idle (.query e) = .ok r)
    (h' : step w .idle (.remove e) = .ok r') : r.1 = w ∧ ∃ b, r.2.2.answer = some b ∧ (b = true ↔ .unfulfilled e ∉ r'.2.2.ev) := by
  obtain ⟨x, h1, h2⟩ := query_answer h
  obtain ⟨y, h3, h4⟩ := remove_verdict h'
  rw [h1] at h3
  cases h3
  exact ⟨h2.1, x.isSatisfied, h2.2, by rw [h4]; cases x.isSatisfied <;> simp⟩

/-- C73: every program for a single thread can be made in such steps, with the same result. -/
theorem C73_steps (ops : List (Op α)) (w : World α) (evs : List Event) (h : runProgram ops = .ok (w, evs)) :
    ∃ acts logs, acts.filterMap begins = ops ∧ alone World.init .idle acts = .ok (w, .idle, logs) ∧ logs.flatMap Log.ev = evs :=
  program_steps h

/-- C73: so, programs that are fine for a single thread each can be run by threads side by side, interrupting each other after any of their
steps: whatever the schedule, nothing goes wrong, and a thread that has come to its end has seen exactly what its program shows alone. -/
theorem C73_programs (prog : ι → List (Op α)) (evs : ι → List Event) (h : ∀ i, ∃ w, runProgram (prog i) = .ok (w, evs i)) :
    ∃ steps : ι → List (Act α), (∀ i, (steps i).filterMap begins = prog i) ∧
      ∀ acts : List (ι × Act α), (∀ i, part i acts <+: steps i) →
        ∃ j log, Joint.init.run acts = .ok (j, log) ∧
          ∀ i, part i acts = steps i → (part i log).flatMap (fun x => x.seen.1) = evs i := by
  have h1 : ∀ i, ∃ acts : List (Act α), acts.filterMap begins = prog i ∧
      ∃ w logs, alone World.init .idle acts = .ok (w, .idle, logs) ∧ logs.flatMap Log.ev = evs i := by
    intro i
    obtain ⟨w, hw⟩ := h i
    obtain ⟨acts, logs, h2, h3, h4⟩ := C73_steps _ _ _ hw
    exact ⟨acts, h2, w, logs, h3, h4⟩
  refine ⟨fun i => (h1 i).choose, fun i => (h1 i).choose_spec.1, fun acts hp => ?_⟩
  have h2 : ∀ i, ∃ r, alone World.init .idle (part i acts) = .ok r := by
    intro i
    obtain ⟨rest, hr⟩ := hp i
    obtain ⟨_, w, logs, h3, _⟩ := (h1 i).choose_spec
    exact alone_prefix (bs := rest) ⟨_, by rw [hr]; exact h3⟩
  obtain ⟨⟨j, log⟩, hj⟩ := C73_together acts h2
  refine ⟨j, log, hj, fun i hi => ?_⟩
  obtain ⟨w, p, logs, h3, h4⟩ := C73_alone acts j log hj i
  obtain ⟨_, w', logs', h5, h6⟩ := (h1 i).choose_spec
  rw [hi] at h3
  rw [h3] at h5
  simp only [Except.ok.injEq, Prod.mk.injEq] at h5
  obtain ⟨_, _, rfl⟩ := h5
  rw [← h6]
  have h7 : (logs.map Log.seen).flatMap Prod.fst = ((part i log).map Entry.seen).flatMap Prod.fst := by rw [h4]
  simpa [List.flatMap_map, Log.seen] using h7.symm

/-! ## Concrete cases -/

namespace Examples

/-- Accepts calls with the number `n`. -/
def is (n : Nat) : Policy Nat := { accepts := fun a => some (a == n) }

/-- A test with a sequence of two expectations and two calls. -/
def test : List (Act Nat) :=
  [.newSequence .lazy, .newMock, .attach 0 1 1 [0] [is 1], .push, .attach 0 1 1 [0] [is 2], .push,
    .scan 0 1, .report, .consume, .query 0, .query 1, .scan 0 2, .report, .consume,
    .remove 1, .release, .remove 0, .release, .dropSequence 0]

/-- Two threads, each in the middle of an operation of its own when the other takes a step. -/
def both : List (Bool × Act Nat) := test.flatMap fun a => [(false, a), (true, a)]

/-- The test as a program for a single thread. -/
def ops : List (Op Nat) := test.filterMap begins

example : ((runProgram ops).toOption).map (·.2) = some
    [.sequenceCreated 0 .lazy, .mockCreated 0, .created 0, .created 1, .fullMatch 0, .fullMatch 1, .destroyed 1, .destroyed 0,
      .sequenceDestroyed 0] := by decide +kernel

def seen (i : Bool) : Option (List (List Event × Option Bool)) := ((Joint.init.run both).toOption).map fun r => (part i r.2).map Entry.seen

example : part true both = test ∧ part false both = test := ⟨rfl, rfl⟩

example : seen true = some
    [([.sequenceCreated 0 .lazy], none), ([.mockCreated 0], none), ([.created 0], none), ([], none), ([.created 1], none), ([], none),
      ([], none), ([.fullMatch 0], none), ([], none), ([], some true), ([], some false), ([], none), ([.fullMatch 1], none), ([], none),
      ([.destroyed 1], none), ([], none), ([.destroyed 0], none), ([], none), ([.sequenceDestroyed 0], none)] ∧
    seen false = seen true := by decide +kernel

example : (∀ i, ((Joint.init.run both).toOption).map (fun r => r.1.state.phase i) = some .idle) := by decide +kernel

/-- The sequence of another thread is not protected by the lock of one's own mock: both threads have a mock of their own but use the same
sequence, and one consumes an expectation while the other looks for a match. -/
def shared : List (Bool × Act Nat) :=
  [(false, .newSequence .lazy), (false, .newMock), (false, .newMock), (false, .attach 0 1 1 [0] [is 1]), (false, .push),
    (false, .attach 1 1 1 [0] [is 2]), (false, .push), (false, .scan 0 1), (false, .report), (false, .consume), (true, .scan 1 2)]

/-- What the steps of a call access: another world may differ in everything that belongs to the other mock's expectation. -/
def world (n : Nat) (other : Int) : World Nat :=
  ((runProgram [.newSequence .lazy, .newMock, .newMock, .expect 0 1 n [0] [is 1], .expect 1 0 other [] [is 2]]).toOption.map (·.1)).getD .init

example : ((step (world 2 3) .idle (.scan 0 1)).toOption.map fun r => r.2) =
    some (.matched 0, { reads := [.storage 0, .exp 0, .seq 0], mutex := some 0 }) := by decide +kernel

example : ((step (world 2 3) (.reported 0) .consume).toOption.map fun r => r.2) =
    some (.idle, { reads := [.exp 0, .seq 0], writes := [.exp 0, .seq 0] }) := by decide +kernel

example : Alike (world 2 3) (world 2 9) ∧ (∀ l ∈ [Loc.storage 0, .exp 0, .seq 0], Same (world 2 3) (world 2 9) l) ∧
    ((world 2 3).exps.map (·.control.max)) ≠ ((world 2 9).exps.map (·.control.max)) := by
  refine ⟨⟨rfl, rfl, rfl, fun s => rfl, fun s => rfl⟩, ?_, by decide +kernel⟩
  intro l hl
  simp only [List.mem_cons, List.not_mem_nil, or_false] at hl
  rcases hl with rfl | rfl | rfl <;> rfl

/-- A test in which the threads share everything but do not disturb each other: the first prepares, both call, the second cleans up. -/
def taking : List (Bool × Act Nat) :=
  (test.take 6).map (fun a => (false, a)) ++ ((test.drop 6).take 3).map (fun a => (true, a)) ++ ((test.drop 9).take 5).map (fun a => (false, a)) ++
    (test.drop 14).map (fun a => (true, a))

/-- Whether no thread disturbs the other. -/
def calm (s : State Bool Nat) : List (Bool × Act Nat) → Bool
  | [] => true
  | (i, a) :: as =>
    s.phase (!i) == .idle &&
      match s.step i a with
      | .ok r => calm r.1 as
      | .error _ => true

theorem undisturbed_of_calm {acts : List (Bool × Act Nat)} {s : State Bool Nat} (h : calm s acts = true) : Undisturbed s acts := by
  induction acts generalizing s with
  | nil => trivial
  | cons a acts ih =>
    obtain ⟨i, a⟩ := a
    simp only [calm, Bool.and_eq_true, beq_iff_eq] at h
    refine ⟨fun k hk => ?_, fun s' log hs => ?_⟩
    · cases i <;> cases k <;> simp_all
    · rw [hs] at h
      exact ih h.2

example : Undisturbed (State.init : State Bool Nat) taking := undisturbed_of_calm (by decide +kernel)

example : ((State.init : State Bool Nat).run taking).toOption.map (fun r => (r.1.phase true, r.1.phase false, r.2.flatMap fun x => x.2.ev)) =
    some (.idle, .idle, [.sequenceCreated 0 .lazy, .mockCreated 0, .created 0, .created 1, .fullMatch 0, .fullMatch 1, .destroyed 1,
      .destroyed 0, .sequenceDestroyed 0]) := by decide +kernel

/-- Without the lock, sharing a mock is not enough to be like a single-threaded program: two calls pick the only expectation, which allows
one call, before either consumes it. -/
def overrun : List (Bool × Act Nat) :=
  [(false, .newMock), (false, .attach 0 1 1 [] [is 1]), (false, .push), (false, .scan 0 1), (true, .scan 0 1), (false, .report),
    (false, .consume), (true, .report)]

example : ((State.init : State Bool Nat).run overrun).toOption.map (fun r => r.2.flatMap fun x => x.2.ev) =
    some [.mockCreated 0, .created 0, .fullMatch 0, .fullMatch 0] := by decide +kernel

end Examples

/-- C73: threads that share a sequence race, even if their mocks are their own, unless a lock of the client's own orders them. -/
theorem C73_shared_sequence : ∃ s logs, (State.init : State Bool Nat).run Examples.shared = .ok (s, logs) ∧ Race logs := by
  refine ⟨_, _, rfl, 9, false, true, _, _, rfl, rfl, by decide, ⟨.seq 0, ?_⟩, .inl rfl⟩
  exact .inl ⟨by decide +kernel, .inl (by decide +kernel)⟩

end Mimic.Threads
