import Verif.Proofs.TestScopes
import Verif.Proofs.Demo

/-!
# What the result of a test says (C58)
-/

set_option autoImplicit false

namespace Mimic.TestRun

variable {α : Type}

/-- C58: a test that runs to its end performs a history of the library's operations; afterwards every expectation it has
created is withdrawn, exactly once. -/
theorem C58_history {k : Installed} {p : Prog α} {t : Env α} {x : Option Thrown} (h : test k p = .ok (t, x)) :
    SReach t.past t.sw ∧ (∀ o, ¬ t.past.exists o) ∧
    ∀ e d, t.past.flat.decl e = some d → t.past.flat.events.count (.destroyed e) = 1 := by
  have hr := exec_reach h .init
  have hn : ∀ o, ¬ t.past.exists o := by
    intro o
    rw [hr.inv.exists_, exec_slots h o]
    simp [Env.start, SWorld.init, slotAlive]
  exact ⟨hr, hn, fun e d hd => (C37_once hr e).2 hn ⟨d, hd⟩⟩

/-- C58: at the end, no sequence is left. -/
theorem C58_sequences {k : Installed} {p : Prog α} {t : Env α} {x : Option Thrown} (h : test k p = .ok (t, x)) (s : Nat) :
    ¬ t.past.flat.handle s := by
  intro hs
  have := ((exec_reach h .init).inv.reach.view.2.hasHandle_iff s).mpr hs
  rw [abs_hasHandle, exec_handles .init h] at this
  simp [Env.start, SWorld.init, World.init, World.hasHandle] at this

/-- C58: a test never runs into undefined behaviour. -/
theorem C58_defined (k : Installed) (p : Prog α) (why : String) : test k p ≠ .error (.ub why) :=
  fun h => exec_defined .init h why rfl

/-- C58: a program can only be wrong in the operations that it names: the ends of its blocks only use what exists. -/
theorem C58_misuse {k : Installed} {p : Prog α} {why : String} (h : test k p = .error (.client why)) :
    ∃ op, Uses p op ∧ ∃ (t : Env α) (u : Nat), SReach t.past t.sw ∧ t.perform u op = .error (.client why) :=
  exec_misuse .init h

/-- A test that leaves nothing out of order: sequences, expectations and blocks end as they should. -/
example : ∃ t, test (.adapter .catch2) (.seq .mock (.sequence .lazy (.sequence .greedy (.expectation 0 1 1 [0, 1] [] (.seq (.call 0 0)
    (.moved 0 .skip)))))) = .ok (t, none) := ⟨_, rfl⟩

/-- A test that uses a sequence after its end. -/
example : ∃ why, test (.adapter .catch2) (.seq .mock (.seq (.sequence .lazy .skip) (.expectation 0 1 1 [0] [] (.call 0 0)))) =
    .error (.client why) := ⟨_, rfl⟩

/-- C58: with the adapters, the framework records exactly one failure for everything that goes wrong, except for
expectations that end while an exception is on its way. -/
theorem C58_failures {f : Framework} {p : Prog α} (hp : ∀ k, Installs p k → ∃ f, k = .adapter f) {t : Env α} {x : Option Thrown}
    (h : test (.adapter f) p = .ok (t, x)) :
    ∃ vs, OldestFirst (fun i => Violation t.past i ∧ ¬ Hidden t.past i) vs ∧ t.notes.count .failed = vs.length :=
  (exec_counted hp h (.start f)).count

/-- C58: with the adapters for Catch2, Doctest and GoogleTest, each call that is resolved counts as one assertion that holds. -/
theorem C58_assertions {f : Framework} (hf : f ≠ .boostTest) {p : Prog α} (hp : ∀ k, Installs p k → ∃ f, k = .adapter f ∧ f ≠ .boostTest)
    {t : Env α} {x : Option Thrown} (h : test (.adapter f) p = .ok (t, x)) :
    t.notes.count .passed = t.past.flat.events.countP isFullMatch :=
  exec_notes (Q := fun f => f ≠ .boostTest) (fun _ hf => noted_passed hf) hp hf h

/-- C58: with the adapters for Catch2 and Doctest, the messages are those about exceptions of what the client supplied. -/
theorem C58_messages {f : Framework} (hf : f = .catch2 ∨ f = .doctest) {p : Prog α}
    (hp : ∀ k, Installs p k → ∃ f, k = .adapter f ∧ (f = .catch2 ∨ f = .doctest))
    {t : Env α} {x : Option Thrown} (h : test (.adapter f) p = .ok (t, x)) :
    t.notes.count .message = t.past.flat.events.countP isUnhandled :=
  exec_notes (Q := fun f => f = .catch2 ∨ f = .doctest) (fun _ hf => noted_message hf) hp hf h

theorem passed_ok {r : M (Env α × Option Thrown)} (h : passed r = true) : ∃ t, r = .ok (t, none) ∧ .failed ∉ t.notes := by
  unfold passed at h
  split at h
  · rename_i t
    exact ⟨t, rfl, by simpa using h⟩
  · simp at h

/-- C58: with the adapters, nothing that goes wrong escapes, whatever handlers there are, unless an expectation ends while an
exception is on its way. -/
theorem C58_noticed {f : Framework} {p : Prog α} (hp : ∀ k, Installs p k → ∃ f, k = .adapter f)
    (h : passed (test (.adapter f) p) = true) :
    ∃ t, test (.adapter f) p = .ok (t, none) ∧ (∀ i, Violation t.past i → Hidden t.past i) ∧
      ∀ (i : Nat) st m a, t.past[i]? = some st → st.op = .plain (.call m a) →
        ∃ e, STrace.flat (t.past.take i) |>.candidate m a e := by
  obtain ⟨t, ht, hn⟩ := passed_ok h
  obtain ⟨vs, ⟨_, hv⟩, hc⟩ := C58_failures hp ht
  rw [List.count_eq_zero.mpr hn] at hc
  have hno : ∀ i, ¬ (Violation t.past i ∧ ¬ Hidden t.past i) := by
    intro i hi
    have := (hv i).mpr hi
    rw [List.eq_nil_of_length_eq_zero hc.symm] at this
    simp at this
  have hall : ∀ i, Violation t.past i → Hidden t.past i :=
    fun i hi => Classical.byContradiction fun hh => hno i ⟨hi, hh⟩
  refine ⟨t, ht, hall, fun i st m a hi hop => Classical.byContradiction fun hc => ?_⟩
  obtain ⟨st', hi', hne, _⟩ := hall i ⟨st, hi, .call hop (fun e he => hc ⟨e, he⟩)⟩
  rw [hi] at hi'
  simp only [Option.some.injEq] at hi'
  exact hne m a (hi' ▸ hop)

/-- If nothing went wrong, everything that was expected happened. -/
theorem clean_met {k : Installed} {p : Prog α} {t : Env α} {x : Option Thrown} (h : test k p = .ok (t, x)) (hc : Clean t.past)
    {e : Nat} {d : Decl α} (hd : t.past.flat.decl e = some d) : Met t.past.flat e d := by
  obtain ⟨hr, _, h1⟩ := C58_history h
  have hdes : Event.destroyed e ∈ t.past.flat.events := by
    have := h1 e d hd
    exact List.count_pos_iff.mp (by omega)
  have hu : ¬ t.past.flat.unmet e := by
    intro hu
    obtain ⟨i, hi, _⟩ := unmet_violation hr hdes hu
    exact hc i hi
  have hmax := C02_upper_limit hr.inv.reach hd
  refine ⟨?_, hmax, fun q hq => ?_⟩
  · apply Classical.byContradiction
    intro hlt
    exact hu ⟨d, hd, Or.inl (by omega)⟩
  · apply Classical.byContradiction
    intro hf
    exact hu ⟨d, hd, Or.inr ⟨q, hq, by simpa using hf⟩⟩

/-- C58, for tests that catch no exceptions: whatever reporters are installed, a test that passes has called mocks only as
expected, and everything that was expected has happened.

Missing for tests with handlers: see `C58_hidden` and `C58_default_swallows`. -/
theorem C58_passed_partial {k : Installed} {p : Prog α} (hp : p.catchless) (h : passed (test k p) = true) :
    ∃ t, test k p = .ok (t, none) ∧ Clean t.past ∧ ∀ e d, t.past.flat.decl e = some d → Met t.past.flat e d := by
  obtain ⟨t, ht, hn⟩ := passed_ok h
  have hq := exec_quiet hp ht (fun st => st.ctx.uncaught = 0 ∧ st.log.exn = none) (fun st h1 h2 => ⟨h1, h2⟩)
    (by simp [Env.start])
  have hl := exec_lawful ht (by simp [Env.start])
  obtain ⟨hr, _⟩ := C58_history ht
  have hc : Clean t.past := by
    rintro i ⟨st, hi, hv⟩
    have hm := List.mem_of_getElem? hi
    obtain ⟨q1, q2⟩ := hq st hm
    obtain ⟨sw₁, sw₂, h1, h2⟩ := reach_step hr hi
    obtain ⟨_, _, _, _, e5, _⟩ := step_exn h1 (hl st hm) h2
    exact e5 q2 q1 hv
  exact ⟨t, ht, hc, fun e d hd => clean_met ht hc hd⟩

/-- C58, for tests with handlers: with the adapters, the same holds if no exceptions are thrown but those of the library and
the limits of the expectations are sensible. So it does not matter whether the code under test swallows exceptions.

Missing: tests in which exceptions of the client are on their way, see `C58_hidden`. -/
theorem C58_swallowed_partial {f : Framework} {p : Prog α} (hp : ∀ k, Installs p k → ∃ f, k = .adapter f) (hth : p.throwless)
    (h : passed (test (.adapter f) p) = true) :
    ∃ t, test (.adapter f) p = .ok (t, none) ∧ ((∀ st ∈ t.past, Sensible st) → Clean t.past ∧
      ∀ e d, t.past.flat.decl e = some d → Met t.past.flat e d) := by
  obtain ⟨t, ht, hall, _⟩ := C58_noticed hp h
  refine ⟨t, ht, fun hs => ?_⟩
  have hl := exec_lawful ht (by simp [Env.start])
  obtain ⟨hr, _⟩ := C58_history ht
  have hno : ¬ Threw t.past := by
    rintro ⟨st, hst, hx⟩
    rcases exn_violation hr hl hst hx with ⟨i, h1, h2⟩ | ⟨_, h2⟩
    · exact h2 (hall i h1)
    · exact h2 (hs st hst)
  obtain ⟨h1, _⟩ := exec_throwless hth ht (by simp) (by simp [Env.start])
  have hc : Clean t.past := by
    intro i hi
    obtain ⟨st, hst, _, hne⟩ := hall i hi
    exact hno (h1 ⟨st, List.mem_of_getElem? hst, hne⟩)
  exact ⟨hc, fun e d hd => clean_met ht hc hd⟩

/-- C58: no false alarms. If nothing goes wrong, no failure is recorded, and the library throws nothing, except for
`std::invalid_argument` about limits or sequences that make no sense. -/
theorem C58_no_false_alarm {k : Installed} {p : Prog α} {t : Env α} {x : Option Thrown} (h : test k p = .ok (t, x))
    (hc : Clean t.past) :
    .failed ∉ t.notes ∧ (∀ st ∈ t.past, st.log.exn ≠ none → st.log.exn = some .invalidArgument ∧ ¬ Sensible st) ∧
    ((∀ st ∈ t.past, Sensible st) → x = none ∨ ∃ n, x = some (.other n)) := by
  obtain ⟨hr, _⟩ := C58_history h
  have hl := exec_lawful h (by simp [Env.start])
  have key : ∀ st ∈ t.past, st.log.exn ≠ none → st.log.exn = some .invalidArgument ∧ ¬ Sensible st := by
    intro st hst hx
    rcases exn_violation hr hl hst hx with ⟨i, h1, _⟩ | h1
    · exact absurd h1 (hc i)
    · exact h1
  refine ⟨fun hf => ?_, key, fun hs => ?_⟩
  · obtain ⟨i, hi⟩ := exec_recorded h .init (by simp [Env.start]) hf
    exact hc i hi
  · cases x with
    | none => exact Or.inl rfl
    | some y =>
      cases y with
      | other n => exact Or.inr ⟨n, rfl⟩
      | library y =>
        obtain ⟨st, hst, hx⟩ := exec_origin h
        exact absurd (hs st hst) (key st hst (by simp [hx])).2

/-- C58: a test that does not catch exceptions, does not throw any and has sensible limits passes exactly if nothing goes
wrong. -/
theorem C58_verdict {k : Installed} {p : Prog α} (hp : p.catchless) (hth : p.throwless) {t : Env α} {x : Option Thrown}
    (h : test k p = .ok (t, x)) (hs : ∀ st ∈ t.past, Sensible st) : passed (test k p) = true ↔ Clean t.past := by
  constructor
  · intro hpass
    obtain ⟨t', ht', hc, _⟩ := C58_passed_partial hp hpass
    rw [h] at ht'
    simp only [Except.ok.injEq, Prod.mk.injEq] at ht'
    exact ht'.1 ▸ hc
  · intro hc
    obtain ⟨h1, h2, _⟩ := C58_no_false_alarm h hc
    have hx : x = none := by
      apply Classical.byContradiction
      intro hne
      obtain ⟨_, h3⟩ := exec_throwless hth h (by simp) (by simp [Env.start])
      obtain ⟨st, hst, h4⟩ := h3 hne
      exact (h2 st hst h4).2 (hs st hst)
    subst hx
    rw [h]
    simpa [passed] using h1

/-! ## What passes nevertheless -/

/-- A test whose expectation is never met, but an exception is on its way when the expectation ends, and is caught:
`try { ScopedExpectation e = ...; throw 0; } catch (...) {}`. -/
def hiddenTest : Prog Nat :=
  .seq .mock (.attempt (fun _ => true) (.expectation 0 1 1 [] [] (.throw 0)) .skip)

/-- C58 does not hold in general: with every reporter this test passes. -/
theorem C58_hidden (k : Installed) :
    passed (test k hiddenTest) = true ∧ ∃ t, test k hiddenTest = .ok (t, none) ∧ Violation t.past 2 ∧ ¬ Clean t.past := by
  have hv : ∃ t, test k hiddenTest = .ok (t, none) ∧ .failed ∉ t.notes ∧ Violation t.past 2 := by
    have key : ∀ k : Installed, ((test k hiddenTest).toOption.map fun r => (r.2, r.1.notes, r.1.past.map fun st => (st.op matches .drop 0))) =
        some (none, [], [false, false, true]) := by
      intro k
      cases k with
      | default out => cases out <;> rfl
      | adapter f => cases f <;> rfl
    have hk := key k
    cases hr : test k hiddenTest with
    | error x => rw [hr] at hk; simp [Except.toOption] at hk
    | ok r =>
      obtain ⟨t, x⟩ := r
      rw [hr] at hk
      simp only [Except.toOption, Option.map_some, Option.some.injEq, Prod.mk.injEq] at hk
      obtain ⟨rfl, hn, _⟩ := hk
      refine ⟨t, rfl, by simp [hn], ?_⟩
      obtain ⟨hreach, _, hdes⟩ := C58_history hr
      have hfacts : ∃ c c' c'' log log' log'', t.past = [⟨c, .plain .newMock, log⟩, ⟨c', .expect 0 1 1 [] [], log'⟩, ⟨c'', .drop 0, log''⟩] ∧
          log.slot = none ∧ log.lib = [(.newMock, [.mockCreated 0])] ∧ log'.slot = some 0 ∧
          log'.lib = [(.expect 0 1 1 [] [], [.created 0])] := by
        cases k with
        | default out =>
          cases out <;>
          · have : test _ hiddenTest = .ok (t, none) := hr
            simp only [test, hiddenTest] at this
            injection this with this
            injection this with this _
            rw [← this]
            exact ⟨_, _, _, _, _, _, rfl, rfl, rfl, rfl, rfl⟩
        | adapter f =>
          cases f <;>
          · have : test _ hiddenTest = .ok (t, none) := hr
            simp only [test, hiddenTest] at this
            injection this with this
            injection this with this _
            rw [← this]
            exact ⟨_, _, _, _, _, _, rfl, rfl, rfl, rfl, rfl⟩
      obtain ⟨c, c', c'', log, log', log'', hp, hl1, hl2, hl3, hl4⟩ := hfacts
      refine ⟨⟨c'', .drop 0, log''⟩, by rw [hp]; rfl, .unmet (o := 0) (e := 0) ?_ ?_ (Or.inl rfl)⟩
      · rw [hp]
        simp [STrace.owns, OwnsRev, SEntry.creates, hl3, hl4, Trace.events]
      · rw [hp]
        refine ⟨⟨0, 1, 1, [], []⟩, ?_, ?_⟩
        · simp [STrace.flat, hl2, hl4, Trace.decl]
        · left
          simp [STrace.flat, hl2, hl4, Trace.matched, Trace.events]
  obtain ⟨t, h1, h2, h3⟩ := hv
  exact ⟨by rw [h1]; simpa [passed] using h2, t, h1, h3, fun hc => hc 2 h3⟩

/-- A test whose code under test calls a mock that expects nothing, and swallows all exceptions. -/
def swallowingTest : Prog Nat := .seq .mock (.attempt (fun _ => true) (.call 0 7) .skip)

/-- C58 needs the adapters: with the reporter of the library itself the test passes, with the adapters it fails. -/
theorem C58_default_swallows (out : Bool) (f : Framework) :
    passed (test (.default out) swallowingTest) = true ∧ passed (test (.adapter f) swallowingTest) = false := by
  constructor
  · cases out <;> rfl
  · cases f <;> rfl

/-- A test with a matcher that throws. -/
def throwingTest : Prog Nat :=
  .seq .mock (.expectation 0 0 1 [] [] (.expectation 0 0 1 [] [throwing] (.call 0 7)))

/-- C58: that a matcher threw is told by all frameworks but GoogleTest. -/
theorem C58_gtest_silent (f : Framework) :
    (∃ t, test (.adapter f) throwingTest = .ok (t, none) ∧ Event.unhandled 1 ∈ t.past.flat.events ∧
      (Note.message ∈ t.notes ↔ f ≠ .gtest)) := by
  cases f <;> exact ⟨_, rfl, by decide, by decide⟩

/-! ## Non-vacuity -/

/-- Two expectations, in a sequence, with a call during a cleanup. -/
def goodTest : Prog Nat :=
  .seq .mock (.sequence .lazy (.expectation 0 1 1 [0] [onlyArg 1] (.expectation 0 1 2 [0] [] (.guard (.call 0 2) (.call 0 1)))))

/-- `C58_passed_partial`, `C58_verdict`, `C58_no_false_alarm`: such a test passes with every reporter. -/
example (k : Installed) : passed (test k goodTest) = true ∧ goodTest.catchless ∧ goodTest.throwless := by
  refine ⟨?_, by simp [goodTest, Prog.catchless], by simp [goodTest, Prog.throwless]⟩
  cases k with
  | default out => cases out <;> rfl
  | adapter f => cases f <;> rfl

/-- The same without the call during the cleanup fails with every reporter. -/
example (k : Installed) : passed (test k (.seq .mock (.sequence .lazy (.expectation 0 1 1 [0] [onlyArg 1]
    (.expectation 0 1 2 [0] [] (.call 0 1)))))) = false := by
  cases k with
  | default out => cases out <;> rfl
  | adapter f => cases f <;> rfl

/-- `C58_noticed`, `C58_swallowed_partial`: a test with a handler that passes, and one that is found out although everything is
swallowed. -/
example (f : Framework) :
    passed (test (.adapter f) (.seq .mock (.attempt (fun _ => true) (.expectation 0 1 1 [] [] (.call 0 1)) .skip) : Prog Nat)) = true ∧
    passed (test (.adapter f) (.seq .mock (.attempt (fun _ => true) (.expectation 0 1 1 [] [] .skip) .skip) : Prog Nat)) = false := by
  cases f <;> exact ⟨rfl, rfl⟩

/-- `C58_failures`: two failures are recorded. -/
example (f : Framework) : ((test (.adapter f) (.seq swallowingTest (.seq (.attempt (fun _ => true) (.call 0 7) .skip)
    hiddenTest))).toOption.map fun r => r.1.notes.count .failed) = some 2 := by
  cases f <;> rfl

/-- `C58_assertions`: two calls are resolved. -/
example : ((test (.adapter .catch2) (.seq .mock (.expectation 0 1 2 [] [] (.seq (.call 0 (7 : Nat)) (.call 0 8))))).toOption.map
    fun r => (r.1.notes.count .passed, r.1.past.flat.events.countP isFullMatch)) = some (2, 2) := by
  rfl

/-- `C58_messages`: a matcher throws. -/
example : ((test (.adapter .doctest) throwingTest).toOption.map
    fun r => (r.1.notes.count .message, r.1.past.flat.events.countP isUnhandled)) = some (1, 1) := by
  rfl

end Mimic.TestRun
