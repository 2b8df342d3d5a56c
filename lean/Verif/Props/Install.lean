import Verif.Proofs.Install

/-!
# C83: which reporter is in force, and for how long
-/

set_option autoImplicit false

namespace Mimic.Install

/-- A report is made to one reporter: the one that was installed last, or a default one. That reporter is alive, and if something was
reported or installed before, it is not made for this report. -/
theorem C83_report (ops : List Op) (s : State) (hr : State.init.run ops = (none, s)) :
    ∃ k b s', s.report = some (b, s') ∧ s'.reporters[k]? = some (current ops) ∧ .dying k ∉ s'.log ∧
      (s'.log = s.log ++ [.gets k] ∨ used ops = false ∧ s'.log = s.log ++ [.made k, .set k, .gets k]) := by
  have hq : Quiet ops := Classical.byContradiction fun hn => by
    obtain ⟨s', h⟩ := run_loud hn
    rw [hr] at h
    cases h
  obtain ⟨s0, h1, h2⟩ := run_quiet hq
  rw [hr] at h1
  cases h1
  obtain ⟨k, b, s', h3, h4, h5, h6, h7⟩ := report_spec h2
  exact ⟨k, b, s', h3, h5, (h4.inv.force k h6).2.2, h7⟩

/-- Whatever a program does, until its very end: reports are made only to the reporter in force; a reporter that gets a report has been
made and has not been destroyed; no reporter is destroyed twice, and before the end of the program only one that has been replaced. -/
theorem C83_log (ops : List Op) : Sound (program ops).2 := by
  obtain ⟨l, h1, h2⟩ := Inv.run ops Inv.init
  unfold program
  cases hr : State.init.run ops with
  | mk r s =>
    rw [hr] at h1 h2
    cases r with
    | some x => exact h1.sound
    | none =>
      cases h2 rfl
      exact (Inv.unwind s.statics (h1.idle (e := .exit) trivial) (by simp [State.say])).sound

/-- When the program has come to its regular end, every reporter ever made has been destroyed. -/
theorem C83_destroyed (ops : List Op) (log : List Ev) (h : program ops = (none, log)) (k : Nat) :
    .made k ∈ log ↔ .dying k ∈ log := by
  have hq : Quiet ops := Classical.byContradiction fun hn => by
    obtain ⟨s', h'⟩ := run_loud hn
    unfold program at h
    rw [h'] at h
    cases h
  obtain ⟨s, h1, h2⟩ := run_quiet hq
  rw [program_quiet h1, Prod.mk.injEq] at h
  have h3 := h2.idle (e := .exit) trivial
  have hi := Inv.unwind s.statics h3.inv (by simp [State.say])
  have hn := unwind_not_holds s.statics (s := s.say .exit) (s' := ((s.say .exit).unwind s.statics).2) (by rw [← h.1])
    (fun k hk => h2.slot_mem hk)
  rw [← h.2]
  constructor
  · intro hm
    rcases hi.alive k ((hi.made k).mp hm) with h | h | h
    · exact h
    · exact absurd h (hn k)
    · cases h
  · exact fun hd => (hi.made k).mpr (hi.dead k hd)

/-- If the constructor of the new reporter throws, `install_reporter` changes nothing: no reporter is destroyed, and the same reporter
stays in force. -/
theorem C83_failed (ops : List Op) (s : State) (hr : State.init.run ops = (none, s)) (c : Cls)
    (hc : accepted (current ops) c = false) :
    ∃ s', s.install c = (none, s') ∧ (∀ k, .dying k ∈ s'.log ↔ .dying k ∈ s.log) ∧
      (used ops = true → s'.slot = s.slot) ∧ current (ops ++ [.install c]) = current ops := by
  have hq : Quiet ops := Classical.byContradiction fun hn => by
    obtain ⟨s', h⟩ := run_loud hn
    rw [hr] at h
    cases h
  obtain ⟨s0, h1, h2⟩ := run_quiet hq
  rw [hr] at h1
  cases h1
  obtain ⟨s', h3, h4, h5⟩ := install_refused h2 hc
  refine ⟨s', h3, h5, fun hu => ?_, by rw [current_snoc]; simp [hc]⟩
  cases hs : s.slot with
  | gone => exact absurd hs h2.gone
  | fresh => rw [(h2.fresh hs).1] at hu; cases hu
  | holds k =>
    obtain ⟨s1, h6, h7, _⟩ := acts_holds c.ctor hs
    unfold State.install at h3
    rw [h6, throwing_of (h2.holds k hs).2] at h3
    have : s' = s1.say .failed := by
      rcases not_accepted.mp hc with hx | hx
      · cases hy : (current ops).throws && c.ctor.any (fun a => !a.caught) <;> rw [hy] at h3 <;> simp [hx] at h3 <;> exact h3.symm
      · rw [hx] at h3
        simpa using h3.symm
    rw [this]
    show s1.slot = _
    rw [h7.slot, hs]

/-- Before the end of the program, the pointer to the reporter is never used when it does not exist. `std::terminate` is called only if
the destructor of a reporter that is replaced reports something, the new reporter throws and the exception leaves the destructor. -/
theorem C83_defined (ops : List Op) :
    (Quiet ops → ∃ s, State.init.run ops = (none, s)) ∧ (¬Quiet ops → ∃ s, State.init.run ops = (some .terminated, s)) := by
  constructor
  · intro h
    obtain ⟨s, h1, _⟩ := run_quiet h
    exact ⟨s, h1⟩
  · exact run_loud

/-- The end of a program in which something was reported or installed. -/
theorem C83_exit (ops : List Op) (hq : Quiet ops) (hu : used ops = true) :
    ((program ops).1 = some .terminated ↔ (current ops).throws = true ∧ Careless ops) ∧
    ((program ops).1 = some .undefined ↔
      ¬((current ops).throws = true ∧ Careless ops) ∧ ((current ops).dtor ≠ [] ∨ Early ops)) := by
  obtain ⟨s, h1, h2⟩ := run_quiet hq
  rw [program_quiet h1]
  have h3 := h2.idle (e := .exit) trivial
  obtain ⟨h4, h5, h6⟩ := unwind_used h3 hu
  have hs : (s.say .exit).statics = s.statics := rfl
  rw [hs] at h4 h5 h6
  refine ⟨⟨fun h => Classical.byContradiction fun hn => ?_, h4⟩, fun h => ⟨fun hc => ?_, Classical.byContradiction fun hn => ?_⟩,
    fun h => h5 h.1 h.2⟩
  · by_cases hd : (current ops).dtor ≠ [] ∨ Early ops
    · rw [h5 hn hd] at h; cases h
    · rw [h6 hn hd] at h; cases h
  · rw [h4 hc] at h; cases h
  · by_cases hc : (current ops).throws = true ∧ Careless ops
    · rw [h4 hc] at h; cases h
    · rw [h6 hc hn] at h; cases h

/-- The end of a program in which nothing was reported or installed before: the first destructor that reports makes a default reporter,
which is destroyed right after that. -/
theorem C83_exit_unused (ops : List Op) (hu : used ops = false) :
    ((program ops).1 = some .terminated ↔ ∃ d, (reporting ops).getLast? = some d ∧ ∃ a ∈ d, a.caught = false) ∧
    ((program ops).1 = some .undefined ↔
      2 ≤ (reporting ops).length ∧ ∀ d, (reporting ops).getLast? = some d → ∀ a ∈ d, a.caught = true) := by
  have hq : Quiet ops := by
    intro pre c post h ha
    rw [h] at hu
    have : usedBy (.install c) = true := by
      simp only [accepted, Bool.and_eq_true] at ha
      simp [usedBy, by simpa using ha.1]
    simp [used, this] at hu
  obtain ⟨s, h1, h2⟩ := run_quiet hq
  rw [program_quiet h1]
  have h3 := unwind_unused (h2.idle (e := .exit) trivial) hu
  have hs : (s.say .exit).statics = s.statics := rfl
  rw [hs] at h3
  rw [h3]
  rcases List.eq_nil_or_concat (reporting ops) with h | ⟨l, d, h⟩
  · rw [h]
    simp
  · rw [h]
    simp only [List.concat_eq_append, List.reverse_append, List.reverse_cons, List.reverse_nil, List.nil_append, List.singleton_append]
    have hg : (l ++ [d]).getLast? = some d := by simp
    rw [hg]
    cases hx : d.any (fun a => !a.caught) with
    | true =>
      have hx' := (any_uncaught d).mp hx
      refine ⟨⟨fun _ => ⟨d, rfl, hx'⟩, fun _ => rfl⟩, fun h => (by cases h), fun ⟨_, h⟩ => ?_⟩
      obtain ⟨a, ha, hc⟩ := hx'
      rw [h d rfl a ha] at hc
      cases hc
    | false =>
      have hx' : ∀ a ∈ d, a.caught = true := by simpa using hx
      simp only [Bool.false_eq_true, if_false, List.reverse_eq_nil_iff]
      refine ⟨⟨fun h => ?_, fun ⟨d', h, a, ha, hc⟩ => ?_⟩, ?_⟩
      · split at h <;> cases h
      · cases h
        rw [hx' a ha] at hc
        cases hc
      · cases l with
        | nil => simp
        | cons y l =>
          simp only [List.length_append, List.length_cons, List.length_nil]
          simp only [reduceCtorEq, if_false, true_iff]
          exact ⟨by omega, fun d' h => by cases h; exact hx'⟩

/-- A program ends regularly when its reporters report nothing in their destructors, what objects with static storage duration report
when they are destroyed is caught, and such objects are initialised after the first use of the reporter. The last condition is needed:
see `C83_counterexample`. -/
theorem C83_exit_partial (ops : List Op) (hd : ∀ c, .install c ∈ ops → c.dtor = []) (hs : ∀ d, .static d ∈ ops → ∀ a ∈ d, a.caught = true)
    (he : ¬Early ops) : (program ops).1 = none := by
  have hcur : (current ops).dtor = [] ∧ Quiet ops := by
    refine ⟨current_dtor ops hd, fun pre c post h _ _ => ?_⟩
    rw [current_dtor pre (fun c hc => hd c (by rw [h]; simp [hc]))]
    rfl
  cases hu : used ops with
  | true =>
    obtain ⟨h1, h2⟩ := C83_exit ops hcur.2 hu
    have hn : ¬Careless ops := by
      rintro ⟨pre, d, post, h, _, a, ha, hc⟩
      rw [hs d (by rw [h]; simp) a ha] at hc
      cases hc
    cases hp : (program ops).1 with
    | none => rfl
    | some x =>
      cases x with
      | terminated => exact absurd (h1.mp hp).2 hn
      | undefined => exact absurd (h2.mp hp).2 (fun h => h.elim (fun h => h hcur.1) he)
  | false =>
    obtain ⟨h1, h2⟩ := C83_exit_unused ops hu
    have hr := (dtors_early hu).mpr he
    rw [hr] at h1 h2
    cases hp : (program ops).1 with
    | none => rfl
    | some x =>
      cases x with
      | terminated => obtain ⟨d, h, _⟩ := h1.mp hp; simp at h
      | undefined => have := (h2.mp hp).1; simp at this

/-! ## Examples -/

/-- A reporter whose report functions return, and one that reports something itself when it is destroyed. -/
def calm : Cls := ⟨false, [], false, []⟩
def noisy : Cls := ⟨true, [⟨true⟩], false, [⟨false⟩]⟩
def broken : Cls := ⟨true, [⟨false⟩], true, []⟩

/-- An expectation with static storage duration that is not fulfilled: it reports in its destructor. -/
def expectation : Op := .static [⟨true⟩]

/-- The reporter is used too late: the object of the client is initialised first, thus destroyed last, and then reports to a reporter that
has been destroyed. Undefined behaviour. -/
theorem C83_counterexample : program [expectation, .install calm] =
    (some .undefined, [.made 0, .made 1, .set 1, .set 0, .dying 1, .exit, .dying 0, .ends 0]) ∧
    Quiet [expectation, .install calm] := by
  refine ⟨by decide +kernel, fun pre c post h _ ht => ?_⟩
  have hc : Op.install c ∈ [expectation, .install calm] := by rw [h]; simp
  simp only [expectation, List.mem_cons, reduceCtorEq, Op.install.injEq, List.not_mem_nil, or_false, false_or] at hc
  rw [hc] at ht
  cases ht

example : used [expectation, .install calm] = true ∧ Early [expectation, .install calm] :=
  ⟨rfl, [], [⟨true⟩], [.install calm], rfl, by simp, rfl⟩

/-- In the other order, everything is fine. -/
example : program [.install calm, expectation] =
    (none, [.made 0, .made 1, .set 1, .set 0, .dying 1, .exit, .ends 0, .gets 0, .dying 0]) := by decide +kernel

/-- Two expectations that report at the end, and nothing was reported before. -/
example : program [expectation, expectation] =
    (some .undefined, [.exit, .ends 1, .made 0, .set 0, .gets 0, .dying 0, .ends 0]) := by decide +kernel

/-- A reporter that reports when it is replaced: the report is made to its successor, which must not throw. -/
example : program [.install noisy, .install calm, .report] =
    (none, [.made 0, .set 0, .gets 0, .made 1, .set 1, .dying 0, .made 2, .set 2, .dying 1, .gets 2, .gets 2, .exit, .dying 2]) := by
  decide +kernel

example : program [.install noisy, .install defaultCls] =
    (some .terminated, [.made 0, .set 0, .gets 0, .made 1, .set 1, .dying 0, .made 2, .set 2, .dying 1, .gets 2]) := by decide +kernel

/-- A constructor that throws. -/
example : program [.install calm, .install broken, .report] =
    (none, [.made 0, .made 1, .set 1, .set 0, .dying 1, .gets 0, .failed, .gets 0, .exit, .dying 0]) := by decide +kernel

end Mimic.Install
