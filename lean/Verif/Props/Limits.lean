import Verif.Proofs.Demo

/-!
# C01-C03: limits

Property theorems. The vocabulary of the statements is in `Spec/Trace.lean`.
-/

set_option autoImplicit false

namespace Mimic

variable {α : Type}

/-! ### C01 -/

/-- C01: which limits the factories accept, and what they yield, for all `int`s (indeed all integers). -/
theorem C01_times_accepted (min max n : Int) :
    (times min max = none ↔ min < 0 ∨ max < 0 ∨ max < min) ∧
    (∀ t, times min max = some t → t.min = min ∧ t.max = max) ∧
    (timesExactly n = none ↔ n < 0) ∧ (∀ t, timesExactly n = some t → t.min = n ∧ t.max = n) ∧
    (n ≤ 2147483647 → (atLeast n = none ↔ n < 0)) ∧
    (∀ t, atLeast n = some t → t.min = n ∧ t.max = 2147483647) ∧
    (atMost n = none ↔ n < 0) ∧ (∀ t, atMost n = some t → t.min = 0 ∧ t.max = n) ∧
    once = some ⟨1, 1⟩ ∧ twice = some ⟨2, 2⟩ ∧ defaultTimes = ⟨1, 1⟩ := by
  have key : ∀ a b : Int, (TimesConfig.make a b = none ↔ a < 0 ∨ b < 0 ∨ b < a) ∧
      (∀ t, TimesConfig.make a b = some t → t.min = a ∧ t.max = b) := by
    intro a b
    unfold TimesConfig.make
    constructor
    · split <;> simp_all
    · intro t
      split
      · simp
      · intro h; injection h with h; rw [← h]; exact ⟨rfl, rfl⟩
  refine ⟨(key min max).1, (key min max).2, ?_, (key n n).2, ?_, (key n intMax).2, ?_, (key 0 n).2, ?_⟩
  · unfold timesExactly; rw [(key n n).1]; omega
  · intro hn; unfold atLeast; rw [(key n intMax).1]; unfold intMax; omega
  · unfold atMost; rw [(key 0 n).1]; omega
  · exact ⟨by decide, by decide, rfl⟩

example : times 2 5 = some ⟨2, 5⟩ ∧ times 5 2 = none ∧ atMost (-1) = none ∧ atLeast 0 ≠ none := by decide

/-- C01: no factory ever yields an empty range or a negative bound. -/
theorem C01_times_sane (min max : Int) (t : TimesConfig) (h : times min max = some t) :
    0 ≤ t.min ∧ t.min ≤ t.max := by
  have h1 := (C01_times_accepted min max 0).2.1 t h
  have h2 := (C01_times_accepted min max 0).1
  rw [h] at h2
  simp only [reduceCtorEq, false_iff, not_or] at h2
  omega

example : ∃ t, times 0 0 = some t := ⟨⟨0, 0⟩, by decide⟩

/-- C01: in a history, creating an expectation with a valid request succeeds or throws
`std::invalid_argument`; it succeeds exactly when the limits make sense and no sequence occurs twice. -/
theorem C01_expect_accepted {tr : Trace α} {w w' : World α} (h : Reach tr w) {m : Nat} {min max : Int}
    {ss : List Nat} {ps : List (Policy α)} {ev : List Event}
    (hs : w.step (.expect m min max ss ps) = .ok (w', ev)) :
    (0 ≤ min ∧ min ≤ max ∧ ss.Nodup → ∃ e, ev = [.created e] ∧
      Trace.decl (tr ++ [(.expect m min max ss ps, ev)]) e = some ⟨m, min, max, ss, ps⟩ ∧
      tr.decl e = none) ∧
    (¬ (0 ≤ min ∧ min ≤ max ∧ ss.Nodup) → ev = [.rejected] ∧ w' = w) := by
  have hspec := h.spec_step hs
  have hv := h.view.2
  simp only [Spec.State.step] at hspec
  split at hspec
  · split at hspec
    · rename_i hc hv'
      simp only [Option.some.injEq, Prod.mk.injEq] at hspec
      obtain ⟨_, hev⟩ := hspec
      refine ⟨fun _ => ⟨(abs w).exps.length, hev.symm, ?_, ?_⟩, fun hn => absurd ⟨hv'.1.1, hv'.1.2, hv'.2⟩ hn⟩
      · have hnone : tr.decl (abs w).exps.length = none := by
          cases hd : tr.decl (abs w).exps.length with
          | none => rfl
          | some d => exact absurd (hv.decl_lt.mp ⟨d, hd⟩) (Nat.lt_irrefl _)
        rw [decl_snoc, hnone, ← hev]
        simp [declStep]
      · cases hd : tr.decl (abs w).exps.length with
        | none => rfl
        | some d => exact absurd (hv.decl_lt.mp ⟨d, hd⟩) (Nat.lt_irrefl _)
    · rename_i hc hv'
      simp only [Option.some.injEq, Prod.mk.injEq] at hspec
      refine ⟨fun hh => absurd ⟨⟨hh.1, hh.2.1⟩, hh.2.2⟩ hv', fun _ => ⟨hspec.2.symm, ?_⟩⟩
      have hl : (abs w).mocks = w.colls.length := rfl
      have hhe : ss.all (abs w).hasHandle = ss.all w.hasHandle := by
        congr 1; funext s; exact hasHandle_abs w s
      rw [hl, hhe] at hc
      have hmm := List.getElem?_eq_getElem hc.1
      have hcond : (ss.all w.hasHandle && isInt min && isInt max) = true := by
        rw [hc.2.1, hc.2.2.1, hc.2.2.2]; rfl
      simp only [World.step, World.expect, hmm, hcond, if_true, timesMake_eq, seqConfig_eq] at hs
      by_cases hv1 : Spec.validTimes min max
      · have hv2 : ¬ ss.Nodup := fun h2 => hv' ⟨hv1, h2⟩
        simp only [hv1, hv2, if_true, if_false, pure, Except.pure, Except.ok.injEq, Prod.mk.injEq] at hs
        exact hs.1.symm
      · simp only [hv1, if_false, pure, Except.pure, Except.ok.injEq, Prod.mk.injEq] at hs
        exact hs.1.symm
  · simp at hspec

example : ∃ (tr : Trace Nat) (w w' : World Nat) (ev : List Event), Reach tr w ∧
    w.step (.expect 0 1 3 [0] [onlyArg 7]) = .ok (w', ev) :=
  ⟨_, _, _, _, reach_final [.newMock, .newSequence .lazy], rfl⟩

/-! ### C02 -/

/-- C02: no expectation ever resolves more calls than its upper limit, whatever the client does. -/
theorem C02_upper_limit {tr : Trace α} {w : World α} (h : Reach tr w) {e : Nat} {d : Decl α}
    (hd : tr.decl e = some d) : (tr.matched e : Int) ≤ d.max := by
  have := h.view.1.ok _ (h.view.2.mem hd)
  exact this.count_le

/-- C02: the counter always is the number of resolved calls and fits into an `int`. -/
theorem C02_counter {tr : Trace α} {w : World α} (h : Reach tr w) {e : Nat} {x : Exp α}
    (hx : w.exps[e]? = some x) :
    x.control.count = (tr.matched e : Int) ∧ x.control.count ≤ 2147483647 := by
  have hm := abs_mem hx
  obtain ⟨d, hd, hxd⟩ := h.view.2.get hm
  have hid : (absExp e x).id = e := rfl
  rw [hid] at hd hxd
  have hc : (absExp e x).count = tr.matched e := by rw [hxd]; rfl
  have ht := toNat_count h.view.1 hx
  have hok := h.view.1.ok _ hm
  have h1 := hok.count_le
  have h2 := hok.max_le
  rw [hc] at ht
  rw [hc] at h1
  refine ⟨ht.symm, ?_⟩
  unfold intMax at h2
  omega

/-- A history with resolved, rejected and exhausted calls: three calls on an expectation with limit 2. -/
example : ∃ (tr : Trace Nat) (w : World Nat) (d : Decl Nat), Reach tr w ∧ tr.decl 0 = some d ∧
    tr.matched 0 = 2 ∧ d.max = 2 :=
  ⟨_, _, _, reach_final [.newMock, .newSequence .greedy, .expect 0 1 2 [0] [], .call 0 1, .call 0 2, .call 0 3],
    rfl, rfl, rfl⟩

/-! ### C03 -/

/-- C03: when an expectation goes out of scope, it is reported unfulfilled iff it resolved fewer calls
than its lower limit, or one of its policies says it is unsatisfied (no policy of the library does). -/
theorem C03_unfulfilled_iff {tr : Trace α} {w w' : World α} (h : Reach tr w) {e : Nat} {ev : List Event}
    (hs : w.step (.destroy e) = .ok (w', ev)) :
    ∃ d, tr.decl e = some d ∧
      (Event.unfulfilled e ∈ ev ↔
        (tr.matched e : Int) < d.min ∨ ∃ p ∈ d.policies, p.isSatisfied = false) := by
  have hspec := h.spec_step hs
  have hv := h.view.2
  simp only [Spec.State.step] at hspec
  split at hspec
  · simp at hspec
  · rename_i x hfind
    simp only [Option.some.injEq, Prod.mk.injEq] at hspec
    have hm := List.mem_of_find?_eq_some hfind
    have hp := List.find?_some hfind
    simp only [Bool.and_eq_true, beq_iff_eq] at hp
    obtain ⟨d, hd, hxd⟩ := hv.get hm
    rw [hp.1] at hd hxd
    refine ⟨d, hd, ?_⟩
    have h1 : x.unfulfilled = true ↔ (tr.matched e : Int) < d.min := by
      rw [hxd]; simp [Spec.Exp.unfulfilled, viewExp]
    have h2 : x.policies = d.policies := by rw [hxd]; rfl
    have h3 : (x.policies.all (·.isSatisfied)) = false ↔ ∃ p ∈ d.policies, p.isSatisfied = false := by
      rw [h2, List.all_eq_false]
      simp
    rw [← hspec.2, ← h1, ← h3]
    have hnr : Event.unfulfilled e ∉ ((abs w).withdraw e).release x.seqs := by
      intro hc
      obtain ⟨s, _, _, hh⟩ := release_mem hc
      rcases hh with hh | ⟨k, n, hh⟩ <;> simp at hh
    simp only [List.mem_append, List.mem_cons, hnr, or_false, reduceCtorEq, false_or]
    cases x.unfulfilled <;> cases x.policies.all (·.isSatisfied) <;> simp

example : ∃ (tr : Trace Nat) (w w' : World Nat) (ev : List Event), Reach tr w ∧
    w.step (.destroy 0) = .ok (w', ev) ∧ Event.unfulfilled 0 ∈ ev ∧ tr.matched 0 = 1 :=
  ⟨_, _, _, _, reach_final [.newMock, .expect 0 2 5 [] [], .call 0 1], rfl, by decide, rfl⟩

/-- Only going out of scope reports an expectation as unfulfilled, and then also its end. -/
theorem unfulfilled_source {tr : Trace α} {w w' : World α} (h : Reach tr w) {op : Op α}
    {ev : List Event} (hs : w.step op = .ok (w', ev)) (e : Nat) :
    ev.count (.unfulfilled e) ≤ 1 ∧
    (Event.unfulfilled e ∈ ev → op = .destroy e ∧ Event.destroyed e ∈ ev ∧ tr.live e) := by
  have hspec := h.spec_step hs
  have hv := h.view.2
  have none : Event.unfulfilled e ∉ ev → ev.count (.unfulfilled e) ≤ 1 ∧
      (Event.unfulfilled e ∈ ev → op = .destroy e ∧ Event.destroyed e ∈ ev ∧ tr.live e) :=
    fun hn => ⟨by rw [List.count_eq_zero_of_not_mem hn]; omega, fun hh => absurd hh hn⟩
  cases op with
  | newSequence st =>
    simp only [Spec.State.step, Option.some.injEq, Prod.mk.injEq] at hspec
    apply none; rw [← hspec.2]; simp
  | newMock =>
    simp only [Spec.State.step, Option.some.injEq, Prod.mk.injEq] at hspec
    apply none; rw [← hspec.2]; simp
  | dropSequence s =>
    simp only [Spec.State.step] at hspec
    split at hspec
    · simp only [Option.some.injEq, Prod.mk.injEq] at hspec
      apply none; rw [← hspec.2]
      intro hc
      obtain ⟨s, _, _, hh⟩ := release_mem hc
      rcases hh with hh | ⟨k, n, hh⟩ <;> simp at hh
    · simp at hspec
  | call m a =>
    simp only [Spec.State.step] at hspec
    split at hspec
    · simp only [Option.some.injEq, Prod.mk.injEq] at hspec
      apply none; rw [← hspec.2]
      obtain ⟨us, last, hev, _, hcase⟩ := call_events (abs w) m a
      rw [hev]
      rcases hcase with ⟨x, older, _, hl, _⟩ | ⟨_, _, hl, _⟩ | ⟨_, _, hl, _⟩ <;> rw [hl] <;> simp
    · simp at hspec
  | expect m min max ss ps =>
    simp only [Spec.State.step] at hspec
    split at hspec
    · split at hspec
      · simp only [Option.some.injEq, Prod.mk.injEq] at hspec
        apply none; rw [← hspec.2]; simp
      · simp only [Option.some.injEq, Prod.mk.injEq] at hspec
        apply none; rw [← hspec.2]; simp
    · simp at hspec
  | destroy e' =>
    simp only [Spec.State.step] at hspec
    split at hspec
    · simp at hspec
    · rename_i x hfind
      simp only [Option.some.injEq, Prod.mk.injEq] at hspec
      have hm := List.mem_of_find?_eq_some hfind
      have hp := List.find?_some hfind
      simp only [Bool.and_eq_true, beq_iff_eq] at hp
      have hnr : Event.unfulfilled e ∉ ((abs w).withdraw e').release x.seqs := by
        intro hc
        obtain ⟨s, _, _, hh⟩ := release_mem hc
        rcases hh with hh | ⟨k, n, hh⟩ <;> simp at hh
      rw [← hspec.2]
      constructor
      · rw [List.count_append, List.count_eq_zero_of_not_mem hnr, List.count_cons]
        split
        · simp only [List.count_singleton]; split <;> simp
        · simp
      · intro hc
        simp only [List.mem_append, List.mem_cons, hnr, or_false, reduceCtorEq, false_or] at hc
        have : e = e' := by
          split at hc
          · simp at hc; exact hc
          · simp at hc
        subst this
        exact ⟨rfl, by simp, (hv.live_iff e).mpr ⟨x, hm, hp.1, hp.2⟩⟩

/-- C03: over a whole history every expectation is reported unfulfilled at most once, and never while
it is in scope. -/
theorem C03_unfulfilled_once {tr : Trace α} {w : World α} (h : Reach tr w) (e : Nat) :
    tr.events.count (.unfulfilled e) ≤ 1 ∧
    (Event.unfulfilled e ∈ tr.events → Event.destroyed e ∈ tr.events) := by
  induction h with
  | init => simp [Trace.events]
  | @step tr _ _ _ ev hr hs ih =>
    obtain ⟨h1, h2⟩ := unfulfilled_source hr hs e
    rw [events_snoc]
    by_cases hm : Event.unfulfilled e ∈ ev
    · obtain ⟨_, h4, h5⟩ := h2 hm
      have hno : Event.unfulfilled e ∉ tr.events := fun hc => h5.2 (ih.2 hc)
      rw [List.count_append, List.count_eq_zero_of_not_mem hno]
      exact ⟨by omega, fun _ => by simp [h4]⟩
    · rw [List.count_append, List.count_eq_zero_of_not_mem hm]
      refine ⟨by omega, fun hc => ?_⟩
      rw [List.mem_append] at hc ⊢
      exact Or.inl (ih.2 (hc.resolve_right hm))

example : ∃ (tr : Trace Nat) (w : World Nat), Reach tr w ∧ tr.events.count (.unfulfilled 0) = 1 :=
  ⟨_, _, reach_final [.newMock, .expect 0 1 1 [] [], .expect 0 1 1 [] [], .call 0 3, .destroy 0, .destroy 1],
    by decide⟩

end Mimic
