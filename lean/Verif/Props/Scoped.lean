import Verif.Proofs.Scoped

/-!
# C37, C38, C39: ownership of expectations, exceptions of reporters
-/

set_option autoImplicit false
set_option linter.unusedSimpArgs false

namespace Mimic

variable {α : Type}

/-! ## C37 -/

/-- C37: at any time each expectation in force is owned by exactly one object, which exists; an object owns at most one. -/
theorem C37_owner {tr : STrace α} {sw : SWorld α} (h : SReach tr sw) :
    (∀ e, tr.flat.live e ↔ ∃ o, tr.owns o e) ∧ (∀ o o' e, tr.owns o e → tr.owns o' e → o = o') ∧
    (∀ o e e', tr.owns o e → tr.owns o e' → e = e') ∧ (∀ o e, tr.owns o e → tr.exists o) := by
  have hi := h.inv
  simp only [hi.owns, hi.live, hi.exists_]
  refine ⟨fun _ => trivial, hi.inj, fun o e e' h1 h2 => ?_, hi.alive⟩
  rw [h1] at h2
  simpa using h2

/-- C37: all that scoped expectations do to the library is a history of single operations, so all properties of those hold. -/
theorem C37_library {tr : STrace α} {sw : SWorld α} (h : SReach tr sw) : Reach tr.flat sw.w := h.inv.reach

/-- C37: the end of the owner, and assigning another object to it, withdraw the expectation and check it, exactly once. -/
theorem C37_checked {tr : STrace α} {sw sw' : SWorld α} (h : SReach tr sw) {c : Ctx} {op : SOp α} {log : SLog α}
    (hs : sw.step c op = .ok (sw', log)) {o e : Nat} (ho : tr.owns o e)
    (hop : op = .drop o ∨ ∃ s, s ≠ o ∧ op = .moveAssign o s) :
    ∃ ev, log.lib = [(.destroy e, ev)] ∧ ev.count (.destroyed e) = 1 ∧
      ev.count (.unfulfilled e) ≤ 1 ∧
      (Event.unfulfilled e ∈ ev ↔ tr.flat.unmet e) := by
  have hi := h.inv
  rw [hi.owns] at ho
  have key : ∃ w' ev, sw.w.step (.destroy e) = .ok (w', ev) ∧ log.lib = [(.destroy e, ev)] := by
    rcases hop with rfl | ⟨s, hne, rfl⟩
    · obtain ⟨w', ev, h1, h2⟩ := drop_owner hi ho c
      rw [h2] at hs
      split at hs
      · simp at hs
      · simp only [Except.ok.injEq, Prod.mk.injEq] at hs
        exact ⟨w', ev, h1, by rw [← hs.2]⟩
    · have hal : slotAlive sw.slots s := by
        simp only [SWorld.step] at hs
        split at hs
        · rename_i x y hx hy
          exact (slot_some hy).2.2.1
        · simp at hs
      obtain ⟨w', ev, sw1, h1, _, h2⟩ := assign_owner hi ho hal (Ne.symm hne) c
      rw [h2] at hs
      split at hs
      · simp at hs
      · simp at hs
      · simp only [Except.ok.injEq, Prod.mk.injEq] at hs
        exact ⟨w', ev, h1, by rw [← hs.2]⟩
  obtain ⟨w', ev, h1, h2⟩ := key
  obtain ⟨rest, hr, hcase⟩ := destroy_report hi.reach h1
  have hm1 : Event.unfulfilled e ∉ rest := fun hc => by simpa [seqEvent] using hr _ hc
  have hm2 : Event.destroyed e ∉ rest := fun hc => by simpa [seqEvent] using hr _ hc
  refine ⟨ev, h2, ?_⟩
  rcases hcase with ⟨hu, rfl⟩ | ⟨hu, rfl⟩
  · simp [List.count_cons, List.count_eq_zero_of_not_mem hm1, List.count_eq_zero_of_not_mem hm2, hu]
  · simp [List.count_cons, List.count_eq_zero_of_not_mem hm1, List.count_eq_zero_of_not_mem hm2, hu, hm1]

/-- C37: everything else that is done with scoped expectations is silent: moves, the end of objects that were moved from,
assignments to such objects, self-assignments and queries touch no expectation. -/
theorem C37_silent {tr : STrace α} {sw sw' : SWorld α} (h : SReach tr sw) {c : Ctx} {op : SOp α} {log : SLog α}
    (hs : sw.step c op = .ok (sw', log)) (hp : ∀ p, op ≠ .plain p) (he : ∀ m min max tags ps, op ≠ .expect m min max tags ps)
    (hop : ∀ o e, tr.owns o e → op ≠ .drop o ∧ ∀ s, s ≠ o → op ≠ .moveAssign o s) :
    log.lib = [] ∧ log.exn = none ∧ sw'.w = sw.w := by
  have hi := h.inv
  simp only [hi.owns] at hop
  cases op with
  | plain p => exact absurd rfl (hp p)
  | expect => exact absurd rfl (he _ _ _ _ _)
  | moveConstruct src =>
    simp only [SWorld.step] at hs
    split at hs
    · simp at hs
    · simp only [Except.ok.injEq, Prod.mk.injEq] at hs
      obtain ⟨rfl, rfl⟩ := hs
      simp
  | moveAssign dst src =>
    simp only [SWorld.step] at hs
    split at hs
    · rename_i x y hx hy
      split at hs
      · simp only [Except.ok.injEq, Prod.mk.injEq] at hs
        obtain ⟨rfl, rfl⟩ := hs
        simp
      · rename_i hne
        split at hs
        · simp only [Except.ok.injEq, Prod.mk.injEq] at hs
          obtain ⟨rfl, rfl⟩ := hs
          simp
        · rename_i e hxe
          exact absurd rfl ((hop dst e (by rw [(slot_some hx).2.1, hxe])).2 src (Ne.symm hne))
    · simp at hs
  | drop o =>
    simp only [SWorld.step] at hs
    split at hs
    · simp at hs
    · rename_i x hx
      split at hs
      · simp only [Except.ok.injEq, Prod.mk.injEq] at hs
        obtain ⟨rfl, rfl⟩ := hs
        simp
      · rename_i e hxe
        exact absurd rfl (hop o e (by rw [(slot_some hx).2.1, hxe])).1
  | isSatisfied o =>
    simp only [SWorld.step] at hs
    split at hs
    · simp at hs
    · split at hs
      · simp at hs
      · split at hs
        · simp at hs
        · simp only [Except.ok.injEq, Prod.mk.injEq] at hs
          obtain ⟨rfl, rfl⟩ := hs
          simp

/-- An expectation is withdrawn at most once. -/
theorem destroyed_once {tr : Trace α} {w : World α} (h : Reach tr w) (e : Nat) : tr.events.count (.destroyed e) ≤ 1 := by
  induction h with
  | init => simp [Trace.events]
  | @step tr w w' op ev hr hs ih =>
    rw [events_snoc, List.count_append]
    have hno : (∀ e0, op ≠ .destroy e0) → Event.destroyed e ∉ ev := by
      intro hop
      cases op with
      | destroy e0 => exact absurd rfl (hop e0)
      | newSequence st =>
        simp only [World.step, Except.ok.injEq, Prod.mk.injEq] at hs
        rw [← hs.2]; simp
      | newMock =>
        simp only [World.step, Except.ok.injEq, Prod.mk.injEq] at hs
        rw [← hs.2]; simp
      | dropSequence s => intro hc; simpa [seqEvent] using dropSequence_events hs _ hc
      | expect => rcases expect_events hr hs with ⟨rfl, _⟩ | ⟨rfl, _⟩ <;> simp
      | call m a =>
        obtain ⟨us, last, rfl, _, hcase⟩ := C10_outcome hr hs
        grind
    by_cases hop : ∃ e0, op = .destroy e0
    · obtain ⟨e0, rfl⟩ := hop
      have hl := (destroy_valid hr).mpr ⟨_, _, hs⟩
      obtain ⟨b, rest, rfl, hrest⟩ := destroy_events hs
      have hm2 : Event.destroyed e ∉ rest := fun hc => by simpa [seqEvent] using hrest _ hc
      by_cases he : e = e0
      · subst he
        rw [List.count_eq_zero_of_not_mem hl.2]
        cases b <;> simp [List.count_cons, List.count_eq_zero_of_not_mem hm2]
      · rw [List.count_eq_zero_of_not_mem (a := Event.destroyed e) (l := _ :: _)]
        · omega
        · cases b <;> simp [he, hm2]
    · rw [List.count_eq_zero_of_not_mem (hno (fun e0 he => hop ⟨e0, he⟩))]
      omega

/-- C37: each expectation is withdrawn and checked at most once, and exactly once when all objects are gone. -/
theorem C37_once {tr : STrace α} {sw : SWorld α} (h : SReach tr sw) (e : Nat) :
    tr.flat.events.count (.destroyed e) ≤ 1 ∧
    ((∀ o, ¬ tr.exists o) → (∃ d, tr.flat.decl e = some d) → tr.flat.events.count (.destroyed e) = 1) := by
  have hi := h.inv
  have h1 := destroyed_once hi.reach e
  refine ⟨h1, fun hn hd => ?_⟩
  have hnl : ¬ tr.flat.live e := by
    rw [(C37_owner h).1]
    rintro ⟨o, ho⟩
    exact hn o ((C37_owner h).2.2.2 o e ho)
  have hm : Event.destroyed e ∈ tr.flat.events := by
    apply Classical.byContradiction
    intro hc
    exact hnl ⟨hd, hc⟩
  have := List.count_pos_iff.mpr hm
  omega

/-- C37: assigning over an object whose expectation is unfulfilled terminates the program, if the reporter throws. -/
theorem C37_assign_terminates {tr : STrace α} {sw : SWorld α} (h : SReach tr sw) {c : Ctx} {o s e : Nat} (ho : tr.owns o e)
    (hs : tr.exists s) (hne : s ≠ o) (hu : tr.flat.unmet e) (hR : (c.reporter .unfulfilledExpectation c.uncaught).throws = true) :
    ∃ why, sw.step c (.moveAssign o s) = .error (.terminate why) := by
  have hi := h.inv
  rw [hi.owns] at ho
  rw [hi.exists_] at hs
  obtain ⟨w', ev, sw1, h1, _, h2⟩ := assign_owner hi ho hs (Ne.symm hne) c
  obtain ⟨rest, hr, hcase⟩ := destroy_report hi.reach h1
  rcases hcase with ⟨_, rfl⟩ | ⟨hc, _⟩
  · rw [h2]
    have h3 : deliver c.reporter c.uncaught none (.destroyed e :: .unfulfilled e :: rest) =
        deliver c.reporter c.uncaught (some (.unfulfilled e)) rest := by
      simp [deliver, deliverOne, Reporter.exn, uncaught, hR]
    rw [h3]
    rcases deliver_seq (R := c.reporter) (u := c.uncaught) (p := some (.unfulfilled e)) hr with ⟨_, _, why, h4⟩ | ⟨_, h4⟩
    · rw [h4]; exact ⟨why, rfl⟩
    · rw [h4]; exact ⟨_, rfl⟩
  · exact absurd hu hc

/-- C37: with a reporter that follows the rules, an assignment terminates the program exactly if no exception is on its way
and the expectation that is assigned over is unfulfilled or ends a sequence with an error; otherwise it returns normally. -/
theorem C37_assign {tr : STrace α} {sw : SWorld α} (h : SReach tr sw) {c : Ctx} (hR : c.reporter.Lawful) {o s : Nat}
    (ho : tr.exists o) (hs : tr.exists s) :
    ((∃ why, sw.step c (.moveAssign o s) = .error (.terminate why)) ∧ s ≠ o ∧ c.uncaught = 0 ∧
      ∃ e w' ev, tr.owns o e ∧ sw.w.step (.destroy e) = .ok (w', ev) ∧ (tr.flat.unmet e ∨ sequenceErrorIn ev)) ∨
    ((∃ sw' log, sw.step c (.moveAssign o s) = .ok (sw', log) ∧ log.exn = none) ∧
      ¬ (s ≠ o ∧ c.uncaught = 0 ∧
        ∃ e w' ev, tr.owns o e ∧ sw.w.step (.destroy e) = .ok (w', ev) ∧ (tr.flat.unmet e ∨ sequenceErrorIn ev))) := by
  have hi := h.inv
  rw [hi.exists_] at ho hs
  simp only [hi.owns]
  by_cases hne : s = o
  · right
    subst hne
    refine ⟨⟨sw, ⟨[], none, none, none⟩, ?_, rfl⟩, by simp⟩
    simp only [SWorld.step, slot_of_alive hs, if_true]
  · cases hoe : innerAt sw.slots o with
    | none =>
      right
      refine ⟨?_, by simp⟩
      simp only [SWorld.step, slot_of_alive hs, slot_of_alive ho, hoe, if_neg (Ne.symm hne)]
      exact ⟨_, _, rfl, rfl⟩
    | some e =>
      obtain ⟨w', ev, sw1, h1, _, h2⟩ := assign_owner hi hoe hs (Ne.symm hne) c
      obtain ⟨d1, d2, d3, d4⟩ := destroy_deliver hR hi.reach h1 c.uncaught
      rw [h2]
      by_cases hu0 : c.uncaught = 0
      · by_cases hu : tr.flat.unmet e
        · left
          rw [d1 hu hu0]
          exact ⟨⟨_, rfl⟩, hne, hu0, e, w', ev, rfl, h1, Or.inl hu⟩
        · by_cases hse : sequenceErrorIn ev
          · left
            obtain ⟨why, h3⟩ := d3 hu hu0 hse
            rw [h3]
            exact ⟨⟨_, rfl⟩, hne, hu0, e, w', ev, rfl, h1, Or.inr hse⟩
          · right
            rw [d4 hu hse]
            refine ⟨⟨_, _, rfl, rfl⟩, ?_⟩
            rintro ⟨_, _, e', w2, ev2, he', hs2, hc⟩
            simp only [Option.some.injEq] at he'
            subst he'
            rw [h1] at hs2
            simp only [Except.ok.injEq, Prod.mk.injEq] at hs2
            obtain ⟨_, rfl⟩ := hs2
            rcases hc with hc | hc
            · exact hu hc
            · exact hse hc
      · right
        rw [d2 (by omega)]
        exact ⟨⟨_, _, rfl, rfl⟩, fun hc => hu0 hc.2.1⟩

/-- C37: an expectation comes with a new object that owns it, if its limits and sequences make sense; otherwise the client gets
`std::invalid_argument`, there is no new object, and nothing else happens. No reporter has an influence on this. -/
theorem C37_create {tr : STrace α} {sw : SWorld α} (h : SReach tr sw) (c : Ctx) {m : Nat} {min max : Int} {tags : List Nat}
    {ps : List (Policy α)} (hv : tr.flat.valid (.expect m min max tags ps)) (hf : ¬ tr.flat.overflows (.expect m min max tags ps)) :
    ∃ sw' log, sw.step c (.expect m min max tags ps) = .ok (sw', log) ∧
      (0 ≤ min ∧ min ≤ max ∧ tags.Nodup → log.exn = none ∧ ∃ o e, log.slot = some o ∧ ¬ tr.exists o ∧
        (tr ++ [⟨c, .expect m min max tags ps, log⟩] : STrace α).owns o e ∧
        (tr ++ [⟨c, .expect m min max tags ps, log⟩] : STrace α).flat.decl e = some ⟨m, min, max, tags, ps⟩) ∧
      (¬ (0 ≤ min ∧ min ≤ max ∧ tags.Nodup) → log.exn = some .invalidArgument ∧ log.slot = none ∧ sw' = sw) := by
  have hi := h.inv
  obtain ⟨w', ev, hst⟩ := (C17_progress hi.reach _).1 hv hf
  obtain ⟨a1, a2⟩ := C01_expect_accepted hi.reach hst
  by_cases hok : 0 ≤ min ∧ min ≤ max ∧ tags.Nodup
  · obtain ⟨e, rfl, hd, _⟩ := a1 hok
    have hlib : sw.lib c (.expect m min max tags ps) = .ok ({ sw with w := w' }, [.created e], none) := by
      simp [SWorld.lib, hst, deliver, deliverOne]
    have hstep : sw.step c (.expect m min max tags ps) =
        .ok ({ w := w', slots := sw.slots ++ [⟨some sw.w.exps.length, true⟩] },
          ⟨[(.expect m min max tags ps, [.created e])], some sw.slots.length, none, none⟩) := by
      simp only [SWorld.step, hlib]
    refine ⟨_, _, hstep, fun _ => ⟨rfl, sw.slots.length, e, rfl, ?_, ?_, ?_⟩, fun hn => absurd hok hn⟩
    · rw [hi.exists_]
      exact fun hx => Nat.lt_irrefl _ (slotAlive_lt hx)
    · rw [owns_snoc]
      exact Or.inl ⟨rfl, by simp [Trace.events]⟩
    · rw [sflat_snoc]
      exact hd
  · obtain ⟨rfl, rfl⟩ := a2 hok
    have hlib : sw.lib c (.expect m min max tags ps) = .ok (sw, [.rejected], some .invalidArgument) := by
      simp [SWorld.lib, hst, deliver, deliverOne]
    refine ⟨sw, ⟨[(.expect m min max tags ps, [.rejected])], none, some .invalidArgument, none⟩, ?_, fun hn => absurd hn hok,
      fun _ => ⟨rfl, rfl, rfl⟩⟩
    simp only [SWorld.step, hlib]

/-- C37: any object that exists can be moved, also one that was moved from before; the new object owns what the old one owned,
and the old one owns nothing. -/
theorem C37_move {tr : STrace α} {sw : SWorld α} (h : SReach tr sw) (c : Ctx) (s : Nat) :
    (¬ tr.exists s → ∃ why, sw.step c (.moveConstruct s) = .error (.client why)) ∧
    (tr.exists s → ∃ sw' log o, sw.step c (.moveConstruct s) = .ok (sw', log) ∧ log.exn = none ∧ log.lib = [] ∧
      log.slot = some o ∧ ¬ tr.exists o ∧
      (tr ++ [⟨c, .moveConstruct s, log⟩] : STrace α).exists s ∧
      ∀ e, ¬ (tr ++ [⟨c, .moveConstruct s, log⟩] : STrace α).owns s e ∧
        ((tr ++ [⟨c, .moveConstruct s, log⟩] : STrace α).owns o e ↔ tr.owns s e)) := by
  have hi := h.inv
  constructor
  · intro hn
    rw [hi.exists_] at hn
    refine ⟨"use of a dead object", ?_⟩
    have : sw.slot s = none := by
      cases hs : sw.slot s with
      | none => rfl
      | some x => exact absurd (slot_some hs).2.2.1 hn
    simp only [SWorld.step, this]
  · intro hx
    have ha := (hi.exists_ s).mp hx
    have hlt := slotAlive_lt ha
    have hst : sw.step c (.moveConstruct s) = .ok ({ sw with slots := sw.slots.set s ⟨none, true⟩ ++ [⟨innerAt sw.slots s, true⟩] },
        ⟨[], some sw.slots.length, none, none⟩) := by
      simp only [SWorld.step, slot_of_alive ha]
    have hi' := (h.step hst).inv
    refine ⟨_, _, sw.slots.length, hst, rfl, rfl, rfl, ?_, ?_, ?_⟩
    · rw [hi.exists_]
      exact fun hx => Nat.lt_irrefl _ (slotAlive_lt hx)
    · rw [hi'.exists_]
      simp only [slotAlive_push, slotAlive_set, List.length_set]
      grind
    · intro e
      rw [hi'.owns, hi'.owns, hi.owns]
      simp only [innerAt_push, innerAt_set, List.length_set]
      have := Nat.ne_of_lt hlt
      grind

/-- C37: `is_satisfied` tells whether the expectation would be reported if it ended now; on an object that was moved from it
is undefined behaviour. -/
theorem C37_query {tr : STrace α} {sw : SWorld α} (h : SReach tr sw) (c : Ctx) (o : Nat) :
    (∀ e, tr.owns o e → ∃ log b, sw.step c (.isSatisfied o) = .ok (sw, log) ∧ log.answer = some b ∧
      (b = true ↔ ¬ tr.flat.unmet e)) ∧
    (tr.exists o → (∀ e, ¬ tr.owns o e) → ∃ why, sw.step c (.isSatisfied o) = .error (.ub why)) := by
  have hi := h.inv
  simp only [hi.owns, hi.exists_]
  refine ⟨fun e he => ?_, fun ha hn => ?_⟩
  · obtain ⟨x, hx, hu⟩ := satisfied_iff hi.reach ((hi.live e).mpr ⟨o, he⟩)
    simp only [SWorld.step, slot_of_alive (hi.alive o e he), he, hx]
    exact ⟨_, _, rfl, rfl, hu⟩
  · cases hoe : innerAt sw.slots o with
    | none =>
      simp only [SWorld.step, slot_of_alive ha, hoe]
      exact ⟨_, rfl⟩
    | some e => exact absurd hoe (hn e)

/-! ## C38 -/

/-- C38: the default reporter follows the rules of the interface, with or without a stream, and so does the reporter that is
used for test frameworks. -/
theorem C38_lawful (out : Bool) : (defaultReporter out).Lawful ∧ basicReporter.Lawful := by
  refine ⟨⟨?_, ?_, ?_, ?_, ?_, ?_⟩, ⟨?_, ?_, ?_, ?_, ?_, ?_⟩⟩ <;> intro n <;> simp only [defaultReporter, basicReporter] <;>
    by_cases hn : n = 0 <;> simp [hn]

/-- C38: what the default reporter writes: everything it throws, and unhandled exceptions. -/
theorem C38_written (r : Report) (n : Nat) :
    (defaultReporter false r n).writes = false ∧
    ((defaultReporter true r n).writes = true ↔ (defaultReporter true r n).throws = true ∨ r = .unhandledException) := by
  cases r <;> simp only [defaultReporter] <;> by_cases hn : n = 0 <;> simp [hn]

/-- C38: a call never terminates the program; it ends with an exception exactly if no expectation resolved it. -/
theorem C38_call {tr : STrace α} {sw : SWorld α} (h : SReach tr sw) {c : Ctx} (hR : c.reporter.Lawful) {m : Nat} {a : α}
    (hm : Event.mockCreated m ∈ tr.flat.events) :
    ∃ sw' log ev, sw.step c (.plain (.call m a)) = .ok (sw', log) ∧ log.lib = [(.call m a, ev)] ∧
      (log.exn = none ↔ ∃ e, Event.fullMatch e ∈ ev) ∧ (log.exn = some .unmatched ↔ ¬ ∃ e, Event.fullMatch e ∈ ev) := by
  have hi := h.inv
  obtain ⟨w', ev, hst⟩ := (C17_progress hi.reach (.call m a)).1 hm (by simp [Trace.overflows])
  obtain ⟨us, last, hev, _, hcase⟩ := C10_outcome hi.reach hst
  have hus : ∀ us : List Nat, deliver c.reporter c.uncaught none (us.map Event.unhandled) = .ok none := by
    intro us
    induction us with
    | nil => rfl
    | cons x us ih =>
      simp [deliver, deliverOne, Reporter.exn, uncaught, hR.unhandledException, atNoexcept, bind, Except.bind, pure, Except.pure, ih]
  have hmem : ∀ e, Event.fullMatch e ∈ ev ↔ last = .fullMatch e := by
    intro e; rw [hev]; simp [eq_comm]
  have hlast : (∃ e, last = .fullMatch e) ∨ (∃ es, last = .inapplicable es) ∨ ∃ es, last = .noMatch es := by grind
  have hstep : ∀ exn, deliver c.reporter c.uncaught none ev = .ok exn →
      sw.step c (.plain (.call m a)) = .ok ({ sw with w := w' }, ⟨[(.call m a, ev)], none, exn, none⟩) := by
    intro exn hd
    simp [SWorld.step, SWorld.lib, hst, hd]
  have hdel : deliver c.reporter c.uncaught none ev = deliver c.reporter c.uncaught none [last] := by
    rw [hev, deliver_append, hus]
    rfl
  rcases hlast with ⟨e, rfl⟩ | ⟨es, rfl⟩ | ⟨es, rfl⟩
  · refine ⟨_, _, ev, hstep none ?_, rfl, by simp [hmem], by simp [hmem]⟩
    rw [hdel]
    simp [deliver, deliverOne, Reporter.exn, uncaught, hR.fullMatch, atNoexcept, bind, Except.bind, pure, Except.pure]
  · refine ⟨_, _, ev, hstep (some .unmatched) ?_, rfl, by simp [hmem], by simp [hmem]⟩
    rw [hdel]
    simp [deliver, deliverOne, Reporter.exn, uncaught, hR.inapplicableMatches]
  · refine ⟨_, _, ev, hstep (some .unmatched) ?_, rfl, by simp [hmem], by simp [hmem]⟩
    rw [hdel]
    simp [deliver, deliverOne, Reporter.exn, uncaught, hR.noMatches]

/-- C38: the end of a scoped expectation. The exception says which expectation was unfulfilled and is thrown exactly if no
other one is on its way. The program is terminated exactly if nothing is unfulfilled but a sequence ends with an error. -/
theorem C38_drop {tr : STrace α} {sw : SWorld α} (h : SReach tr sw) {c : Ctx} (hR : c.reporter.Lawful) {o : Nat}
    (ho : tr.exists o) :
    (∃ sw' log, sw.step c (.drop o) = .ok (sw', log) ∧
      ∀ x, log.exn = some x ↔ ∃ e, x = .unfulfilled e ∧ tr.owns o e ∧ tr.flat.unmet e ∧ c.uncaught = 0) ∨
    ((∃ why, sw.step c (.drop o) = .error (.terminate why)) ∧ c.uncaught = 0 ∧
      ∃ e w' ev, tr.owns o e ∧ ¬ tr.flat.unmet e ∧ sw.w.step (.destroy e) = .ok (w', ev) ∧ sequenceErrorIn ev) := by
  have hi := h.inv
  rw [hi.exists_] at ho
  simp only [hi.owns]
  cases hoe : innerAt sw.slots o with
  | none => exact Or.inl ⟨_, _, drop_empty hoe ho c, by simp⟩
  | some e =>
    obtain ⟨w', ev, h1, h2⟩ := drop_owner hi hoe c
    obtain ⟨d1, d2, d3, d4⟩ := destroy_deliver hR hi.reach h1 c.uncaught
    rw [h2]
    by_cases hu0 : c.uncaught = 0
    · by_cases hu : tr.flat.unmet e
      · left
        rw [d1 hu hu0]
        refine ⟨_, _, rfl, fun x => ?_⟩
        simp only [Option.some.injEq]
        constructor
        · rintro rfl; exact ⟨e, rfl, rfl, hu, hu0⟩
        · rintro ⟨e', rfl, rfl, _, _⟩; rfl
      · by_cases hse : sequenceErrorIn ev
        · right
          obtain ⟨why, h3⟩ := d3 hu hu0 hse
          rw [h3]
          exact ⟨⟨_, rfl⟩, hu0, e, w', ev, rfl, hu, h1, hse⟩
        · left
          rw [d4 hu hse]
          refine ⟨_, _, rfl, fun x => ?_⟩
          simp only [reduceCtorEq, Option.some.injEq, false_iff, not_exists, not_and]
          rintro e' _ rfl hc
          exact absurd hc hu
    · left
      rw [d2 (by omega)]
      refine ⟨_, _, rfl, fun x => ?_⟩
      simp [hu0]

/-- The objects of a scope are there and different. -/
theorem exists_after_drop {tr : STrace α} {c : Ctx} {o : Nat} {log : SLog α} {o' : Nat} (ho : tr.exists o') (hne : o' ≠ o) :
    (tr ++ [⟨c, .drop o, log⟩] : STrace α).exists o' := by
  rw [sexists_snoc]
  exact ⟨Or.inl ho.1, ho.2, by simp; exact Ne.symm hne⟩

theorem owns_after_drop {tr : STrace α} {sw sw' : SWorld α} (h : SReach tr sw) {c : Ctx} {o : Nat} {log : SLog α}
    (hs : sw.step c (.drop o) = .ok (sw', log)) {o' e : Nat} (hne : o' ≠ o) :
    (tr ++ [⟨c, .drop o, log⟩] : STrace α).owns o' e ↔ tr.owns o' e := by
  have hi := h.inv
  have hi' := (SReach.step h hs).inv
  rw [hi'.owns, hi.owns]
  have : innerAt sw'.slots o' = innerAt sw.slots o' := by
    simp only [SWorld.step] at hs
    split at hs
    · simp at hs
    · split at hs
      · simp only [Except.ok.injEq, Prod.mk.injEq] at hs
        obtain ⟨rfl, rfl⟩ := hs
        rw [innerAt_set, if_neg (by simp [hne])]
      · split at hs
        · simp at hs
        · rename_i hlib
          simp only [Except.ok.injEq, Prod.mk.injEq] at hs
          obtain ⟨rfl, rfl⟩ := hs
          obtain ⟨w', _, rfl, _⟩ := lib_eq hlib
          rw [innerAt_set, if_neg (by simp [hne])]
  rw [this]

theorem unmet_after_drop {tr : STrace α} {sw sw' : SWorld α} {c : Ctx} {o : Nat} {log : SLog α}
    (hs : sw.step c (.drop o) = .ok (sw', log)) (e : Nat) :
    (tr ++ [⟨c, .drop o, log⟩] : STrace α).flat.unmet e ↔ tr.flat.unmet e := by
  rw [sflat_snoc]
  simp only [SWorld.step] at hs
  split at hs
  · simp at hs
  · split at hs
    · simp only [Except.ok.injEq, Prod.mk.injEq] at hs
      obtain ⟨rfl, rfl⟩ := hs
      simp
    · split at hs
      · simp at hs
      · rename_i hlib
        simp only [Except.ok.injEq, Prod.mk.injEq] at hs
        obtain ⟨rfl, rfl⟩ := hs
        obtain ⟨w', hst, rfl, _⟩ := lib_eq hlib
        exact unmet_destroy hst e

/-- C38: while an exception is on its way, any number of scoped expectations can end, fulfilled or not: the program is not
terminated and the exception stays the one it was. -/
theorem C38_unwinding {R : Reporter} (hR : R.Lawful) {u : Nat} {pending : Option Exn} (hp : 0 < uncaught u pending)
    {tr : STrace α} {sw : SWorld α} (h : SReach tr sw) {os : List Nat} (hn : os.Nodup) (ho : ∀ o ∈ os, tr.exists o) :
    ∃ sw' tr', endScope R u pending sw os = .ok (sw', tr', pending) ∧ SReach (tr ++ tr') sw' ∧
      tr'.map (·.op) = os.map .drop := by
  induction os generalizing tr sw with
  | nil => exact ⟨sw, [], rfl, by simpa using h, rfl⟩
  | cons o os ih =>
    simp only [List.nodup_cons] at hn
    rcases C38_drop h (c := ⟨R, uncaught u pending⟩) hR (ho o (by simp)) with ⟨sw1, log, hs, hx⟩ | ⟨_, h0, _⟩
    · have hnone : log.exn = none := by
        cases hl : log.exn with
        | none => rfl
        | some x =>
          obtain ⟨_, _, _, _, h0⟩ := (hx x).mp hl
          simp only at h0
          omega
      obtain ⟨sw', tr', h1, h2, h3⟩ := ih (.step h hs) hn.2 (fun o' ho' =>
        exists_after_drop (ho o' (by simp [ho'])) (by rintro rfl; exact hn.1 ho'))
      refine ⟨sw', ⟨⟨R, uncaught u pending⟩, .drop o, log⟩ :: tr', ?_, by simpa using h2, by simp [h3]⟩
      simp only [endScope, hs, hnone]
      cases pending <;> simp_all
    · simp only at h0
      omega

/-- C38: this is due to the reporter. With one that throws about an unfulfilled expectation although an exception is on its
way, whatever else it does, the end of an unfulfilled expectation then terminates the program. -/
theorem C38_careless {R : Reporter} (hR : ∀ n, (R .unfulfilledExpectation n).throws = true) {u : Nat} {x : Exn}
    {tr : STrace α} {sw : SWorld α} (h : SReach tr sw) {os : List Nat} (hn : os.Nodup) (ho : ∀ o ∈ os, tr.exists o)
    (hu : ∃ o ∈ os, ∃ e, tr.owns o e ∧ tr.flat.unmet e) :
    ∃ why, endScope R u (some x) sw os = .error (.terminate why) := by
  induction os generalizing tr sw with
  | nil => simp at hu
  | cons o os ih =>
    simp only [List.nodup_cons] at hn
    have hi := h.inv
    have hex := ho o (by simp)
    rw [hi.exists_] at hex
    have hrest : ∀ {sw1 log}, sw.step ⟨R, uncaught u (some x)⟩ (.drop o) = .ok (sw1, log) →
        (∀ e, innerAt sw.slots o = some e → ¬ tr.flat.unmet e) →
        ∃ why, endScope R u (some x) sw1 os = .error (.terminate why) := by
      intro sw1 log hs hno
      refine ih (.step h hs) hn.2 (fun o' ho' =>
        exists_after_drop (ho o' (by simp [ho'])) (by rintro rfl; exact hn.1 ho')) ?_
      obtain ⟨o', ho', e, h1, h2⟩ := hu
      have hne : o' ≠ o := by
        rintro rfl
        exact hno e ((hi.owns _ _).mp h1) h2
      have hm : o' ∈ os := by simpa [hne] using ho'
      exact ⟨o', hm, e, (owns_after_drop h hs hne).mpr h1, (unmet_after_drop hs e).mpr h2⟩
    cases hoe : innerAt sw.slots o with
    | none =>
      have hd := drop_empty hoe hex ⟨R, uncaught u (some x)⟩
      obtain ⟨why, hw⟩ := hrest hd (by rw [hoe]; simp)
      exact ⟨why, by simp only [endScope, hd, Option.or]; simp [hw]⟩
    | some e =>
      obtain ⟨w', ev, h1, h2⟩ := drop_owner hi hoe ⟨R, uncaught u (some x)⟩
      obtain ⟨rest, hr, hcase⟩ := destroy_report hi.reach h1
      simp only at h2
      rcases hcase with ⟨hum, rfl⟩ | ⟨hum, rfl⟩
      · have hd : deliver R (uncaught u (some x)) none (.destroyed e :: .unfulfilled e :: rest) =
            deliver R (uncaught u (some x)) (some (.unfulfilled e)) rest := by
          simp [deliver, deliverOne, Reporter.exn, hR]
        rw [hd] at h2
        rcases deliver_seq (R := R) (u := uncaught u (some x)) (p := some (.unfulfilled e)) hr with ⟨_, _, why, h3⟩ | ⟨_, h3⟩
        · rw [h3] at h2
          exact ⟨why, by simp only [endScope, h2]⟩
        · rw [h3] at h2
          exact ⟨"exception during stack unwinding", by simp only [endScope, h2]⟩
      · have hd : deliver R (uncaught u (some x)) none (.destroyed e :: rest) = deliver R (uncaught u (some x)) none rest := rfl
        rw [hd] at h2
        rcases deliver_seq (R := R) (u := uncaught u (some x)) (p := none) hr with ⟨_, _, why, h3⟩ | ⟨_, h3⟩
        · rw [h3] at h2
          exact ⟨why, by simp only [endScope, h2]⟩
        · rw [h3] at h2
          obtain ⟨why, hw⟩ := hrest h2 (by rw [hoe]; rintro _ ⟨⟩; exact hum)
          exact ⟨why, by simp only [endScope, h2, Option.or]; simp [hw]⟩

/-- C38: a scope ends normally. If its end is reached then the exception that leaves it, if any, belongs to the first
destroyed object with an unfulfilled expectation, and all others are silent. -/
theorem C38_scope {R : Reporter} (hR : R.Lawful) {tr tr' : STrace α} {sw sw' : SWorld α} (h : SReach tr sw) {os : List Nat}
    (hn : os.Nodup) (ho : ∀ o ∈ os, tr.exists o) {exn : Option Exn} (he : endScope R 0 none sw os = .ok (sw', tr', exn)) :
    SReach (tr ++ tr') sw' ∧ tr'.map (·.op) = os.map .drop ∧
    ((∀ o ∈ os, ∀ e, tr.owns o e → ¬ tr.flat.unmet e) → exn = none) ∧
    (∀ os1 o os2 e, os = os1 ++ o :: os2 → tr.owns o e → tr.flat.unmet e →
      (∀ o' ∈ os1, ∀ e', tr.owns o' e' → ¬ tr.flat.unmet e') → exn = some (.unfulfilled e)) := by
  induction os generalizing tr sw tr' with
  | nil =>
    simp only [endScope, Except.ok.injEq, Prod.mk.injEq] at he
    obtain ⟨rfl, rfl, rfl⟩ := he
    exact ⟨by simpa using h, rfl, fun _ => rfl, by simp⟩
  | cons o os ih =>
    simp only [List.nodup_cons] at hn
    rcases C38_drop h (c := ⟨R, 0⟩) hR (ho o (by simp)) with ⟨sw1, log, hs, hx⟩ | ⟨⟨why, hw⟩, _⟩
    · have hex : ∀ o' ∈ os, (tr ++ [⟨⟨R, 0⟩, .drop o, log⟩] : STrace α).exists o' := fun o' ho' =>
        exists_after_drop (ho o' (by simp [ho'])) (by rintro rfl; exact hn.1 ho')
      cases hl : log.exn with
      | none =>
        simp only [endScope, uncaught, hs, hl] at he
        split at he
        · simp at he
        · rename_i sw2 tr2 exn2 hrec
          simp only [Except.ok.injEq, Prod.mk.injEq] at he
          obtain ⟨rfl, rfl, rfl⟩ := he
          obtain ⟨g1, g2, g3, g4⟩ := ih (.step h hs) hn.2 hex hrec
          have hown : ∀ o' ∈ os, ∀ e, (tr ++ [⟨⟨R, 0⟩, .drop o, log⟩] : STrace α).owns o' e ↔ tr.owns o' e := fun o' ho' e =>
            owns_after_drop h hs (by rintro rfl; exact hn.1 ho')
          have hun := unmet_after_drop (tr := tr) hs
          refine ⟨by simpa using g1, by simp [g2], fun hall => g3 ?_, ?_⟩
          · intro o' ho' e' hoe
            rw [hown o' ho'] at hoe
            rw [hun]
            exact hall o' (by simp [ho']) e' hoe
          · intro os1 o1 os2 e hos hoe hu hmin
            cases os1 with
            | nil =>
              simp only [List.nil_append, List.cons.injEq] at hos
              obtain ⟨rfl, rfl⟩ := hos
              have := (hx (.unfulfilled e)).mpr ⟨e, rfl, hoe, hu, rfl⟩
              rw [hl] at this
              simp at this
            | cons o2 os1 =>
              simp only [List.cons_append, List.cons.injEq] at hos
              obtain ⟨rfl, rfl⟩ := hos
              refine g4 os1 o1 os2 e rfl ((hown o1 (by simp) e).mpr hoe) ((hun e).mpr hu) ?_
              intro o' ho' e' hoe'
              rw [hown o' (by simp [ho'])] at hoe'
              rw [hun]
              exact hmin o' (by simp [ho']) e' hoe'
      | some x =>
        obtain ⟨e0, rfl, hoe0, hu0, _⟩ := (hx x).mp hl
        obtain ⟨sw2, tr2, g1, g2, g3⟩ := C38_unwinding hR (u := 0) (pending := some (.unfulfilled e0)) (by simp [uncaught])
          (.step h hs) hn.2 hex
        simp only [endScope, uncaught, hs, hl, Option.none_or, g1, Except.ok.injEq, Prod.mk.injEq] at he
        obtain ⟨rfl, rfl, rfl⟩ := he
        refine ⟨by simpa using g2, by simp [g3], fun hall => absurd hu0 (hall o (by simp) e0 hoe0), ?_⟩
        intro os1 o1 os2 e hos hoe hu hmin
        cases os1 with
        | nil =>
          simp only [List.nil_append, List.cons.injEq] at hos
          obtain ⟨rfl, rfl⟩ := hos
          rw [(C37_owner h).2.2.1 _ _ _ hoe hoe0]
        | cons o2 os1 =>
          simp only [List.cons_append, List.cons.injEq] at hos
          obtain ⟨rfl, rfl⟩ := hos
          exact absurd hu0 (hmin o (by simp) e0 hoe0)
    · simp only [endScope, uncaught, hw] at he
      simp at he

/-- C38, C39: the only way in which the end of a scope terminates the program is a sequence that ends with an error while no
exception is on its way. -/
theorem C38_scope_terminates {R : Reporter} (hR : R.Lawful) {tr : STrace α} {sw : SWorld α} (h : SReach tr sw) {os : List Nat}
    (hn : os.Nodup) (ho : ∀ o ∈ os, tr.exists o) {x : Stop} (he : endScope R 0 none sw os = .error x) :
    (∃ why, x = .terminate why) ∧
    ∃ os1 o os2 sw1 tr1 e w' ev, os = os1 ++ o :: os2 ∧ endScope R 0 none sw os1 = .ok (sw1, tr1, none) ∧ tr.owns o e ∧
      ¬ tr.flat.unmet e ∧ sw1.w.step (.destroy e) = .ok (w', ev) ∧ sequenceErrorIn ev := by
  induction os generalizing tr sw with
  | nil => simp [endScope] at he
  | cons o os ih =>
    simp only [List.nodup_cons] at hn
    rcases C38_drop h (c := ⟨R, 0⟩) hR (ho o (by simp)) with ⟨sw1, log, hs, hx⟩ | ⟨⟨why, hw⟩, _, e, w', ev, h1, h2, h3, h4⟩
    · have hex : ∀ o' ∈ os, (tr ++ [⟨⟨R, 0⟩, .drop o, log⟩] : STrace α).exists o' := fun o' ho' =>
        exists_after_drop (ho o' (by simp [ho'])) (by rintro rfl; exact hn.1 ho')
      cases hl : log.exn with
      | none =>
        have he2 : endScope R 0 none sw1 os = .error x := by
          simp only [endScope, uncaught, hs, hl] at he
          split at he
          · rename_i y hy
            simp only [Except.error.injEq] at he
            subst he
            exact hy
          · simp at he
        obtain ⟨g1, os1, o1, os2, sw2, tr2, e, w', ev, g2, g3, g4, g5, g6, g7⟩ := ih (.step h hs) hn.2 hex he2
        refine ⟨g1, o :: os1, o1, os2, sw2, ⟨⟨R, 0⟩, .drop o, log⟩ :: tr2, e, w', ev, by simp [g2], ?_, ?_, ?_, g6, g7⟩
        · simp only [endScope, uncaught, hs, hl, Option.none_or, g3]
        · rwa [owns_after_drop h hs (by rintro rfl; exact hn.1 (by simp [g2]))] at g4
        · rwa [unmet_after_drop hs] at g5
      | some y =>
        obtain ⟨sw2, tr2, g1, _⟩ := C38_unwinding hR (u := 0) (pending := some y) (by simp [uncaught]) (.step h hs) hn.2 hex
        simp only [endScope, uncaught, hs, hl, Option.none_or, g1] at he
        simp at he
    · refine ⟨?_, [], o, os, sw, [], e, w', ev, rfl, rfl, h1, h2, h3, h4⟩
      simp only [endScope, uncaught, hw, Except.error.injEq] at he
      exact ⟨why, he.symm⟩

/-! ## C39 -/

theorem deliver_no_sequence {R : Reporter} {u : Nat} {ev : List Event} {p exn : Option Exn}
    (h : deliver R u p ev = .ok exn) (hp : ∀ s, p ≠ some (.sequence s)) : ∀ s, exn ≠ some (.sequence s) := by
  induction ev generalizing p with
  | nil =>
    simp only [deliver, Except.ok.injEq] at h
    rwa [← h]
  | cons x ev ih =>
    simp only [deliver] at h
    split at h
    · simp at h
    · rename_i q hq
      refine ih h ?_
      cases x <;> simp only [deliverOne, Reporter.exn, bind, Except.bind, pure, Except.pure] at hq <;>
        grind [atNoexcept]

/-- C39: whatever reporter is installed, and whatever the client does: the exception about an unfulfilled sequence never
reaches the client. -/
theorem C39_never_caught {sw sw' : SWorld α} {c : Ctx} {op : SOp α} {log : SLog α} (hs : sw.step c op = .ok (sw', log))
    (s : Nat) : log.exn ≠ some (.sequence s) := by
  have key : ∀ {sw sw' : SWorld α} {op : Op α} {ev exn}, sw.lib c op = .ok (sw', ev, exn) → exn ≠ some (.sequence s) := by
    intro sw sw' op ev exn h
    obtain ⟨_, _, _, hd⟩ := lib_eq h
    exact deliver_no_sequence hd (by simp) s
  cases op <;> simp only [SWorld.step] at hs
  · split at hs
    · simp at hs
    · simp at hs
    · split at hs
      · simp at hs
      · rename_i hlib
        simp only [Except.ok.injEq, Prod.mk.injEq] at hs
        rw [← hs.2]
        exact key hlib
  · split at hs
    · simp at hs
    · rename_i hlib
      simp only [Except.ok.injEq, Prod.mk.injEq] at hs
      rw [← hs.2]
      exact key hlib
    · simp only [Except.ok.injEq, Prod.mk.injEq] at hs
      rw [← hs.2]
      simp
  · split at hs
    · simp at hs
    · simp only [Except.ok.injEq, Prod.mk.injEq] at hs
      rw [← hs.2]
      simp
  · split at hs
    · split at hs
      · simp only [Except.ok.injEq, Prod.mk.injEq] at hs
        rw [← hs.2]
        simp
      · split at hs
        · simp only [Except.ok.injEq, Prod.mk.injEq] at hs
          rw [← hs.2]
          simp
        · split at hs
          · simp at hs
          · split at hs
            · simp at hs
            · simp only [Except.ok.injEq, Prod.mk.injEq] at hs
              rw [← hs.2]
              simp
    · simp at hs
  · split at hs
    · simp at hs
    · split at hs
      · simp only [Except.ok.injEq, Prod.mk.injEq] at hs
        rw [← hs.2]
        simp
      · split at hs
        · simp at hs
        · rename_i hlib
          simp only [Except.ok.injEq, Prod.mk.injEq] at hs
          rw [← hs.2]
          exact key hlib
  · split at hs
    · simp at hs
    · split at hs
      · simp at hs
      · split at hs
        · simp at hs
        · simp only [Except.ok.injEq, Prod.mk.injEq] at hs
          rw [← hs.2]
          simp

/-- C39: the end of the client's sequence object, with a reporter that follows the rules: if the sequence ends with an error
then the program is terminated, or nothing happens at all if an exception is already on its way. -/
theorem C39_sequence_object {tr : STrace α} {sw : SWorld α} (h : SReach tr sw) {c : Ctx} (hR : c.reporter.Lawful) {s : Nat}
    (hs : tr.flat.handle s) :
    ∃ w' ev, sw.w.step (.dropSequence s) = .ok (w', ev) ∧
      ((sequenceErrorIn ev ∧ c.uncaught = 0 ∧ ∃ why, sw.step c (.plain (.dropSequence s)) = .error (.terminate why)) ∨
       (¬ (sequenceErrorIn ev ∧ c.uncaught = 0) ∧
        ∃ sw' log, sw.step c (.plain (.dropSequence s)) = .ok (sw', log) ∧ log.exn = none)) := by
  have hi := h.inv
  obtain ⟨w', ev, hst⟩ := (C17_progress hi.reach (.dropSequence s)).1 hs (by simp [Trace.overflows])
  refine ⟨w', ev, hst, ?_⟩
  have hE := hR.error c.uncaught
  rcases deliver_seq (R := c.reporter) (u := c.uncaught) (p := none) (dropSequence_events hst) with ⟨h1, h2, why, h3⟩ | ⟨h1, h2⟩
  · left
    simp only [uncaught, hE] at h2
    refine ⟨h1, h2, why, ?_⟩
    simp [SWorld.step, SWorld.lib, hst, h3]
  · right
    simp only [uncaught, hE] at h1
    refine ⟨h1, ?_⟩
    simp only [SWorld.step, SWorld.lib, hst, h2]
    exact ⟨_, _, rfl, rfl⟩

/-! ## Examples -/

namespace ScopedExamples

/-- Runs a client with the default reporter; `u` exceptions are on their way all the time. -/
def run (u : Nat) (sw : SWorld Nat) : List (SOp Nat) → M (STrace Nat × SWorld Nat)
  | [] => .ok ([], sw)
  | op :: ops =>
    match sw.step ⟨defaultReporter true, u⟩ op with
    | .error x => .error x
    | .ok (sw', log) =>
      match run u sw' ops with
      | .error x => .error x
      | .ok (tr, sw'') => .ok (⟨⟨defaultReporter true, u⟩, op, log⟩ :: tr, sw'')

theorem run_reach {u : Nat} {tr tr' : STrace Nat} {sw sw' : SWorld Nat} {ops : List (SOp Nat)} (h : SReach tr sw)
    (hr : run u sw ops = .ok (tr', sw')) : SReach (tr ++ tr') sw' := by
  induction ops generalizing tr sw tr' with
  | nil =>
    simp only [run, Except.ok.injEq, Prod.mk.injEq] at hr
    obtain ⟨rfl, rfl⟩ := hr
    simpa using h
  | cons op ops ih =>
    simp only [run] at hr
    split at hr
    · simp at hr
    · rename_i sw1 log hs
      split at hr
      · simp at hr
      · rename_i tr1 sw2 h1
        simp only [Except.ok.injEq, Prod.mk.injEq] at hr
        obtain ⟨rfl, rfl⟩ := hr
        simpa using ih (.step h hs) h1

/-- What the client sees: new objects, exceptions and answers. -/
def seen (u : Nat) (ops : List (SOp Nat)) : M (List (Option Nat × Option Exn × Option Bool)) :=
  match run u SWorld.init ops with
  | .error x => .error x
  | .ok r => .ok (r.1.map (fun st => (st.log.slot, st.log.exn, st.log.answer)))

def anything : Policy Nat := ⟨fun _ => some true, true, none⟩

/-- `mock.expect_call(_) and expect::once()` twice. -/
def two : List (SOp Nat) := [.plain .newMock, .expect 0 1 1 [] [anything], .expect 0 1 1 [] [anything]]

/-- C37: the owner changes by moves; only the end of the owner checks. The moved-from objects 0 and 2 end silently. -/
example : seen 0 (two ++ [.moveConstruct 0, .moveConstruct 2, .drop 0, .drop 2, .isSatisfied 3, .drop 3]) =
    .ok [(none, none, none), (some 0, none, none), (some 1, none, none), (some 2, none, none), (some 3, none, none),
      (none, none, none), (none, none, none), (none, none, some false), (none, some (.unfulfilled 0), none)] := rfl

/-- C37: assigning over an unfulfilled expectation terminates; over one that is fulfilled it does not. -/
example : seen 0 (two ++ [.moveAssign 0 1]) = .error (.terminate "unique_ptr::reset") := rfl
example : seen 0 (two ++ [.plain (.call 0 7), .plain (.call 0 7), .moveAssign 0 1, .drop 0, .drop 1]) =
    .ok [(none, none, none), (some 0, none, none), (some 1, none, none), (none, none, none), (none, none, none),
      (none, none, none), (none, none, none), (none, none, none)] := rfl

/-- C37: with an exception on its way it does not terminate. -/
example : seen 1 (two ++ [.moveAssign 0 1, .drop 1]) =
    .ok [(none, none, none), (some 0, none, none), (some 1, none, none), (none, none, none), (none, none, none)] := rfl

/-- C37: self-assignment. -/
example : seen 0 (two ++ [.moveAssign 0 0, .drop 0]) =
    .ok [(none, none, none), (some 0, none, none), (some 1, none, none), (none, none, none),
      (none, some (.unfulfilled 0), none)] := rfl

/-- C37: asking an object that was moved from. -/
example : seen 0 (two ++ [.moveConstruct 0, .isSatisfied 0]) = .error (.ub "null pointer") := rfl

/-- C38: calls with and without a match. -/
example : seen 0 [.plain .newMock, .expect 0 1 1 [] [anything], .plain (.call 0 7), .plain (.call 0 7), .drop 0] =
    .ok [(none, none, none), (some 0, none, none), (none, none, none), (none, some .unmatched, none), (none, none, none)] := rfl

/-- The exception with which a scope is left. -/
def left (u : Nat) (pending : Option Exn) (ops : List (SOp Nat)) (os : List Nat) : M (Option Exn) :=
  match run u SWorld.init ops with
  | .error x => .error x
  | .ok r =>
    match endScope (defaultReporter true) u pending r.2 os with
    | .error x => .error x
    | .ok (_, _, exn) => .ok exn

/-- C38: two unfulfilled expectations; the first that ends is the one that is reported. -/
example : left 0 none two [1, 0] = .ok (some (.unfulfilled 1)) := rfl
example : left 0 none (two ++ [.plain (.call 0 7)]) [1, 0] = .ok (some (.unfulfilled 0)) := rfl
example : left 0 none (two ++ [.plain (.call 0 7), .plain (.call 0 7)]) [1, 0] = .ok none := rfl

/-- C38: both end while an exception is on its way. -/
example : left 0 (some .unmatched) two [1, 0] = .ok (some .unmatched) := rfl

/-- C38: the same with a reporter that throws without asking. -/
example : (match run 0 SWorld.init two with
    | .error x => (.error x : M (Option Exn))
    | .ok r => match endScope (fun r _ => ⟨true, r = Report.unfulfilledExpectation⟩) 0 (some .unmatched) r.2 [1, 0] with
      | .error x => .error x
      | .ok (_, _, exn) => .ok exn) = .error (.terminate "exception during stack unwinding") := rfl

/-- A sequence with two expectations of which one was never called. -/
def sequence : List (SOp Nat) :=
  [.plain (.newSequence .lazy), .plain .newMock, .expect 0 1 1 [0] [anything], .expect 0 1 1 [0] [anything]]

/-- C39: the scope ends: first the expectations, of which one is unfulfilled, then the sequence. The first is reported; the
sequence is silent because the exception is on its way. -/
example : seen 0 (sequence ++ [.plain (.call 0 7), .drop 1, .drop 0]) =
    .ok [(none, none, none), (none, none, none), (some 0, none, none), (some 1, none, none), (none, none, none),
      (none, some (.unfulfilled 1), none), (none, none, none)] := rfl

/-- C39: the client catches that exception before the sequence ends: now the program is terminated. -/
example : seen 0 (sequence ++ [.plain (.call 0 7), .drop 1, .drop 0, .plain (.dropSequence 0)]) =
    .error (.terminate "~shared_ptr") := rfl
example : seen 1 (sequence ++ [.plain (.call 0 7), .drop 1, .drop 0, .plain (.dropSequence 0)]) =
    .ok [(none, none, none), (none, none, none), (some 0, none, none), (some 1, none, none), (none, none, none),
      (none, none, none), (none, none, none), (none, none, none)] := rfl

/-- C38, C39: the sequence object ends first, then the expectations, and the last one is fulfilled: terminated. -/
example : left 0 none (sequence ++ [.plain (.call 0 7), .plain (.dropSequence 0)]) [1, 0] = .ok (some (.unfulfilled 1)) := rfl
example : seen 0 (sequence ++ [.plain (.call 0 7), .plain (.dropSequence 0), .drop 1, .drop 0]) =
    .error (.terminate "~shared_ptr") := rfl

end ScopedExamples

end Mimic
