import Verif.Props.Scoped
import Verif.Spec.TestRun

/-!
# Lemmas about tests
-/

set_option autoImplicit false
set_option linter.unusedSimpArgs false

namespace Mimic.TestRun

variable {α : Type}

theorem lawful (k : Installed) : k.reporter.Lawful := by
  cases k with
  | default out =>
    refine ⟨?_, ?_, ?_, ?_, ?_, ?_⟩ <;> intro n <;> simp only [Installed.reporter, Installed.react, defaultReporter] <;>
      by_cases hn : n = 0 <;> simp [hn]
  | adapter f =>
    refine ⟨?_, ?_, ?_, ?_, ?_, ?_⟩ <;> intro n <;> simp only [Installed.reporter, Installed.react] <;>
      by_cases hn : n = 0 <;> cases f <;> simp [hn, Framework.send]

theorem failed_count (f : Framework) : (f.send .failure).notes.count .failed = 1 ∧ (f.send .success).notes.count .failed = 0 ∧
    (f.send .warning).notes.count .failed = 0 := by
  cases f <;> simp [Framework.send]

theorem noted_default (out : Bool) (u : Nat) (p : Option Exn) (ev : List Event) : noted (.default out) u p ev = [] := by
  induction ev generalizing p with
  | nil => rfl
  | cons e es ih =>
    simp only [noted, ih, List.append_nil]
    cases reportOf e <;> rfl

theorem noted_unhandled (f : Framework) (u : Nat) (us : List Nat) (last : Event) :
    (noted (.adapter f) u none (us.map Event.unhandled ++ [last])).count .failed =
      (noted (.adapter f) u none [last]).count .failed := by
  induction us with
  | nil => rfl
  | cons x us ih =>
    have h := (lawful (.adapter f)).unhandledException (uncaught u none)
    have h1 : noted (.adapter f) u none (Event.unhandled x :: (us.map Event.unhandled ++ [last])) =
        (f.send .warning).notes ++ noted (.adapter f) u none (us.map Event.unhandled ++ [last]) := by
      simp [noted, reportOf, deliverOne, Reporter.exn, h, atNoexcept, bind, Except.bind, pure, Except.pure, Installed.react]
    rw [List.map_cons, List.cons_append, h1, List.count_append, (failed_count f).2.2, Nat.zero_add, ih]

theorem noted_seq (f : Framework) (u : Nat) (p q : Option Exn) {ev : List Event} (h : ∀ x ∈ ev, seqEvent x)
    (hd : deliver (Installed.adapter f).reporter u p ev = .ok q) : noted (.adapter f) u p ev = [] := by
  induction ev with
  | nil => rfl
  | cons e es ih =>
    have he := h e (by simp)
    have hes : ∀ x ∈ es, seqEvent x := fun x hx => h x (by simp [hx])
    simp only [deliver] at hd
    cases e <;> simp only [seqEvent] at he
    case sequenceDestroyed s =>
      simp only [deliverOne] at hd
      simp only [noted, reportOf, deliverOne, ih hes hd, List.append_nil]
    case sequenceError s k n =>
      have hl := (lawful (.adapter f)).error (uncaught u p)
      simp only [deliverOne, Reporter.exn] at hd
      by_cases h0 : uncaught u p = 0
      · simp [hl.mpr h0, atNoexcept, bind, Except.bind] at hd
      · have hf : ((Installed.adapter f).reporter .error (uncaught u p)).throws = false := by
          rw [← Bool.not_eq_true, hl]; exact h0
        simp only [hf, atNoexcept, bind, Except.bind, pure, Except.pure] at hd
        simp only [noted, reportOf, deliverOne, Reporter.exn, hf, atNoexcept, bind, Except.bind, pure, Except.pure]
        have hd' : deliver (Installed.adapter f).reporter u p es = .ok q := hd
        simp [ih hes hd', Installed.react, h0]

/-- The notes of the end of an expectation. -/
theorem noted_destroy (f : Framework) (u : Nat) {tr : Trace α} {w w' : World α} (h : Reach tr w) {e : Nat} {ev : List Event}
    (hs : w.step (.destroy e) = .ok (w', ev)) {q : Option Exn} (hd : deliver (Installed.adapter f).reporter u none ev = .ok q) :
    (tr.unmet e ∧ u = 0 ∧ (noted (.adapter f) u none ev).count .failed = 1) ∨
    (¬ (tr.unmet e ∧ u = 0) ∧ (noted (.adapter f) u none ev).count .failed = 0) := by
  obtain ⟨rest, hr, hcase⟩ := destroy_report h hs
  have hl := (lawful (.adapter f)).unfulfilledExpectation u
  rcases hcase with ⟨hu, rfl⟩ | ⟨hu, rfl⟩
  · by_cases h0 : u = 0
    · left
      refine ⟨hu, h0, ?_⟩
      have ht := hl.mpr h0
      simp only [deliver, deliverOne, Reporter.exn, uncaught, ht, if_true] at hd
      simp only [noted, reportOf, deliverOne, Reporter.exn, uncaught, ht, if_true]
      rw [noted_seq f u _ q hr hd]
      simp [Installed.react, h0, (failed_count f).1]
    · right
      refine ⟨fun hc => h0 hc.2, ?_⟩
      have ht : ((Installed.adapter f).reporter .unfulfilledExpectation u).throws = false := by
        rw [← Bool.not_eq_true, hl]; exact h0
      simp only [deliver, deliverOne, Reporter.exn, uncaught, ht, Bool.false_eq_true, if_false] at hd
      simp only [noted, reportOf, deliverOne, Reporter.exn, uncaught, ht, Bool.false_eq_true, if_false]
      rw [noted_seq f u _ q hr hd]
      simp [Installed.react, h0]
  · right
    refine ⟨fun hc => hu hc.1, ?_⟩
    simp only [deliver, deliverOne] at hd
    simp only [noted, reportOf, deliverOne]
    rw [noted_seq f u _ q hr hd]
    simp

/-- The failures that are noted during one operation. -/
theorem step_notes (f : Framework) {tr : STrace α} {sw sw' : SWorld α} (h : SReach tr sw) {u : Nat} {op : SOp α} {log : SLog α}
    (hs : sw.step ⟨(Installed.adapter f).reporter, u⟩ op = .ok (sw', log)) :
    let st : SEntry α := ⟨⟨(Installed.adapter f).reporter, u⟩, op, log⟩
    let n := (noted (.adapter f) u none (log.lib.flatMap (·.2))).count .failed
    (Violates tr st ∧ ((∃ m a, op = .plain (.call m a)) ∨ u = 0) ∧ n = 1) ∨
    (¬ (Violates tr st ∧ ((∃ m a, op = .plain (.call m a)) ∨ u = 0)) ∧ n = 0) := by
  intro st n
  have hi := h.inv
  have silent : (∀ m a, op ≠ .plain (.call m a)) → (∀ o e, tr.owns o e → op ≠ .drop o ∧ ∀ s, s ≠ o → op ≠ .moveAssign o s) →
      ¬ Violates tr st := by
    rintro h1 h2 (⟨ho, _⟩ | ⟨ho, _, (hop | ⟨s, hne, hop⟩)⟩)
    · exact h1 _ _ ho
    · exact (h2 _ _ ho).1 hop
    · exact (h2 _ _ ho).2 s hne hop
  by_cases hdes : ∃ o e, tr.owns o e ∧ (op = .drop o ∨ ∃ s, s ≠ o ∧ op = .moveAssign o s)
  · obtain ⟨o, e, ho, hop⟩ := hdes
    have key : ∃ w' ev q, sw.w.step (.destroy e) = .ok (w', ev) ∧ log.lib = [(.destroy e, ev)] ∧
        deliver (Installed.adapter f).reporter u none ev = .ok q := by
      have ho' := (hi.owns o e).mp ho
      rcases hop with rfl | ⟨s, hne, rfl⟩
      · obtain ⟨w', ev, h1, h2⟩ := drop_owner hi ho' ⟨(Installed.adapter f).reporter, u⟩
        rw [h2] at hs
        cases hd : deliver (Installed.adapter f).reporter u none ev with
        | error x => simp [hd] at hs
        | ok q =>
          simp only [hd, Except.ok.injEq, Prod.mk.injEq] at hs
          exact ⟨w', ev, q, h1, by rw [← hs.2], hd⟩
      · have hal : slotAlive sw.slots s := by
          simp only [SWorld.step] at hs
          split at hs
          · rename_i x y hx hy
            exact (slot_some hy).2.2.1
          · simp at hs
        obtain ⟨w', ev, sw1, h1, _, h2⟩ := assign_owner hi ho' hal (Ne.symm hne) ⟨(Installed.adapter f).reporter, u⟩
        rw [h2] at hs
        cases hd : deliver (Installed.adapter f).reporter u none ev with
        | error x => simp [hd] at hs
        | ok q =>
          cases q with
          | none =>
            simp only [hd, Except.ok.injEq, Prod.mk.injEq] at hs
            exact ⟨w', ev, none, h1, by rw [← hs.2], hd⟩
          | some x => simp [hd] at hs
    obtain ⟨w', ev, q, h1, h2, h3⟩ := key
    have hn : n = (noted (.adapter f) u none ev).count .failed := by simp [n, h2]
    have hvio : Violates tr st ↔ tr.flat.unmet e := by
      constructor
      · rintro (⟨hc, _⟩ | ⟨ho1, hu1, hop1⟩)
        · rcases hop with rfl | ⟨s, _, rfl⟩ <;> simp [st] at hc
        · have : ∀ o1, (op = .drop o1 ∨ ∃ s, s ≠ o1 ∧ op = .moveAssign o1 s) → o1 = o := by
            intro o1 hx
            rcases hop with rfl | ⟨s, _, rfl⟩ <;> rcases hx with hx | ⟨s', _, hx⟩ <;> simp_all
          have := this _ hop1
          subst this
          rw [(C37_owner h).2.2.1 _ _ _ ho ho1]
          exact hu1
      · exact fun hu => .unmet ho hu hop
    have hnc : ¬ ∃ m a, op = .plain (.call m a) := by
      rintro ⟨m, a, rfl⟩
      rcases hop with hx | ⟨_, _, hx⟩ <;> simp at hx
    rw [hvio, hn]
    simp only [hnc, false_or]
    rcases noted_destroy f u hi.reach h1 h3 with ⟨a, b, c⟩ | ⟨a, b⟩
    · exact Or.inl ⟨a, b, c⟩
    · exact Or.inr ⟨a, b⟩
  · have hdes' : ∀ o e, tr.owns o e → op ≠ .drop o ∧ ∀ s, s ≠ o → op ≠ .moveAssign o s :=
      fun o e ho => ⟨fun hx => hdes ⟨o, e, ho, Or.inl hx⟩, fun s hne hx => hdes ⟨o, e, ho, Or.inr ⟨s, hne, hx⟩⟩⟩
    by_cases hcall : ∃ m a, op = .plain (.call m a)
    · obtain ⟨m, a, rfl⟩ := hcall
      simp only [SWorld.step] at hs
      split at hs
      · simp at hs
      · rename_i sw1 ev exn hlib
        simp only [Except.ok.injEq, Prod.mk.injEq] at hs
        obtain ⟨rfl, rfl⟩ := hs
        obtain ⟨w', hst, _, hd⟩ := lib_eq hlib
        obtain ⟨us, last, rfl, _, hcase⟩ := C10_outcome hi.reach hst
        have hn : n = (noted (.adapter f) u none [last]).count .failed := by
          rw [← noted_unhandled f u us last]
          simp [n]
        have hvio : Violates tr st ↔ ∀ e, ¬ tr.flat.candidate m a e := by
          constructor
          · rintro (⟨hc, hx⟩ | ⟨_, _, (hop1 | ⟨s, _, hop1⟩)⟩)
            · simp only [st, SOp.plain.injEq, Op.call.injEq] at hc
              obtain ⟨rfl, rfl⟩ := hc
              exact hx
            · simp [st] at hop1
            · simp [st] at hop1
          · exact fun hx => .call rfl hx
        rw [hn, hvio]
        have ht : ∃ m' a', (SOp.plain (.call m a) : SOp α) = .plain (.call m' a') := ⟨m, a, rfl⟩
        simp only [ht, true_or, and_true, true_and]
        rcases hcase with ⟨e, hcand, rfl⟩ | ⟨hno, _, es, rfl, _⟩ | ⟨hno, es, rfl, _⟩
        · right
          refine ⟨fun hx => hx e hcand, ?_⟩
          simp [noted, reportOf, Installed.react, (failed_count f).2.1]
        · left
          refine ⟨hno, ?_⟩
          simp [noted, reportOf, Installed.react, (failed_count f).1]
        · left
          refine ⟨fun e hc => hno e hc.1, ?_⟩
          simp [noted, reportOf, Installed.react, (failed_count f).1]
    · right
      have hcall' : ∀ m a, op ≠ .plain (.call m a) := fun m a hx => hcall ⟨m, a, hx⟩
      refine ⟨fun hx => silent hcall' hdes' hx.1, ?_⟩
      cases op with
      | plain p =>
        cases p with
        | call m a => exact absurd rfl (hcall' m a)
        | expect => simp [SWorld.step] at hs
        | destroy => simp [SWorld.step] at hs
        | newMock =>
          simp only [SWorld.step] at hs
          split at hs
          · simp at hs
          · rename_i sw1 ev exn hlib
            simp only [Except.ok.injEq, Prod.mk.injEq] at hs
            obtain ⟨rfl, rfl⟩ := hs
            obtain ⟨w', hst, _, hd⟩ := lib_eq hlib
            simp only [World.step, Except.ok.injEq, Prod.mk.injEq] at hst
            simp [n, ← hst.2, noted, reportOf]
        | newSequence st =>
          simp only [SWorld.step] at hs
          split at hs
          · simp at hs
          · rename_i sw1 ev exn hlib
            simp only [Except.ok.injEq, Prod.mk.injEq] at hs
            obtain ⟨rfl, rfl⟩ := hs
            obtain ⟨w', hst, _, hd⟩ := lib_eq hlib
            simp only [World.step, Except.ok.injEq, Prod.mk.injEq] at hst
            simp [n, ← hst.2, noted, reportOf]
        | dropSequence s =>
          simp only [SWorld.step] at hs
          split at hs
          · simp at hs
          · rename_i sw1 ev exn hlib
            simp only [Except.ok.injEq, Prod.mk.injEq] at hs
            obtain ⟨rfl, rfl⟩ := hs
            obtain ⟨w', hst, _, hd⟩ := lib_eq hlib
            have := noted_seq f u none exn (dropSequence_events hst) hd
            simp [n, this]
      | expect m min max tags ps =>
        simp only [SWorld.step] at hs
        split at hs
        · simp at hs
        · rename_i sw1 ev exn hlib
          simp only [Except.ok.injEq, Prod.mk.injEq] at hs
          obtain ⟨rfl, rfl⟩ := hs
          obtain ⟨w', hst, _, hd⟩ := lib_eq hlib
          rcases expect_events hi.reach hst with ⟨rfl, _⟩ | ⟨rfl, _⟩ <;> simp [n, noted, reportOf]
        · rename_i sw1 ev hlib
          simp only [Except.ok.injEq, Prod.mk.injEq] at hs
          obtain ⟨rfl, rfl⟩ := hs
          obtain ⟨w', hst, _, hd⟩ := lib_eq hlib
          rcases expect_events hi.reach hst with ⟨rfl, _⟩ | ⟨rfl, _⟩ <;> simp [n, noted, reportOf]
      | moveConstruct src =>
        have := (C37_silent h hs (by simp) (by simp) hdes').1
        simp [n, this, noted]
      | moveAssign dst src =>
        have := (C37_silent h hs (by simp) (by simp) hdes').1
        simp [n, this, noted]
      | drop o =>
        have := (C37_silent h hs (by simp) (by simp) hdes').1
        simp [n, this, noted]
      | isSatisfied o =>
        have := (C37_silent h hs (by simp) (by simp) hdes').1
        simp [n, this, noted]

/-! ## Programs -/

theorem perform_eq {t t' : Env α} {u : Nat} {op : SOp α} {log : SLog α} (h : t.perform u op = .ok (t', log)) :
    ∃ sw', t.sw.step ⟨t.installed.reporter, u⟩ op = .ok (sw', log) ∧ t' = { t with
      sw := sw'
      notes := t.notes ++ noted t.installed u none (log.lib.flatMap (·.2))
      past := t.past ++ [⟨⟨t.installed.reporter, u⟩, op, log⟩] } := by
  unfold Env.perform at h
  split at h
  · simp at h
  · rename_i sw' log' hs
    simp only [Except.ok.injEq, Prod.mk.injEq] at h
    obtain ⟨rfl, rfl⟩ := h
    exact ⟨sw', hs, rfl⟩

theorem leave_eq {pending x : Option Thrown} {t t' : Env α} {exn : Option Exn} (h : leave pending t exn = .ok (t', x)) :
    t' = t ∧ ((exn = none ∧ x = pending) ∨ (pending = none ∧ x = exn.map .library)) := by
  unfold leave at h
  split at h <;> simp_all

/-- What is kept by every operation, and by `install`, is kept by programs. -/
theorem exec_keeps (P : Env α → Prop) (Q : Installed → Prop)
    (hp : ∀ {t t' : Env α} {u : Nat} {op : SOp α} {log : SLog α}, P t → t.perform u op = .ok (t', log) → P t')
    (hq : ∀ {t : Env α} {k : Installed}, P t → Q k → P { t with installed := k })
    (p : Prog α) (hi : ∀ k, Installs p k → Q k) {u : Nat} {t t' : Env α} {x : Option Thrown} (h : exec u t p = .ok (t', x)) (ht : P t) :
    P t' := by
  induction p generalizing u t t' x with
  | skip => simp only [exec, Except.ok.injEq, Prod.mk.injEq] at h; rw [← h.1]; exact ht
  | seq p q ihp ihq =>
    simp only [exec] at h
    split at h
    · simp at h
    · rename_i h1
      simp only [Except.ok.injEq, Prod.mk.injEq] at h
      rw [← h.1]; exact ihp (fun k hk => hi k (.seqLeft hk)) h1 ht
    · rename_i h1
      exact ihq (fun k hk => hi k (.seqRight hk)) h (ihp (fun k hk => hi k (.seqLeft hk)) h1 ht)
  | mock =>
    simp only [exec] at h
    split at h
    · simp at h
    · rename_i h1
      simp only [Except.ok.injEq, Prod.mk.injEq] at h
      rw [← h.1]; exact hp ht h1
  | call m a =>
    simp only [exec] at h
    split at h
    · simp at h
    · rename_i h1
      simp only [Except.ok.injEq, Prod.mk.injEq] at h
      rw [← h.1]; exact hp ht h1
  | assign dst src =>
    simp only [exec] at h
    split at h
    · simp at h
    · rename_i h1
      simp only [Except.ok.injEq, Prod.mk.injEq] at h
      rw [← h.1]; exact hp ht h1
  | install k =>
    simp only [exec, Except.ok.injEq, Prod.mk.injEq] at h
    rw [← h.1]; exact hq ht (hi k .here)
  | throw n => simp only [exec, Except.ok.injEq, Prod.mk.injEq] at h; rw [← h.1]; exact ht
  | expectation m min max tags ps rest ih =>
    simp only [exec] at h
    split at h
    · simp at h
    · rename_i h1
      have := hp ht h1
      split at h
      · simp only [Except.ok.injEq, Prod.mk.injEq] at h
        rw [← h.1]; exact this
      · split at h
        · simp at h
        · rename_i h2
          have := ih (fun k hk => hi k (.expectation hk)) h2 this
          split at h
          · simp at h
          · rename_i h3
            rw [(leave_eq h).1]
            exact hp this h3
  | moved src rest ih =>
    simp only [exec] at h
    split at h
    · simp at h
    · rename_i h1
      have := hp ht h1
      split at h
      · simp only [Except.ok.injEq, Prod.mk.injEq] at h
        rw [← h.1]; exact this
      · split at h
        · simp at h
        · rename_i h2
          have := ih (fun k hk => hi k (.moved hk)) h2 this
          split at h
          · simp at h
          · rename_i h3
            rw [(leave_eq h).1]
            exact hp this h3
  | sequence st rest ih =>
    simp only [exec] at h
    split at h
    · simp at h
    · rename_i h1
      have := hp ht h1
      split at h
      · simp at h
      · rename_i h2
        have := ih (fun k hk => hi k (.sequence hk)) h2 this
        split at h
        · simp at h
        · rename_i h3
          rw [(leave_eq h).1]
          exact hp this h3
  | guard c rest ihc ih =>
    simp only [exec] at h
    split at h
    · simp at h
    · rename_i h1
      have h1' := ih (fun k hk => hi k (.guardRest hk)) h1 ht
      split at h
      · simp at h
      · simp at h
      · rename_i h2
        simp only [Except.ok.injEq, Prod.mk.injEq] at h
        rw [← h.1]; exact ihc (fun k hk => hi k (.guardCleanup hk)) h2 h1'
  | attempt c body handler ihb ihh =>
    simp only [exec] at h
    split at h
    · simp at h
    · rename_i h1
      simp only [Except.ok.injEq, Prod.mk.injEq] at h
      rw [← h.1]; exact ihb (fun k hk => hi k (.attemptBody hk)) h1 ht
    · rename_i h1
      have h1' := ihb (fun k hk => hi k (.attemptBody hk)) h1 ht
      split at h
      · exact ihh (fun k hk => hi k (.attemptHandler hk)) h h1'
      · simp only [Except.ok.injEq, Prod.mk.injEq] at h
        rw [← h.1]; exact h1'

/-- The state after a history. -/
theorem exec_reach {p : Prog α} {u : Nat} {t t' : Env α} {x : Option Thrown} (h : exec u t p = .ok (t', x))
    (ht : SReach t.past t.sw) : SReach t'.past t'.sw := by
  refine exec_keeps (fun t => SReach t.past t.sw) (fun _ => True) ?_ ?_ p (fun _ _ => trivial) h ht
  · intro t t' u op log ht hp
    obtain ⟨sw', hs, rfl⟩ := perform_eq hp
    exact ht.step hs
  · intro t k ht _
    exact ht

theorem violation_snoc {tr : STrace α} {st : SEntry α} {i : Nat} :
    (Violation (tr ++ [st]) i ∧ ¬ Hidden (tr ++ [st]) i) ↔
      (Violation tr i ∧ ¬ Hidden tr i) ∨
      (i = tr.length ∧ Violates tr st ∧ ((∃ m a, st.op = .plain (.call m a)) ∨ st.ctx.uncaught = 0)) := by
  unfold Violation Hidden
  rcases Nat.lt_trichotomy i tr.length with hlt | rfl | hgt
  · have h1 : (tr ++ [st])[i]? = tr[i]? := List.getElem?_append_left hlt
    have h2 : (tr ++ [st]).take i = tr.take i := by rw [List.take_append_of_le_length (by omega)]
    rw [h1, h2]
    simp [Nat.ne_of_lt hlt]
  · have h1 : (tr ++ [st])[tr.length]? = some st := by simp
    have h2 : (tr ++ [st]).take tr.length = tr := by simp
    have h3 : tr[tr.length]? = none := by simp
    rw [h1, h2, h3]
    grind
  · have h1 : (tr ++ [st])[i]? = none := by simp; omega
    have h3 : tr[i]? = none := by simp; omega
    rw [h1, h3]
    simp
    omega

/-- Failures and violations, counted. -/
structure Counted (t : Env α) : Prop where
  reach : SReach t.past t.sw
  adapter : ∃ f, t.installed = .adapter f
  count : ∃ vs, OldestFirst (fun i => Violation t.past i ∧ ¬ Hidden t.past i) vs ∧ t.notes.count .failed = vs.length

theorem Counted.perform {t t' : Env α} (ht : Counted t) {u : Nat} {op : SOp α} {log : SLog α}
    (h : t.perform u op = .ok (t', log)) : Counted t' := by
  obtain ⟨hr, ⟨f, hf⟩, vs, ⟨hv1, hv2⟩, hc⟩ := ht
  obtain ⟨sw', hs, rfl⟩ := perform_eq h
  rw [hf] at hs
  refine ⟨?_, ⟨f, hf⟩, ?_⟩
  · simp only [hf]; exact hr.step hs
  · have hv2' : ∀ i, i ∈ vs ↔ (Violation t.past i ∧ ¬ Hidden t.past i) := hv2
    have hlt : ∀ i ∈ vs, i < t.past.length := by
      intro i hi
      obtain ⟨⟨st, hst, _⟩, _⟩ := (hv2 i).mp hi
      exact (List.getElem?_eq_some_iff.mp hst).1
    simp only [hf, List.count_append, hc]
    rcases step_notes f hr hs with ⟨h1, h2, h3⟩ | ⟨h1, h3⟩
    · refine ⟨vs ++ [t.past.length], ⟨?_, ?_⟩, by simp only [h3, List.length_append, List.length_cons, List.length_nil]⟩
      · rw [List.pairwise_append]
        exact ⟨hv1, by simp, by simpa using hlt⟩
      · intro i
        change i ∈ _ ↔ (Violation _ i ∧ ¬ Hidden _ i)
        rw [violation_snoc, List.mem_append, hv2']
        simp only [List.mem_singleton]
        constructor
        · rintro (hx | rfl)
          · exact Or.inl hx
          · exact Or.inr ⟨rfl, h1, h2⟩
        · rintro (hx | ⟨rfl, _⟩)
          · exact Or.inl hx
          · exact Or.inr rfl
    · refine ⟨vs, ⟨hv1, ?_⟩, by simp only [h3, Nat.add_zero]⟩
      intro i
      change i ∈ _ ↔ (Violation _ i ∧ ¬ Hidden _ i)
      rw [violation_snoc, hv2']
      constructor
      · exact Or.inl
      · rintro (hx | ⟨rfl, hx⟩)
        · exact hx
        · exact absurd hx h1

theorem exec_counted {p : Prog α} (hp : ∀ k, Installs p k → ∃ f, k = .adapter f) {u : Nat} {t t' : Env α} {x : Option Thrown}
    (h : exec u t p = .ok (t', x)) (ht : Counted t) : Counted t' := by
  refine exec_keeps Counted (fun k => ∃ f, k = .adapter f) (fun ht h => ht.perform h) ?_ p hp h ht
  rintro t k ⟨hr, _, hc⟩ ⟨f, rfl⟩
  exact ⟨hr, ⟨f, rfl⟩, hc⟩

theorem Counted.start (f : Framework) : Counted (Env.start (.adapter f) : Env α) :=
  ⟨.init, ⟨f, rfl⟩, [], ⟨by simp, by simp [Violation, Env.start]⟩, rfl⟩

/-! ## Successes -/

theorem passed_count {f : Framework} (hf : f ≠ .boostTest) : (f.send .failure).notes.count .passed = 0 ∧
    (f.send .success).notes.count .passed = 1 ∧ (f.send .warning).notes.count .passed = 0 := by
  cases f <;> simp_all [Framework.send]

theorem noted_passed {f : Framework} (hf : f ≠ .boostTest) (u : Nat) (p : Option Exn) (ev : List Event) :
    (noted (.adapter f) u p ev).count .passed = ev.countP isFullMatch := by
  obtain ⟨h1, h2, h3⟩ := passed_count hf
  induction ev generalizing p with
  | nil => rfl
  | cons e es ih =>
    simp only [noted, List.count_append, ih, List.countP_cons]
    cases e <;> simp only [reportOf, Installed.react, isFullMatch] <;> (try split) <;> simp_all <;> omega

theorem message_count {f : Framework} (hf : f = .catch2 ∨ f = .doctest) : (f.send .failure).notes.count .message = 0 ∧
    (f.send .success).notes.count .message = 0 ∧ (f.send .warning).notes.count .message = 1 := by
  rcases hf with rfl | rfl <;> simp [Framework.send]

theorem noted_message {f : Framework} (hf : f = .catch2 ∨ f = .doctest) (u : Nat) (p : Option Exn) (ev : List Event) :
    (noted (.adapter f) u p ev).count .message = ev.countP isUnhandled := by
  obtain ⟨h1, h2, h3⟩ := message_count hf
  induction ev generalizing p with
  | nil => rfl
  | cons e es ih =>
    simp only [noted, List.count_append, ih, List.countP_cons]
    cases e <;> simp only [reportOf, Installed.react, isUnhandled] <;> (try split) <;> simp_all <;> omega

theorem exec_notes {Q : Framework → Prop} {n : Note} {b : Event → Bool}
    (hn : ∀ f, Q f → ∀ u p ev, (noted (.adapter f) u p ev).count n = ev.countP b)
    {p : Prog α} (hp : ∀ k, Installs p k → ∃ f, k = .adapter f ∧ Q f) {f : Framework} (hf : Q f) {t : Env α} {x : Option Thrown}
    (h : test (.adapter f) p = .ok (t, x)) : t.notes.count n = t.past.flat.events.countP b := by
  refine (exec_keeps (fun t => (∃ f, t.installed = .adapter f ∧ Q f) ∧ t.notes.count n = t.past.flat.events.countP b)
    (fun k => ∃ f, k = .adapter f ∧ Q f) ?_ ?_ p hp h ⟨⟨f, rfl, hf⟩, by simp [Env.start, STrace.flat, Trace.events]⟩).2
  · rintro t t' u op log ⟨⟨f, h1, h2⟩, h3⟩ h4
    obtain ⟨sw', -, rfl⟩ := perform_eq h4
    refine ⟨⟨f, h1, h2⟩, ?_⟩
    simp only [List.count_append, h3, sflat_snoc, h1, hn f h2]
    simp [Trace.events, List.countP_append]
  · rintro t k ⟨-, h3⟩ hk
    exact ⟨hk, h3⟩

/-! ## Exceptions -/

theorem deliver_silent {R : Reporter} {u : Nat} {p q : Option Exn} {ev : List Event} (h : ∀ x ∈ ev, seqEvent x)
    (hd : deliver R u p ev = .ok q) : q = p := by
  rcases deliver_seq (R := R) (u := u) (p := p) h with ⟨_, _, why, h3⟩ | ⟨_, h3⟩
  · rw [h3] at hd; simp at hd
  · rw [h3] at hd; simpa using hd.symm

/-- The exception by which an operation ends. -/
theorem step_exn {tr : STrace α} {sw sw' : SWorld α} (h : SReach tr sw) {c : Ctx} (hR : c.reporter.Lawful) {op : SOp α}
    {log : SLog α} (hs : sw.step c op = .ok (sw', log)) :
    (log.exn = some .unmatched → ∃ m a, op = .plain (.call m a) ∧ ∀ e, ¬ tr.flat.candidate m a e) ∧
    (∀ e, log.exn = some (.unfulfilled e) → ∃ o, op = .drop o ∧ tr.owns o e ∧ tr.flat.unmet e) ∧
    (log.exn = some .invalidArgument → ∃ m min max tags ps, op = .expect m min max tags ps ∧
      ¬ (0 ≤ min ∧ min ≤ max ∧ tags.Nodup)) ∧
    (∀ s, log.exn ≠ some (.sequence s)) ∧
    (log.exn = none → c.uncaught = 0 → ¬ Violates tr ⟨c, op, log⟩) ∧
    (log.exn = none → ∀ m a, op = .plain (.call m a) → ¬ Violates tr ⟨c, op, log⟩) := by
  have hi := h.inv
  have hvcall : ∀ m a, op = .plain (.call m a) → (Violates tr ⟨c, op, log⟩ ↔ ∀ e, ¬ tr.flat.candidate m a e) := by
    rintro m a rfl
    constructor
    · rintro (⟨hc, hx⟩ | ⟨_, _, (hop1 | ⟨s, _, hop1⟩)⟩)
      · simp only [SOp.plain.injEq, Op.call.injEq] at hc
        obtain ⟨rfl, rfl⟩ := hc
        exact hx
      · simp at hop1
      · simp at hop1
    · exact fun hx => .call rfl hx
  have hother : (∀ m a, op ≠ .plain (.call m a)) → (∀ o, op ≠ .drop o) → (∀ d s, op ≠ .moveAssign d s) →
      ¬ Violates tr ⟨c, op, log⟩ := by
    rintro h1 h2 h3 (⟨hc, _⟩ | ⟨_, _, (hop1 | ⟨s, _, hop1⟩)⟩)
    · exact h1 _ _ hc
    · exact h2 _ hop1
    · exact h3 _ _ hop1
  have h39 := C39_never_caught hs
  cases op with
  | plain p =>
    cases p with
    | expect => simp [SWorld.step] at hs
    | destroy => simp [SWorld.step] at hs
    | call m a =>
      simp only [SWorld.step] at hs
      split at hs
      · simp at hs
      · rename_i sw1 ev exn hlib
        simp only [Except.ok.injEq, Prod.mk.injEq] at hs
        obtain ⟨rfl, rfl⟩ := hs
        obtain ⟨w', hst, _, hd⟩ := lib_eq hlib
        rw [hvcall m a rfl]
        obtain ⟨us, last, rfl, _, hcase⟩ := C10_outcome hi.reach hst
        have hus : ∀ us : List Nat, deliver c.reporter c.uncaught none (us.map Event.unhandled) = .ok none := by
          intro us
          induction us with
          | nil => rfl
          | cons x us ih =>
            simp [deliver, deliverOne, Reporter.exn, uncaught, hR.unhandledException, atNoexcept, bind, Except.bind, pure,
              Except.pure, ih]
        rw [deliver_append, hus] at hd
        have hd' : deliver c.reporter c.uncaught none [last] = .ok exn := hd
        have hx : (exn = none ∧ ∃ e, tr.flat.candidate m a e) ∨ (exn = some .unmatched ∧ ∀ e, ¬ tr.flat.candidate m a e) := by
          rcases hcase with ⟨e, hcand, rfl⟩ | ⟨hno, _, es, rfl, _⟩ | ⟨hno, es, rfl, _⟩
          · left
            simp [deliver, deliverOne, Reporter.exn, hR.fullMatch, atNoexcept, bind, Except.bind, pure, Except.pure] at hd'
            exact ⟨hd'.symm, e, hcand⟩
          · right
            simp [deliver, deliverOne, Reporter.exn, hR.inapplicableMatches, uncaught] at hd'
            exact ⟨hd'.symm, hno⟩
          · right
            simp [deliver, deliverOne, Reporter.exn, hR.noMatches, uncaught] at hd'
            exact ⟨hd'.symm, fun e hc => hno e hc.1⟩
        rcases hx with ⟨rfl, e, he⟩ | ⟨rfl, hno⟩
        · refine ⟨by simp, by simp, by simp, by simp, fun _ _ hc => hc e he, fun _ _ _ _ hc => hc e he⟩
        · refine ⟨fun _ => ⟨m, a, rfl, hno⟩, by simp, by simp, by simp, by simp, by simp⟩
    | newMock =>
      have hv := hother (by simp) (by simp) (by simp)
      simp only [SWorld.step] at hs
      split at hs
      · simp at hs
      · rename_i sw1 ev exn hlib
        simp only [Except.ok.injEq, Prod.mk.injEq] at hs
        obtain ⟨rfl, rfl⟩ := hs
        obtain ⟨w', hst, _, hd⟩ := lib_eq hlib
        simp only [World.step, Except.ok.injEq, Prod.mk.injEq] at hst
        rw [← hst.2] at hd
        simp only [deliver, deliverOne, Except.ok.injEq] at hd
        subst hd
        simp [hv]
    | newSequence st =>
      have hv := hother (by simp) (by simp) (by simp)
      simp only [SWorld.step] at hs
      split at hs
      · simp at hs
      · rename_i sw1 ev exn hlib
        simp only [Except.ok.injEq, Prod.mk.injEq] at hs
        obtain ⟨rfl, rfl⟩ := hs
        obtain ⟨w', hst, _, hd⟩ := lib_eq hlib
        simp only [World.step, Except.ok.injEq, Prod.mk.injEq] at hst
        rw [← hst.2] at hd
        simp only [deliver, deliverOne, Except.ok.injEq] at hd
        subst hd
        simp [hv]
    | dropSequence s =>
      have hv := hother (by simp) (by simp) (by simp)
      simp only [SWorld.step] at hs
      split at hs
      · simp at hs
      · rename_i sw1 ev exn hlib
        simp only [Except.ok.injEq, Prod.mk.injEq] at hs
        obtain ⟨rfl, rfl⟩ := hs
        obtain ⟨w', hst, _, hd⟩ := lib_eq hlib
        have := deliver_silent (dropSequence_events hst) hd
        subst this
        simp [hv]
  | expect m min max tags ps =>
    have hv := hother (by simp) (by simp) (by simp)
    have key : ∀ {sw1 ev exn}, sw.lib c (.expect m min max tags ps) = .ok (sw1, ev, exn) →
        exn = none ∨ (exn = some .invalidArgument ∧ ¬ (0 ≤ min ∧ min ≤ max ∧ tags.Nodup)) := by
      intro sw1 ev exn hlib
      obtain ⟨w', hst, _, hd⟩ := lib_eq hlib
      have h1 := C01_expect_accepted hi.reach hst
      rcases expect_events hi.reach hst with ⟨rfl, _⟩ | ⟨rfl, _⟩
      · simp only [deliver, deliverOne, Except.ok.injEq] at hd
        exact Or.inl hd.symm
      · simp only [deliver, deliverOne, Except.ok.injEq] at hd
        right
        refine ⟨hd.symm, fun hc => ?_⟩
        have := h1.1 hc
        simp at this
    simp only [SWorld.step] at hs
    split at hs
    · simp at hs
    · rename_i sw1 ev exn hlib
      simp only [Except.ok.injEq, Prod.mk.injEq] at hs
      obtain ⟨rfl, rfl⟩ := hs
      rcases key hlib with hx | ⟨hx, hy⟩
      · simp at hx
      · simp only [Option.some.injEq] at hx
        subst hx
        refine ⟨by simp, by simp, fun _ => ⟨m, min, max, tags, ps, rfl, hy⟩, by simp, by simp, by simp⟩
    · rename_i sw1 ev hlib
      simp only [Except.ok.injEq, Prod.mk.injEq] at hs
      obtain ⟨rfl, rfl⟩ := hs
      simp [hv]
  | moveConstruct src =>
    have hv := hother (by simp) (by simp) (by simp)
    have := (C37_silent h hs (by simp) (by simp) (by simp)).2.1
    simp [this, hv]
  | isSatisfied o =>
    have hv := hother (by simp) (by simp) (by simp)
    have := (C37_silent h hs (by simp) (by simp) (by simp)).2.1
    simp [this, hv]
  | drop o =>
    have hex : tr.exists o := by
      rw [hi.exists_]
      simp only [SWorld.step] at hs
      split at hs
      · simp at hs
      · rename_i x hx
        exact (slot_some hx).2.2.1
    rcases C38_drop h hR hex with ⟨sw2, log2, h1, h2⟩ | ⟨⟨why, h1⟩, _⟩
    · rw [hs] at h1
      simp only [Except.ok.injEq, Prod.mk.injEq] at h1
      obtain ⟨rfl, rfl⟩ := h1
      refine ⟨fun hx => ?_, fun e hx => ?_, fun hx => ?_, h39, fun hx h0 hv => ?_, by simp⟩
      · obtain ⟨e, he, _⟩ := (h2 _).mp hx
        simp at he
      · obtain ⟨e', he, h3, h4, _⟩ := (h2 _).mp hx
        simp only [Exn.unfulfilled.injEq] at he
        subst he
        exact ⟨o, rfl, h3, h4⟩
      · obtain ⟨e, he, _⟩ := (h2 _).mp hx
        simp at he
      · rcases hv with ⟨hc, _⟩ | ⟨ho1, hu1, (hop1 | ⟨s, _, hop1⟩)⟩
        · simp at hc
        · simp only [SOp.drop.injEq] at hop1
          subst hop1
          rename_i e
          have := (h2 (.unfulfilled e)).mpr ⟨e, rfl, ho1, hu1, h0⟩
          rw [hx] at this
          simp at this
        · simp at hop1
    · rw [hs] at h1; simp at h1
  | moveAssign dst src =>
    have hex : tr.exists dst ∧ tr.exists src := by
      rw [hi.exists_, hi.exists_]
      simp only [SWorld.step] at hs
      split at hs
      · rename_i x y hx hy
        exact ⟨(slot_some hx).2.2.1, (slot_some hy).2.2.1⟩
      · simp at hs
    rcases C37_assign h hR hex.1 hex.2 with ⟨⟨why, h1⟩, _⟩ | ⟨⟨sw2, log2, h1, h2⟩, h3⟩
    · rw [hs] at h1; simp at h1
    · rw [hs] at h1
      simp only [Except.ok.injEq, Prod.mk.injEq] at h1
      obtain ⟨rfl, rfl⟩ := h1
      refine ⟨by simp [h2], by simp [h2], by simp [h2], h39, fun _ h0 hv => ?_, by simp⟩
      rcases hv with ⟨hc, _⟩ | ⟨ho1, hu1, (hop1 | ⟨s, hne, hop1⟩)⟩
      · simp at hc
      · simp at hop1
      · simp only [SOp.moveAssign.injEq] at hop1
        obtain ⟨rfl, rfl⟩ := hop1
        obtain ⟨w', ev, h4⟩ := (destroy_valid hi.reach).mp (((C37_owner h).1 _).mpr ⟨_, ho1⟩)
        exact h3 ⟨hne, h0, _, w', ev, ho1, h4, Or.inl hu1⟩

/-- The steps of a history. -/
theorem reach_step {tr : STrace α} {sw : SWorld α} (h : SReach tr sw) {i : Nat} {st : SEntry α} (hi : tr[i]? = some st) :
    ∃ sw₁ sw₂, SReach (tr.take i) sw₁ ∧ sw₁.step st.ctx st.op = .ok (sw₂, st.log) := by
  induction h with
  | init => simp at hi
  | @step tr sw sw' c op log h hs ih =>
    rcases Nat.lt_trichotomy i tr.length with hlt | rfl | hgt
    · rw [List.getElem?_append_left hlt] at hi
      obtain ⟨sw₁, sw₂, h1, h2⟩ := ih hi
      exact ⟨sw₁, sw₂, by rwa [List.take_append_of_le_length (by omega)], h2⟩
    · simp only [List.getElem?_concat_length, Option.some.injEq] at hi
      subst hi
      exact ⟨sw, sw', by simpa using h, hs⟩
    · have : (tr ++ [⟨c, op, log⟩])[i]? = none := by simp; omega
      rw [this] at hi
      simp at hi

/-- All steps of a program are done under a lawful reporter. -/
theorem exec_lawful {p : Prog α} {u : Nat} {t t' : Env α} {x : Option Thrown} (h : exec u t p = .ok (t', x))
    (ht : ∀ st ∈ t.past, st.ctx.reporter.Lawful) : ∀ st ∈ t'.past, st.ctx.reporter.Lawful := by
  refine exec_keeps (fun t => ∀ st ∈ t.past, st.ctx.reporter.Lawful) (fun _ => True) ?_ ?_ p (fun _ _ => trivial) h ht
  · intro t t' u op log ht hp st hst
    obtain ⟨sw', hs, rfl⟩ := perform_eq hp
    simp only [List.mem_append, List.mem_singleton] at hst
    rcases hst with hst | rfl
    · exact ht st hst
    · exact lawful _
  · intro t k ht _
    exact ht

/-- Nothing of the past is forgotten. -/
theorem exec_past {p : Prog α} {u : Nat} {t t' : Env α} {x : Option Thrown} (h : exec u t p = .ok (t', x)) :
    ∃ new, t'.past = t.past ++ new := by
  refine exec_keeps (fun s => ∃ new, s.past = t.past ++ new) (fun _ => True) ?_ ?_ p (fun _ _ => trivial) h ⟨[], by simp⟩
  · rintro t₁ t₂ u op log ⟨new, hn⟩ hp
    obtain ⟨sw', hs, rfl⟩ := perform_eq hp
    exact ⟨new ++ [⟨⟨t₁.installed.reporter, u⟩, op, log⟩], by simp [hn]⟩
  · intro t k ht _
    exact ht

/-- A program that catches nothing and is left regularly: nothing was thrown at all. -/
theorem exec_quiet {p : Prog α} (hp : p.catchless) {u : Nat} {t t' : Env α} (h : exec u t p = .ok (t', none)) (P : SEntry α → Prop)
    (hP : ∀ st, st.ctx.uncaught = u → st.log.exn = none → P st) (ht : ∀ st ∈ t.past, P st) : ∀ st ∈ t'.past, P st := by
  have perf : ∀ {t t' : Env α} {op : SOp α} {log : SLog α}, (∀ st ∈ t.past, P st) → t.perform u op = .ok (t', log) →
      log.exn = none → ∀ st ∈ t'.past, P st := by
    intro t t' op log ht hp hx st hst
    obtain ⟨sw', hs, rfl⟩ := perform_eq hp
    simp only [List.mem_append, List.mem_singleton] at hst
    rcases hst with hst | rfl
    · exact ht st hst
    · exact hP _ rfl hx
  have noslot : ∀ {t t' : Env α} {op : SOp α} {log : SLog α} {o : Nat}, t.perform u op = .ok (t', log) → log.slot = some o →
      log.exn = none := by
    intro t t' op log o hp hx
    obtain ⟨sw', hs, rfl⟩ := perform_eq hp
    cases op with
    | plain p => cases p <;> simp only [SWorld.step] at hs <;> first | (split at hs <;> grind) | grind
    | expect => simp only [SWorld.step] at hs; split at hs <;> grind
    | moveConstruct => simp only [SWorld.step] at hs; split at hs <;> grind
    | moveAssign =>
      simp only [SWorld.step] at hs
      grind
    | drop =>
      simp only [SWorld.step] at hs
      grind
    | isSatisfied =>
      simp only [SWorld.step] at hs
      grind
  induction p generalizing t t' with
  | skip => simp only [exec, Except.ok.injEq, Prod.mk.injEq] at h; rw [← h.1]; exact ht
  | seq p q ihp ihq =>
    simp only [exec] at h
    split at h
    · simp at h
    · simp at h
    · rename_i h1
      exact ihq hp.2 h (ihp hp.1 h1 ht)
  | mock =>
    simp only [exec] at h
    split at h
    · simp at h
    · rename_i log h1
      simp only [Except.ok.injEq, Prod.mk.injEq, Option.map_eq_none_iff] at h
      rw [← h.1]; exact perf ht h1 h.2
  | call m a =>
    simp only [exec] at h
    split at h
    · simp at h
    · rename_i h1
      simp only [Except.ok.injEq, Prod.mk.injEq, Option.map_eq_none_iff] at h
      rw [← h.1]; exact perf ht h1 h.2
  | assign dst src =>
    simp only [exec] at h
    split at h
    · simp at h
    · rename_i h1
      simp only [Except.ok.injEq, Prod.mk.injEq, Option.map_eq_none_iff] at h
      rw [← h.1]; exact perf ht h1 h.2
  | install k =>
    simp only [exec, Except.ok.injEq, Prod.mk.injEq] at h
    rw [← h.1]; exact ht
  | throw n => simp [exec] at h
  | expectation m min max tags ps rest ih =>
    simp only [exec] at h
    split at h
    · simp at h
    · rename_i h1
      split at h
      · simp only [Except.ok.injEq, Prod.mk.injEq, Option.map_eq_none_iff] at h
        rw [← h.1]; exact perf ht h1 h.2
      · rename_i hslot
        have h1' := perf ht h1 (noslot h1 hslot)
        split at h
        · simp at h
        · rename_i pending h2
          split at h
          · simp at h
          · rename_i h3
            obtain ⟨rfl, (⟨h4, h5⟩ | ⟨h4, h5⟩)⟩ := leave_eq h
            · subst h5
              exact perf (ih hp h2 h1') h3 h4
            · subst h4
              exact perf (ih hp h2 h1') h3 (by simpa using h5.symm)
  | moved src rest ih =>
    simp only [exec] at h
    split at h
    · simp at h
    · rename_i h1
      split at h
      · simp only [Except.ok.injEq, Prod.mk.injEq, Option.map_eq_none_iff] at h
        rw [← h.1]; exact perf ht h1 h.2
      · rename_i hslot
        have h1' := perf ht h1 (noslot h1 hslot)
        split at h
        · simp at h
        · rename_i pending h2
          split at h
          · simp at h
          · rename_i h3
            obtain ⟨rfl, (⟨h4, h5⟩ | ⟨h4, h5⟩)⟩ := leave_eq h
            · subst h5
              exact perf (ih hp h2 h1') h3 h4
            · subst h4
              exact perf (ih hp h2 h1') h3 (by simpa using h5.symm)
  | sequence st rest ih =>
    simp only [exec] at h
    split at h
    · simp at h
    · rename_i t1 log1 h1
      have hx : log1.exn = none := by
        obtain ⟨sw', hs, -⟩ := perform_eq h1
        simp only [SWorld.step, SWorld.lib, World.step, deliver, deliverOne] at hs
        grind
      have h1' := perf ht h1 hx
      split at h
      · simp at h
      · rename_i pending h2
        split at h
        · simp at h
        · rename_i h3
          obtain ⟨rfl, (⟨h4, h5⟩ | ⟨h4, h5⟩)⟩ := leave_eq h
          · subst h5
            exact perf (ih hp h2 h1') h3 h4
          · subst h4
            exact perf (ih hp h2 h1') h3 (by simpa using h5.symm)
  | guard c rest ihc ih =>
    simp only [exec] at h
    split at h
    · simp at h
    · rename_i pending h1
      split at h
      · simp at h
      · simp at h
      · rename_i h2
        simp only [Except.ok.injEq, Prod.mk.injEq] at h
        obtain ⟨rfl, rfl⟩ := h
        exact ihc hp.1 h2 (ih hp.2 h1 ht)
  | attempt => exact hp.elim

/-- Exceptions of the library that leave a program come from one of its steps. -/
theorem exec_origin {p : Prog α} {u : Nat} {t t' : Env α} {y : Exn} (h : exec u t p = .ok (t', some (.library y))) :
    ∃ st ∈ t'.past, st.log.exn = some y := by
  have perf : ∀ {t t' : Env α} {u : Nat} {op : SOp α} {log : SLog α}, t.perform u op = .ok (t', log) → log.exn = some y →
      ∃ st ∈ t'.past, st.log.exn = some y := by
    intro t t' u op log hp hx
    obtain ⟨sw', hs, rfl⟩ := perform_eq hp
    exact ⟨⟨⟨t.installed.reporter, u⟩, op, log⟩, by simp, hx⟩
  have mono : ∀ {t t' : Env α} {u : Nat} {op : SOp α} {log : SLog α}, t.perform u op = .ok (t', log) →
      (∃ st ∈ t.past, st.log.exn = some y) → ∃ st ∈ t'.past, st.log.exn = some y := by
    rintro t t' u op log hp ⟨st, h1, h2⟩
    obtain ⟨sw', hs, rfl⟩ := perform_eq hp
    exact ⟨st, by simp [h1], h2⟩
  have lib : ∀ {x : Option Exn}, x.map Thrown.library = some (.library y) → x = some y := by
    intro x hx
    cases x with
    | none => simp at hx
    | some z => simpa using hx
  have fin : ∀ {t₂ t₃ t₄ : Env α} {u : Nat} {op : SOp α} {log : SLog α} {pending : Option Thrown},
      (pending = some (.library y) → ∃ st ∈ t₂.past, st.log.exn = some y) → t₂.perform u op = .ok (t₃, log) →
      leave pending t₃ log.exn = .ok (t₄, some (.library y)) → ∃ st ∈ t₄.past, st.log.exn = some y := by
    intro t₂ t₃ t₄ u op log pending hpen h3 h
    obtain ⟨rfl, (⟨h4, h5⟩ | ⟨h4, h5⟩)⟩ := leave_eq h
    · exact mono h3 (hpen h5.symm)
    · exact perf h3 (lib h5.symm)
  induction p generalizing u t t' with
  | skip => simp [exec] at h
  | seq p q ihp ihq =>
    simp only [exec] at h
    split at h
    · simp at h
    · rename_i h1
      simp only [Except.ok.injEq, Prod.mk.injEq, Option.some.injEq] at h
      obtain ⟨rfl, rfl⟩ := h
      exact ihp h1
    · exact ihq h
  | mock =>
    simp only [exec] at h
    split at h
    · simp at h
    · rename_i h1
      simp only [Except.ok.injEq, Prod.mk.injEq] at h
      rw [← h.1]
      exact perf h1 (lib h.2)
  | call m a =>
    simp only [exec] at h
    split at h
    · simp at h
    · rename_i h1
      simp only [Except.ok.injEq, Prod.mk.injEq] at h
      rw [← h.1]
      exact perf h1 (lib h.2)
  | assign dst src =>
    simp only [exec] at h
    split at h
    · simp at h
    · rename_i h1
      simp only [Except.ok.injEq, Prod.mk.injEq] at h
      rw [← h.1]
      exact perf h1 (lib h.2)
  | install k => simp [exec] at h
  | throw n => simp [exec] at h
  | expectation m min max tags ps rest ih =>
    simp only [exec] at h
    split at h
    · simp at h
    · rename_i h1
      split at h
      · simp only [Except.ok.injEq, Prod.mk.injEq] at h
        rw [← h.1]
        exact perf h1 (lib h.2)
      · split at h
        · simp at h
        · rename_i pending h2
          split at h
          · simp at h
          · rename_i h3
            exact fin (fun hx => ih (by rw [h2, hx])) h3 h
  | moved src rest ih =>
    simp only [exec] at h
    split at h
    · simp at h
    · rename_i h1
      split at h
      · simp only [Except.ok.injEq, Prod.mk.injEq] at h
        rw [← h.1]
        exact perf h1 (lib h.2)
      · split at h
        · simp at h
        · rename_i pending h2
          split at h
          · simp at h
          · rename_i h3
            exact fin (fun hx => ih (by rw [h2, hx])) h3 h
  | sequence st rest ih =>
    simp only [exec] at h
    split at h
    · simp at h
    · rename_i h1
      split at h
      · simp at h
      · rename_i pending h2
        split at h
        · simp at h
        · rename_i h3
          exact fin (fun hx => ih (by rw [h2, hx])) h3 h
  | guard c rest ihc ih =>
    simp only [exec] at h
    split at h
    · simp at h
    · rename_i h1
      split at h
      · simp at h
      · simp at h
      · rename_i h2
        simp only [Except.ok.injEq, Prod.mk.injEq] at h
        obtain ⟨rfl, rfl⟩ := h
        obtain ⟨st, h3, h4⟩ := ih h1
        obtain ⟨new, hn⟩ := exec_past h2
        exact ⟨st, by rw [hn]; simp [h3], h4⟩
  | attempt c body handler ihb ihh =>
    simp only [exec] at h
    split at h
    · simp at h
    · simp at h
    · rename_i h1
      split at h
      · exact ihh h
      · simp only [Except.ok.injEq, Prod.mk.injEq, Option.some.injEq] at h
        obtain ⟨rfl, rfl⟩ := h
        exact ihb h1

/-! ## Ends of expectations -/

theorem lib_destroyed {tr : Trace α} {w w' : World α} (h : Reach tr w) {op : Op α} {ev : List Event} (hs : w.step op = .ok (w', ev))
    {e : Nat} (he : Event.destroyed e ∈ ev) : op = .destroy e := by
  cases op with
  | destroy e0 =>
    obtain ⟨b, rest, rfl, hr⟩ := destroy_events hs
    have : Event.destroyed e ∉ rest := fun hc => by simpa [seqEvent] using hr _ hc
    cases b <;> simp_all
  | newSequence st =>
    simp only [World.step, Except.ok.injEq, Prod.mk.injEq] at hs
    rw [← hs.2] at he; simp at he
  | newMock =>
    simp only [World.step, Except.ok.injEq, Prod.mk.injEq] at hs
    rw [← hs.2] at he; simp at he
  | dropSequence s => exact absurd (dropSequence_events hs _ he) (by simp [seqEvent])
  | expect => rcases expect_events h hs with ⟨rfl, _⟩ | ⟨rfl, _⟩ <;> simp at he
  | call m a =>
    obtain ⟨us, last, rfl, _, hcase⟩ := C10_outcome h hs
    grind

/-- An expectation is withdrawn by the end of its owner, or by an assignment to it. -/
theorem step_destroyed {tr : STrace α} {sw sw' : SWorld α} (h : SReach tr sw) {c : Ctx} {op : SOp α} {log : SLog α}
    (hs : sw.step c op = .ok (sw', log)) {e : Nat} (he : Event.destroyed e ∈ Trace.events log.lib) :
    ∃ o, tr.owns o e ∧ (op = .drop o ∨ ∃ s, s ≠ o ∧ op = .moveAssign o s) := by
  have hi := h.inv
  by_cases hdes : ∃ o e', tr.owns o e' ∧ (op = .drop o ∨ ∃ s, s ≠ o ∧ op = .moveAssign o s)
  · obtain ⟨o, e', ho, hop⟩ := hdes
    obtain ⟨ev, hl, _⟩ := C37_checked h hs ho hop
    have hst : ∃ w', sw.w.step (.destroy e') = .ok (w', ev) := by
      have ho' := (hi.owns o e').mp ho
      rcases hop with rfl | ⟨s, hne, rfl⟩
      · obtain ⟨w', ev', h1, h2⟩ := drop_owner hi ho' c
        rw [h2] at hs
        split at hs
        · simp at hs
        · simp only [Except.ok.injEq, Prod.mk.injEq] at hs
          rw [← hs.2] at hl
          simp only [List.cons.injEq, Prod.mk.injEq, and_true, true_and] at hl
          exact ⟨w', by rw [← hl]; exact h1⟩
      · have hal : slotAlive sw.slots s := by
          simp only [SWorld.step] at hs
          split at hs
          · rename_i x y hx hy
            exact (slot_some hy).2.2.1
          · simp at hs
        obtain ⟨w', ev', sw1, h1, _, h2⟩ := assign_owner hi ho' hal (Ne.symm hne) c
        rw [h2] at hs
        split at hs
        · simp at hs
        · simp at hs
        · simp only [Except.ok.injEq, Prod.mk.injEq] at hs
          rw [← hs.2] at hl
          simp only [List.cons.injEq, Prod.mk.injEq, and_true, true_and] at hl
          exact ⟨w', by rw [← hl]; exact h1⟩
    obtain ⟨w', hst⟩ := hst
    have he' : Event.destroyed e ∈ ev := by simpa [hl, Trace.events] using he
    have := lib_destroyed hi.reach hst he'
    simp only [Op.destroy.injEq] at this
    subst this
    exact ⟨o, ho, hop⟩
  · exfalso
    have hdes' : ∀ o e, tr.owns o e → op ≠ .drop o ∧ ∀ s, s ≠ o → op ≠ .moveAssign o s :=
      fun o e ho => ⟨fun hx => hdes ⟨o, e, ho, Or.inl hx⟩, fun s hne hx => hdes ⟨o, e, ho, Or.inr ⟨s, hne, hx⟩⟩⟩
    have silent : (∀ p, op ≠ .plain p) → (∀ m min max tags ps, op ≠ .expect m min max tags ps) → False := by
      intro h1 h2
      have := (C37_silent h hs h1 h2 hdes').1
      rw [this] at he
      simp [Trace.events] at he
    have viaLib : ∀ {sw1 op' ev exn}, sw.lib c op' = .ok (sw1, ev, exn) → Event.destroyed e ∈ ev → op' = .destroy e := by
      intro sw1 op' ev exn hlib hx
      obtain ⟨w', hst, _, _⟩ := lib_eq hlib
      exact lib_destroyed hi.reach hst hx
    cases op with
    | plain p =>
      have key : (∀ e', p ≠ .destroy e') → (∀ m min max tags ps, p ≠ .expect m min max tags ps) → False := by
        intro h1 h2
        cases p <;> simp only [SWorld.step] at hs <;> try grind
        all_goals
          split at hs
          · simp at hs
          · rename_i hlib
            simp only [Except.ok.injEq, Prod.mk.injEq] at hs
            rw [← hs.2] at he
            have := viaLib hlib (by simpa [Trace.events] using he)
            simp at this
      cases p with
      | destroy => simp [SWorld.step] at hs
      | expect => simp [SWorld.step] at hs
      | _ => exact key (by simp) (by simp)
    | expect m min max tags ps =>
      simp only [SWorld.step] at hs
      split at hs
      · simp at hs
      · rename_i hlib
        simp only [Except.ok.injEq, Prod.mk.injEq] at hs
        rw [← hs.2] at he
        have := viaLib hlib (by simpa [Trace.events] using he)
        simp at this
      · rename_i hlib
        simp only [Except.ok.injEq, Prod.mk.injEq] at hs
        rw [← hs.2] at he
        have := viaLib hlib (by simpa [Trace.events] using he)
        simp at this
    | moveConstruct => exact silent (by simp) (by simp)
    | moveAssign => exact silent (by simp) (by simp)
    | drop => exact silent (by simp) (by simp)
    | isSatisfied => exact silent (by simp) (by simp)

theorem unmet_prefix {tr tr' : Trace α} {e : Nat} (hd : ∃ d, tr.decl e = some d) (h : (tr ++ tr' : Trace α).unmet e) : tr.unmet e := by
  obtain ⟨d, hd⟩ := hd
  obtain ⟨d', hd', hx⟩ := h
  rw [decl_mono hd] at hd'
  simp only [Option.some.injEq] at hd'
  subst hd'
  refine ⟨d, hd, ?_⟩
  rcases hx with hx | hx
  · left
    have : tr.matched e ≤ (tr ++ tr' : Trace α).matched e := by simp [Trace.matched, Trace.events, List.count_append]
    omega
  · exact Or.inr hx

/-- Where an expectation that was matched too rarely was withdrawn. -/
theorem unmet_violation {tr : STrace α} {sw : SWorld α} (h : SReach tr sw) {e : Nat} (hd : Event.destroyed e ∈ tr.flat.events)
    (hu : tr.flat.unmet e) : ∃ i, Violation tr i ∧
      ∃ st, tr[i]? = some st ∧ (∀ m a, st.op ≠ .plain (.call m a)) ∧ Event.destroyed e ∈ Trace.events st.log.lib := by
  have hmem : ∃ st ∈ tr, Event.destroyed e ∈ Trace.events st.log.lib := by
    simp only [STrace.flat, Trace.events, List.mem_flatMap] at hd ⊢
    obtain ⟨x, ⟨st, h1, h2⟩, h3⟩ := hd
    exact ⟨st, h1, x, h2, h3⟩
  obtain ⟨st, hst, hev⟩ := hmem
  obtain ⟨i, hi⟩ := List.getElem?_of_mem hst
  obtain ⟨sw₁, sw₂, h1, h2⟩ := reach_step h hi
  obtain ⟨o, ho, hop⟩ := step_destroyed h1 h2 hev
  have hlive := ((C37_owner h1).1 e).mpr ⟨o, ho⟩
  have hsplit : tr.flat = STrace.flat (tr.take i) ++ STrace.flat (tr.drop i) := by
    conv => lhs; rw [← List.take_append_drop i tr]
    exact List.flatMap_append
  rw [hsplit] at hu
  refine ⟨i, ⟨st, hi, .unmet ho (unmet_prefix hlive.1 hu) hop⟩, st, hi, ?_, hev⟩
  rintro m a hc
  rcases hop with hx | ⟨_, _, hx⟩ <;> simp [hx] at hc

/-! ## Scopes -/

/-- All objects that a program creates are gone afterwards, and no others. -/
theorem exec_slots {p : Prog α} {u : Nat} {t t' : Env α} {x : Option Thrown} (h : exec u t p = .ok (t', x)) (o : Nat) :
    slotAlive t'.sw.slots o ↔ slotAlive t.sw.slots o := by
  have plain : ∀ {t t' : Env α} {u : Nat} {p : Op α} {log : SLog α}, t.perform u (.plain p) = .ok (t', log) →
      t'.sw.slots = t.sw.slots := by
    intro t t' u p log hp
    obtain ⟨sw', hs, rfl⟩ := perform_eq hp
    cases p <;> simp only [SWorld.step] at hs <;> try grind
    all_goals
      split at hs
      · simp at hs
      · rename_i hlib
        obtain ⟨w', _, rfl, _⟩ := lib_eq hlib
        simp only [Except.ok.injEq, Prod.mk.injEq] at hs
        rw [← hs.1]
  have push : ∀ {t t' : Env α} {u : Nat} {op : SOp α} {log : SLog α},
      ((∃ m min max tags ps, op = .expect m min max tags ps) ∨ ∃ s, op = .moveConstruct s) → t.perform u op = .ok (t', log) →
      (log.slot = none ∧ ∀ o, slotAlive t'.sw.slots o ↔ slotAlive t.sw.slots o) ∨
      ∃ n, log.slot = some n ∧ ¬ slotAlive t.sw.slots n ∧ ∀ o, slotAlive t'.sw.slots o ↔ o = n ∨ slotAlive t.sw.slots o := by
    intro t t' u op log hop hp
    obtain ⟨sw', hs, rfl⟩ := perform_eq hp
    rcases hop with ⟨m, min, max, tags, ps, rfl⟩ | ⟨s, rfl⟩
    · simp only [SWorld.step] at hs
      split at hs
      · simp at hs
      · rename_i hlib
        obtain ⟨w', _, rfl, _⟩ := lib_eq hlib
        simp only [Except.ok.injEq, Prod.mk.injEq] at hs
        left
        rw [← hs.1, ← hs.2]
        simp
      · rename_i hlib
        obtain ⟨w', _, rfl, _⟩ := lib_eq hlib
        simp only [Except.ok.injEq, Prod.mk.injEq] at hs
        right
        refine ⟨t.sw.slots.length, by rw [← hs.2], fun hc => Nat.lt_irrefl _ (slotAlive_lt hc), fun o => ?_⟩
        rw [← hs.1]
        simp only [slotAlive_push]
        split <;> simp_all
    · simp only [SWorld.step] at hs
      split at hs
      · simp at hs
      · rename_i x hx
        simp only [Except.ok.injEq, Prod.mk.injEq] at hs
        right
        refine ⟨t.sw.slots.length, by rw [← hs.2], fun hc => Nat.lt_irrefl _ (slotAlive_lt hc), fun o => ?_⟩
        obtain ⟨h1, h2, h3, h4⟩ := slot_some hx
        rw [← hs.1]
        simp only [slotAlive_push, List.length_set, slotAlive_set]
        by_cases ho : o = t.sw.slots.length
        · simp [ho, h4]
        · simp only [ho, if_false, false_or]
          by_cases hs' : o = s
          · subst hs'; simp [h1, h4, h3]
          · simp [hs']
  have pop : ∀ {t t' : Env α} {u o : Nat} {log : SLog α}, t.perform u (.drop o) = .ok (t', log) →
      ∀ o', slotAlive t'.sw.slots o' ↔ o' ≠ o ∧ slotAlive t.sw.slots o' := by
    intro t t' u o log hp o'
    obtain ⟨sw', hs, rfl⟩ := perform_eq hp
    have key : o < t.sw.slots.length ∧ sw'.slots = t.sw.slots.set o ⟨none, false⟩ := by
      simp only [SWorld.step] at hs
      split at hs
      · simp at hs
      · rename_i x hx
        refine ⟨(slot_some hx).1, ?_⟩
        split at hs
        · simp only [Except.ok.injEq, Prod.mk.injEq] at hs
          rw [← hs.1]
        · split at hs
          · simp at hs
          · rename_i hlib
            obtain ⟨w', _, rfl, _⟩ := lib_eq hlib
            simp only [Except.ok.injEq, Prod.mk.injEq] at hs
            rw [← hs.1]
    simp only [key.2, slotAlive_set, key.1, and_true]
    split <;> simp_all
  have assign : ∀ {t t' : Env α} {u d s : Nat} {log : SLog α}, t.perform u (.moveAssign d s) = .ok (t', log) →
      ∀ o', slotAlive t'.sw.slots o' ↔ slotAlive t.sw.slots o' := by
    intro t t' u d s log hp o'
    obtain ⟨sw', hs, rfl⟩ := perform_eq hp
    simp only [SWorld.step] at hs
    split at hs
    · rename_i x y hx hy
      obtain ⟨h1, h2, h3, h4⟩ := slot_some hx
      obtain ⟨k1, k2, k3, k4⟩ := slot_some hy
      split at hs
      · simp only [Except.ok.injEq, Prod.mk.injEq] at hs
        rw [← hs.1]
      · have hset : slotAlive ((t.sw.slots.set s { y with inner := none }).set d { x with inner := y.inner }) o' ↔
            slotAlive t.sw.slots o' := by
          simp only [slotAlive_set, List.length_set, h1, k1, and_true]
          split
          · simp_all
          · split <;> simp_all
        split at hs
        · simp only [Except.ok.injEq, Prod.mk.injEq] at hs
          rw [← hs.1]; exact hset
        · split at hs
          · simp at hs
          · rename_i hlib
            obtain ⟨w', _, rfl, _⟩ := lib_eq hlib
            split at hs
            · simp at hs
            · simp only [Except.ok.injEq, Prod.mk.injEq] at hs
              rw [← hs.1]; exact hset
    · simp at hs
  induction p generalizing u t t' x with
  | skip => simp only [exec, Except.ok.injEq, Prod.mk.injEq] at h; rw [← h.1]
  | seq p q ihp ihq =>
    simp only [exec] at h
    split at h
    · simp at h
    · rename_i h1
      simp only [Except.ok.injEq, Prod.mk.injEq] at h
      rw [← h.1]; exact ihp h1
    · rename_i h1
      exact (ihq h).trans (ihp h1)
  | mock =>
    simp only [exec] at h
    split at h
    · simp at h
    · rename_i h1
      simp only [Except.ok.injEq, Prod.mk.injEq] at h
      rw [← h.1, plain h1]
  | call m a =>
    simp only [exec] at h
    split at h
    · simp at h
    · rename_i h1
      simp only [Except.ok.injEq, Prod.mk.injEq] at h
      rw [← h.1, plain h1]
  | assign dst src =>
    simp only [exec] at h
    split at h
    · simp at h
    · rename_i h1
      simp only [Except.ok.injEq, Prod.mk.injEq] at h
      rw [← h.1]; exact assign h1 o
  | install k => simp only [exec, Except.ok.injEq, Prod.mk.injEq] at h; rw [← h.1]
  | throw n => simp only [exec, Except.ok.injEq, Prod.mk.injEq] at h; rw [← h.1]
  | expectation m min max tags ps rest ih =>
    simp only [exec] at h
    split at h
    · simp at h
    · rename_i h1
      rcases push (Or.inl ⟨m, min, max, tags, ps, rfl⟩) h1 with ⟨hn, hk⟩ | ⟨n, hn, hf, hk⟩
      · simp only [hn, Except.ok.injEq, Prod.mk.injEq] at h
        rw [← h.1]; exact hk o
      · simp only [hn] at h
        split at h
        · simp at h
        · rename_i h2
          split at h
          · simp at h
          · rename_i h3
            rw [(leave_eq h).1, pop h3]
            have h2' := (ih h2).trans (hk o)
            rw [h2']
            constructor
            · rintro ⟨ha, (hb | hb)⟩
              · exact absurd hb ha
              · exact hb
            · intro ha
              exact ⟨fun hc => hf (hc ▸ ha), Or.inr ha⟩
  | moved src rest ih =>
    simp only [exec] at h
    split at h
    · simp at h
    · rename_i h1
      rcases push (Or.inr ⟨src, rfl⟩) h1 with ⟨hn, hk⟩ | ⟨n, hn, hf, hk⟩
      · simp only [hn, Except.ok.injEq, Prod.mk.injEq] at h
        rw [← h.1]; exact hk o
      · simp only [hn] at h
        split at h
        · simp at h
        · rename_i h2
          split at h
          · simp at h
          · rename_i h3
            rw [(leave_eq h).1, pop h3]
            have h2' := (ih h2).trans (hk o)
            rw [h2']
            constructor
            · rintro ⟨ha, (hb | hb)⟩
              · exact absurd hb ha
              · exact hb
            · intro ha
              exact ⟨fun hc => hf (hc ▸ ha), Or.inr ha⟩
  | sequence st rest ih =>
    simp only [exec] at h
    split at h
    · simp at h
    · rename_i h1
      split at h
      · simp at h
      · rename_i h2
        split at h
        · simp at h
        · rename_i h3
          rw [(leave_eq h).1, plain h3]
          have h2' := ih h2
          rw [plain h1] at h2'
          exact h2'
  | guard c rest ihc ih =>
    simp only [exec] at h
    split at h
    · simp at h
    · rename_i h1
      split at h
      · simp at h
      · simp at h
      · rename_i h2
        simp only [Except.ok.injEq, Prod.mk.injEq] at h
        rw [← h.1]
        exact (ihc h2).trans (ih h1)
  | attempt c body handler ihb ihh =>
    simp only [exec] at h
    split at h
    · simp at h
    · rename_i h1
      simp only [Except.ok.injEq, Prod.mk.injEq] at h
      rw [← h.1]; exact ihb h1
    · rename_i h1
      split at h
      · exact (ihh h).trans (ihb h1)
      · simp only [Except.ok.injEq, Prod.mk.injEq] at h
        rw [← h.1]; exact ihb h1

/-! ## Definedness -/

theorem deliver_defined {R : Reporter} (hR : R.Lawful) {u : Nat} {p : Option Exn} {ev : List Event} {x : Stop}
    (h : deliver R u p ev = .error x) : ∃ why, x = .terminate why := by
  induction ev generalizing p with
  | nil => simp [deliver] at h
  | cons e es ih =>
    simp only [deliver] at h
    split at h
    · rename_i y hy
      simp only [Except.error.injEq] at h
      subst h
      cases e <;> simp only [deliverOne, Reporter.exn, hR.noMatches, hR.inapplicableMatches, hR.fullMatch, hR.unhandledException,
        atNoexcept, bind, Except.bind, pure, Except.pure, if_true, Bool.false_eq_true, if_false] at hy <;> grind
    · exact ih h

theorem lib_defined {tr : Trace α} {w : World α} {sw : SWorld α} (h : Reach tr w) (hw : sw.w = w) {c : Ctx} (hR : c.reporter.Lawful)
    {op : Op α} {x : Stop}
    (hs : sw.lib c op = .error x) (why : String) : x ≠ .ub why := by
  unfold SWorld.lib at hs
  rw [hw] at hs
  split at hs
  · rename_i y hy
    simp only [Except.error.injEq] at hs
    subst hs
    obtain ⟨h1, h2, h3⟩ := C17_progress h op
    by_cases hv : tr.valid op
    · by_cases ho : tr.overflows op
      · obtain ⟨w, hw⟩ := h2 hv ho
        rw [hw] at hy
        simp only [Except.error.injEq] at hy
        simp [← hy]
      · obtain ⟨w', ev, hw⟩ := h1 hv ho
        rw [hw] at hy
        simp at hy
    · obtain ⟨w, hw⟩ := h3 hv
      rw [hw] at hy
      simp only [Except.error.injEq] at hy
      simp [← hy]
  · split at hs
    · rename_i hd
      obtain ⟨w, hw⟩ := deliver_defined hR hd
      simp only [Except.error.injEq] at hs
      simp [← hs, hw]
    · simp at hs

theorem step_defined {tr : STrace α} {sw : SWorld α} (h : SReach tr sw) {c : Ctx} (hR : c.reporter.Lawful) {op : SOp α}
    (hop : ∀ o, op ≠ .isSatisfied o) {x : Stop} (hs : sw.step c op = .error x) (why : String) : x ≠ .ub why := by
  have hr : Reach tr.flat sw.w := h.inv.reach
  cases op with
  | isSatisfied o => exact absurd rfl (hop o)
  | plain p =>
    cases p <;> simp only [SWorld.step] at hs <;> try grind
    all_goals
      split at hs
      · rename_i hlib
        simp only [Except.error.injEq] at hs
        subst hs
        exact lib_defined hr (by rfl) hR hlib why
      · simp at hs
  | expect =>
    simp only [SWorld.step] at hs
    split at hs
    · rename_i hlib
      simp only [Except.error.injEq] at hs
      subst hs
      exact lib_defined hr (by rfl) hR hlib why
    · simp at hs
    · simp at hs
  | moveConstruct => simp only [SWorld.step] at hs; grind
  | drop o =>
    simp only [SWorld.step] at hs
    split at hs
    · grind
    · split at hs
      · simp at hs
      · split at hs
        · rename_i hlib
          simp only [Except.error.injEq] at hs
          subst hs
          exact lib_defined hr (by rfl) hR hlib why
        · simp at hs
  | moveAssign d s =>
    simp only [SWorld.step] at hs
    split at hs
    · split at hs
      · simp at hs
      · split at hs
        · simp at hs
        · split at hs
          · rename_i hlib
            simp only [Except.error.injEq] at hs
            subst hs
            exact lib_defined hr (by rfl) hR hlib why
          · split at hs
            · rename_i hz
              simp only [Except.error.injEq] at hs
              subst hs
              unfold atNoexcept at hz
              split at hz <;> simp at hz
              simp [← hz]
            · simp at hs
    · grind

theorem perform_defined {t : Env α} (h : SReach t.past t.sw) {u : Nat} {op : SOp α} (hop : ∀ o, op ≠ .isSatisfied o) {x : Stop}
    (hs : t.perform u op = .error x) (why : String) : x ≠ .ub why := by
  unfold Env.perform at hs
  split at hs
  · rename_i hx
    simp only [Except.error.injEq] at hs
    subst hs
    exact step_defined h (lawful _) hop hx why
  · simp at hs

theorem perform_reach {t t' : Env α} (h : SReach t.past t.sw) {u : Nat} {op : SOp α} {log : SLog α}
    (hs : t.perform u op = .ok (t', log)) : SReach t'.past t'.sw := by
  obtain ⟨sw', hs', rfl⟩ := perform_eq hs
  exact h.step hs'

theorem leave_defined {pending : Option Thrown} {t : Env α} {exn : Option Exn} {x : Stop} (h : leave pending t exn = .error x)
    (why : String) : x ≠ .ub why := by
  unfold leave at h
  split at h <;> simp_all
  simp [← h]

/-- No test runs into undefined behaviour. -/
theorem exec_defined {p : Prog α} {u : Nat} {t : Env α} (ht : SReach t.past t.sw) {x : Stop} (h : exec u t p = .error x)
    (why : String) : x ≠ .ub why := by
  induction p generalizing u t with
  | skip => simp [exec] at h
  | install k => simp [exec] at h
  | throw n => simp [exec] at h
  | seq p q ihp ihq =>
    simp only [exec] at h
    split at h
    · rename_i h1
      simp only [Except.error.injEq] at h
      subst h
      exact ihp ht h1
    · simp at h
    · rename_i h1
      exact ihq (exec_reach h1 ht) h
  | mock =>
    simp only [exec] at h
    split at h
    · rename_i h1
      simp only [Except.error.injEq] at h
      exact h ▸ perform_defined ht (by simp) h1 why
    · simp at h
  | call m a =>
    simp only [exec] at h
    split at h
    · rename_i h1
      simp only [Except.error.injEq] at h
      exact h ▸ perform_defined ht (by simp) h1 why
    · simp at h
  | assign dst src =>
    simp only [exec] at h
    split at h
    · rename_i h1
      simp only [Except.error.injEq] at h
      exact h ▸ perform_defined ht (by simp) h1 why
    · simp at h
  | expectation m min max tags ps rest ih =>
    simp only [exec] at h
    split at h
    · rename_i h1
      simp only [Except.error.injEq] at h
      exact h ▸ perform_defined ht (by simp) h1 why
    · rename_i h1
      have ht1 := perform_reach ht h1
      split at h
      · simp at h
      · split at h
        · rename_i h2
          simp only [Except.error.injEq] at h
          subst h
          exact ih ht1 h2
        · rename_i h2
          split at h
          · rename_i h3
            simp only [Except.error.injEq] at h
            exact h ▸ perform_defined (exec_reach h2 ht1) (by simp) h3 why
          · exact leave_defined h why
  | moved src rest ih =>
    simp only [exec] at h
    split at h
    · rename_i h1
      simp only [Except.error.injEq] at h
      exact h ▸ perform_defined ht (by simp) h1 why
    · rename_i h1
      have ht1 := perform_reach ht h1
      split at h
      · simp at h
      · split at h
        · rename_i h2
          simp only [Except.error.injEq] at h
          subst h
          exact ih ht1 h2
        · rename_i h2
          split at h
          · rename_i h3
            simp only [Except.error.injEq] at h
            exact h ▸ perform_defined (exec_reach h2 ht1) (by simp) h3 why
          · exact leave_defined h why
  | sequence st rest ih =>
    simp only [exec] at h
    split at h
    · rename_i h1
      simp only [Except.error.injEq] at h
      exact h ▸ perform_defined ht (by simp) h1 why
    · rename_i h1
      have ht1 := perform_reach ht h1
      split at h
      · rename_i h2
        simp only [Except.error.injEq] at h
        subst h
        exact ih ht1 h2
      · rename_i h2
        split at h
        · rename_i h3
          simp only [Except.error.injEq] at h
          exact h ▸ perform_defined (exec_reach h2 ht1) (by simp) h3 why
        · exact leave_defined h why
  | guard c rest ihc ih =>
    simp only [exec] at h
    split at h
    · rename_i h1
      simp only [Except.error.injEq] at h
      subst h
      exact ih ht h1
    · rename_i h1
      split at h
      · rename_i h2
        simp only [Except.error.injEq] at h
        subst h
        exact ihc (exec_reach h1 ht) h2
      · simp only [Except.error.injEq] at h
        simp [← h]
      · simp at h
  | attempt c body handler ihb ihh =>
    simp only [exec] at h
    split at h
    · rename_i h1
      simp only [Except.error.injEq] at h
      subst h
      exact ihb ht h1
    · simp at h
    · rename_i h1
      split at h
      · exact ihh (exec_reach h1 ht) h
      · simp at h

/-! ## No exceptions but those of the library -/

/-- Somewhere an operation ended with an exception. -/
def Threw (tr : STrace α) : Prop := ∃ st ∈ tr, st.log.exn ≠ none

theorem Threw.grows {tr new : STrace α} (h : Threw tr) : Threw (tr ++ new) := by
  obtain ⟨st, h1, h2⟩ := h
  exact ⟨st, by simp [h1], h2⟩

theorem exec_threw {p : Prog α} {u : Nat} {t t' : Env α} {x : Option Thrown} (h : exec u t p = .ok (t', x)) (ht : Threw t.past) :
    Threw t'.past := by
  obtain ⟨new, hn⟩ := exec_past h
  exact hn ▸ ht.grows

/-- If nothing is thrown by the program, operations are only performed during stack unwinding after an exception of the
library. -/
theorem exec_throwless {p : Prog α} (hp : p.throwless) {u : Nat} {t t' : Env α} {x : Option Thrown} (h : exec u t p = .ok (t', x))
    (hu : u ≠ 0 → Threw t.past) (ht : (∃ st ∈ t.past, st.ctx.uncaught ≠ 0) → Threw t.past) :
    ((∃ st ∈ t'.past, st.ctx.uncaught ≠ 0) → Threw t'.past) ∧ (x ≠ none → Threw t'.past) := by
  have perf : ∀ {t t' : Env α} {u : Nat} {op : SOp α} {log : SLog α}, (u ≠ 0 → Threw t.past) →
      ((∃ st ∈ t.past, st.ctx.uncaught ≠ 0) → Threw t.past) → t.perform u op = .ok (t', log) →
      ((∃ st ∈ t'.past, st.ctx.uncaught ≠ 0) → Threw t'.past) ∧ (log.exn ≠ none → Threw t'.past) ∧
      (Threw t.past → Threw t'.past) := by
    intro t t' u op log hu ht hp
    obtain ⟨sw', hs, rfl⟩ := perform_eq hp
    refine ⟨?_, fun hx => ⟨⟨⟨t.installed.reporter, u⟩, op, log⟩, by simp, hx⟩, fun h => h.grows⟩
    rintro ⟨st, hst, hne⟩
    simp only [List.mem_append, List.mem_singleton] at hst
    rcases hst with hst | rfl
    · exact (ht ⟨st, hst, hne⟩).grows
    · exact (hu hne).grows
  have fin : ∀ {t t' : Env α} {u : Nat} {op : SOp α} {log : SLog α}, (u ≠ 0 → Threw t.past) →
      ((∃ st ∈ t.past, st.ctx.uncaught ≠ 0) → Threw t.past) → t.perform u op = .ok (t', log) →
      ((∃ st ∈ t'.past, st.ctx.uncaught ≠ 0) → Threw t'.past) ∧ (log.exn.map Thrown.library ≠ none → Threw t'.past) := by
    intro t t' u op log hu ht hp
    obtain ⟨h1, h2, _⟩ := perf hu ht hp
    refine ⟨h1, fun hx => h2 ?_⟩
    rintro hn
    simp [hn] at hx
  -- the end of a block
  have blk : ∀ {t₂ t₃ t' : Env α} {u : Nat} {op : SOp α} {log : SLog α} {pending x : Option Thrown},
      (u ≠ 0 → Threw t₂.past) → ((∃ st ∈ t₂.past, st.ctx.uncaught ≠ 0) → Threw t₂.past) → (pending ≠ none → Threw t₂.past) →
      t₂.perform (pendings u pending) op = .ok (t₃, log) → leave pending t₃ log.exn = .ok (t', x) →
      ((∃ st ∈ t'.past, st.ctx.uncaught ≠ 0) → Threw t'.past) ∧ (x ≠ none → Threw t'.past) := by
    intro t₂ t₃ t' u op log pending x hu ht hpd hp hl
    have hu' : pendings u pending ≠ 0 → Threw t₂.past := by
      cases pending with
      | none => simpa [pendings] using hu
      | some y => exact fun _ => hpd (by simp)
    obtain ⟨h1, h2, h3⟩ := perf hu' ht hp
    obtain ⟨rfl, hx⟩ := leave_eq hl
    refine ⟨h1, fun hne => ?_⟩
    rcases hx with ⟨_, rfl⟩ | ⟨_, rfl⟩
    · exact h3 (hpd hne)
    · exact h2 (fun hn => by simp [hn] at hne)
  induction p generalizing u t t' x with
  | skip =>
    simp only [exec, Except.ok.injEq, Prod.mk.injEq] at h
    obtain ⟨rfl, rfl⟩ := h
    exact ⟨ht, by simp⟩
  | seq p q ihp ihq =>
    simp only [exec] at h
    split at h
    · simp at h
    · rename_i h1
      simp only [Except.ok.injEq, Prod.mk.injEq] at h
      obtain ⟨rfl, rfl⟩ := h
      exact ihp hp.1 h1 hu ht
    · rename_i h1
      obtain ⟨k1, k2⟩ := ihp hp.1 h1 hu ht
      exact ihq hp.2 h (fun hne => exec_threw h1 (hu hne)) k1
  | mock =>
    simp only [exec] at h
    split at h
    · simp at h
    · rename_i h1
      simp only [Except.ok.injEq, Prod.mk.injEq] at h
      obtain ⟨rfl, rfl⟩ := h
      exact fin hu ht h1
  | call m a =>
    simp only [exec] at h
    split at h
    · simp at h
    · rename_i h1
      simp only [Except.ok.injEq, Prod.mk.injEq] at h
      obtain ⟨rfl, rfl⟩ := h
      exact fin hu ht h1
  | assign dst src =>
    simp only [exec] at h
    split at h
    · simp at h
    · rename_i h1
      simp only [Except.ok.injEq, Prod.mk.injEq] at h
      obtain ⟨rfl, rfl⟩ := h
      exact fin hu ht h1
  | install k =>
    simp only [exec, Except.ok.injEq, Prod.mk.injEq] at h
    obtain ⟨rfl, rfl⟩ := h
    exact ⟨ht, by simp⟩
  | throw n => exact absurd hp (by simp [Prog.throwless])
  | expectation m min max tags ps rest ih =>
    simp only [exec] at h
    split at h
    · simp at h
    · rename_i h1
      obtain ⟨k1, k2, k3⟩ := perf hu ht h1
      split at h
      · simp only [Except.ok.injEq, Prod.mk.injEq] at h
        obtain ⟨rfl, rfl⟩ := h
        exact fin hu ht h1
      · split at h
        · simp at h
        · rename_i h2
          have hu1 := fun hne => k3 (hu hne)
          obtain ⟨l1, l2⟩ := ih hp h2 hu1 k1
          split at h
          · simp at h
          · rename_i h3
            exact blk (fun hne => exec_threw h2 (hu1 hne)) l1 l2 h3 h
  | moved src rest ih =>
    simp only [exec] at h
    split at h
    · simp at h
    · rename_i h1
      obtain ⟨k1, k2, k3⟩ := perf hu ht h1
      split at h
      · simp only [Except.ok.injEq, Prod.mk.injEq] at h
        obtain ⟨rfl, rfl⟩ := h
        exact fin hu ht h1
      · split at h
        · simp at h
        · rename_i h2
          have hu1 := fun hne => k3 (hu hne)
          obtain ⟨l1, l2⟩ := ih hp h2 hu1 k1
          split at h
          · simp at h
          · rename_i h3
            exact blk (fun hne => exec_threw h2 (hu1 hne)) l1 l2 h3 h
  | sequence st rest ih =>
    simp only [exec] at h
    split at h
    · simp at h
    · rename_i h1
      obtain ⟨k1, k2, k3⟩ := perf hu ht h1
      split at h
      · simp at h
      · rename_i h2
        have hu1 := fun hne => k3 (hu hne)
        obtain ⟨l1, l2⟩ := ih hp h2 hu1 k1
        split at h
        · simp at h
        · rename_i h3
          exact blk (fun hne => exec_threw h2 (hu1 hne)) l1 l2 h3 h
  | guard c rest ihc ih =>
    simp only [exec] at h
    split at h
    · simp at h
    · rename_i t₁ pending h1
      obtain ⟨k1, k2⟩ := ih hp.2 h1 hu ht
      split at h
      · simp at h
      · simp at h
      · rename_i h2
        simp only [Except.ok.injEq, Prod.mk.injEq] at h
        obtain ⟨rfl, rfl⟩ := h
        have hu' : pendings u pending ≠ 0 → Threw t₁.past := by
          cases pending with
          | none => exact fun hne => exec_threw h1 (hu (by simpa [pendings] using hne))
          | some y => exact fun _ => k2 (by simp)
        obtain ⟨l1, _⟩ := ihc hp.1 h2 hu' k1
        exact ⟨l1, fun hx => exec_threw h2 (k2 hx)⟩
  | attempt c body handler ihb ihh =>
    simp only [exec] at h
    split at h
    · simp at h
    · rename_i h1
      simp only [Except.ok.injEq, Prod.mk.injEq] at h
      obtain ⟨rfl, rfl⟩ := h
      exact ihb hp.1 h1 hu ht
    · rename_i h1
      obtain ⟨k1, k2⟩ := ihb hp.1 h1 hu ht
      split at h
      · exact ihh hp.2 h (fun hne => exec_threw h1 (hu hne)) k1
      · simp only [Except.ok.injEq, Prod.mk.injEq] at h
        obtain ⟨rfl, rfl⟩ := h
        exact ⟨k1, k2⟩

/-- An exception of the library tells of something that went wrong, and that is not hidden. -/
theorem exn_violation {tr : STrace α} {sw : SWorld α} (h : SReach tr sw) (hl : ∀ st ∈ tr, st.ctx.reporter.Lawful)
    {st : SEntry α} (hst : st ∈ tr) (hx : st.log.exn ≠ none) :
    (∃ i, Violation tr i ∧ ¬ Hidden tr i) ∨ (st.log.exn = some .invalidArgument ∧ ¬ Sensible st) := by
  obtain ⟨i, hi⟩ := List.getElem?_of_mem hst
  obtain ⟨sw₁, sw₂, h1, h2⟩ := reach_step h hi
  obtain ⟨e1, e2, e3, e4, _⟩ := step_exn h1 (hl st hst) h2
  cases hy : st.log.exn with
  | none => exact absurd hy hx
  | some y =>
    cases y with
    | unmatched =>
      obtain ⟨m, a, hop, hc⟩ := e1 hy
      refine Or.inl ⟨i, ⟨st, hi, .call hop hc⟩, ?_⟩
      rintro ⟨st', hi', hne, _⟩
      rw [hi] at hi'
      simp only [Option.some.injEq] at hi'
      subst hi'
      exact hne _ _ hop
    | unfulfilled e =>
      obtain ⟨o, hop, ho, hu⟩ := e2 e hy
      refine Or.inl ⟨i, ⟨st, hi, .unmet ho hu (Or.inl hop)⟩, ?_⟩
      rintro ⟨st', hi', _, hne⟩
      rw [hi] at hi'
      simp only [Option.some.injEq] at hi'
      subst hi'
      rw [hop] at h2
      rcases C38_drop h1 (c := st.ctx) (hl st hst) ((C37_owner h1).2.2.2 o e ho) with ⟨sw', log, k1, k2⟩ | ⟨⟨why, k1⟩, _⟩
      · rw [k1] at h2
        simp only [Except.ok.injEq, Prod.mk.injEq] at h2
        obtain ⟨_, _, _, _, k3⟩ := (k2 (.unfulfilled e)).mp (by rw [h2.2]; exact hy)
        exact hne k3
      · rw [k1] at h2
        simp at h2
    | sequence s => exact absurd hy (e4 s)
    | invalidArgument =>
      obtain ⟨m, min, max, tags, ps, hop, hbad⟩ := e3 hy
      exact Or.inr ⟨rfl, fun hs => hbad (hs _ _ _ _ _ hop)⟩

/-- A failure is only recorded if something went wrong. -/
theorem exec_recorded {p : Prog α} {u : Nat} {t t' : Env α} {x : Option Thrown} (h : exec u t p = .ok (t', x))
    (hr : SReach t.past t.sw) (ht : Note.failed ∈ t.notes → ∃ i, Violation t.past i) :
    Note.failed ∈ t'.notes → ∃ i, Violation t'.past i := by
  refine (exec_keeps (fun t => SReach t.past t.sw ∧ (Note.failed ∈ t.notes → ∃ i, Violation t.past i)) (fun _ => True) ?_ ?_ p
    (fun _ _ => trivial) h ⟨hr, ht⟩).2
  · rintro t t' u op log ⟨hr, ht⟩ hp
    refine ⟨perform_reach hr hp, ?_⟩
    obtain ⟨sw', hs, rfl⟩ := perform_eq hp
    intro hf
    simp only [List.mem_append] at hf
    rcases hf with hf | hf
    · obtain ⟨i, st, hi, hv⟩ := ht hf
      have hlt : i < t.past.length := by
        rcases Nat.lt_or_ge i t.past.length with hlt | hge
        · exact hlt
        · rw [List.getElem?_eq_none hge] at hi; simp at hi
      refine ⟨i, st, by rw [List.getElem?_append_left hlt]; exact hi, ?_⟩
      rw [List.take_append_of_le_length (Nat.le_of_lt hlt)]
      exact hv
    · cases hk : t.installed with
      | default out => rw [hk, noted_default] at hf; simp at hf
      | adapter f =>
        rw [hk] at hs hf
        rcases step_notes f hr hs with ⟨hv, _, _⟩ | ⟨_, hn⟩
        · refine ⟨t.past.length, ⟨⟨(Installed.adapter f).reporter, u⟩, op, log⟩, by simp, ?_⟩
          rw [List.take_left']
          · exact hv
          · rfl
        · rw [List.count_eq_zero] at hn
          exact absurd hf hn
  · rintro t k ⟨h1, h2⟩ _
    exact ⟨h1, h2⟩

end Mimic.TestRun
