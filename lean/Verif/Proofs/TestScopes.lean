import Verif.Proofs.TestRun

/-!
# Lemmas about the ends of blocks in tests
-/

set_option autoImplicit false

namespace Mimic.TestRun

variable {α : Type}

theorem abs_hasHandle (w : World α) (s : Nat) : (abs w).hasHandle s = w.hasHandle s := by
  unfold Spec.State.hasHandle World.hasHandle
  simp only [abs, List.getElem?_map]
  cases w.seqs[s]? <;> rfl

/-- Which sequence objects there are after an operation. -/
theorem step_handles {tr : Trace α} {w w' : World α} (h : Reach tr w) {op : Op α} {ev : List Event} (hs : w.step op = .ok (w', ev)) :
    (∀ st, op = .newSequence st → ∀ s, w'.hasHandle s = (decide (s = w.seqs.length) || w.hasHandle s)) ∧
    (∀ d, op = .dropSequence d → ∀ s, w'.hasHandle s = (!decide (s = d) && w.hasHandle s)) ∧
    ((∀ st, op ≠ .newSequence st) → (∀ d, op ≠ .dropSequence d) → ∀ s, w'.hasHandle s = w.hasHandle s) := by
  have hsp := h.spec_step hs
  have hl : (abs w).seqs.length = w.seqs.length := by simp [abs]
  simp only [← abs_hasHandle, ← hl]
  revert hsp
  generalize abs w = S
  generalize abs w' = S'
  intro hsp
  refine ⟨?_, ?_, ?_⟩
  · rintro st rfl s
    simp only [Spec.State.step, Option.some.injEq, Prod.mk.injEq] at hsp
    rw [← hsp.1]
    simp only [Spec.State.hasHandle, List.getElem?_append]
    by_cases h1 : s < S.seqs.length
    · simp [h1, Nat.ne_of_lt h1]
    · by_cases h2 : s = S.seqs.length
      · simp [h2]
      · have : (s - S.seqs.length) ≠ 0 := by omega
        simp [h1, h2]
        cases hk : s - S.seqs.length with
        | zero => omega
        | succ k => simp [List.getElem?_eq_none (Nat.le_of_not_lt h1)]
  · rintro d rfl s
    simp only [Spec.State.step] at hsp
    split at hsp
    · simp only [Option.some.injEq, Prod.mk.injEq] at hsp
      rw [← hsp.1]
      simp only [Spec.State.hasHandle, List.getElem?_modify]
      cases hq : S.seqs[s]? with
      | none => simp
      | some q =>
        by_cases hsd : d = s
        · simp [hsd]
        · have : s ≠ d := fun e => hsd e.symm
          simp [hsd, this]
    · simp at hsp
  · intro h1 h2 s
    cases op with
    | newSequence st => exact absurd rfl (h1 st)
    | dropSequence d => exact absurd rfl (h2 d)
    | newMock =>
      simp only [Spec.State.step, Option.some.injEq, Prod.mk.injEq] at hsp
      rw [← hsp.1]; rfl
    | expect m min max tags ps =>
      simp only [Spec.State.step] at hsp
      split at hsp
      · split at hsp <;> (simp only [Option.some.injEq, Prod.mk.injEq] at hsp; rw [← hsp.1]; try rfl)
      · simp at hsp
    | call m a =>
      simp only [Spec.State.step] at hsp
      split at hsp
      · simp only [Option.some.injEq, Prod.mk.injEq] at hsp
        rw [← hsp.1]
        have : (S.call m a).1.seqs = S.seqs := by
          unfold Spec.State.call
          dsimp only
          split
          · rfl
          · split <;> rfl
        simp only [Spec.State.hasHandle, this]
      · simp at hsp
    | destroy e =>
      simp only [Spec.State.step] at hsp
      split at hsp
      · simp at hsp
      · simp only [Option.some.injEq, Prod.mk.injEq] at hsp
        rw [← hsp.1]
        rfl

theorem lib_handles {tr : Trace α} {w : World α} {sw sw' : SWorld α} (h : Reach tr w) {c : Ctx} {op : Op α} {ev : List Event}
    {exn : Option Exn} (hs : sw.lib c op = .ok (sw', ev, exn)) (hw : sw.w = w) (h1 : ∀ st, op ≠ .newSequence st) (h2 : ∀ d, op ≠ .dropSequence d) (s : Nat) :
    sw'.w.hasHandle s = w.hasHandle s := by
  obtain ⟨w', hw', rfl, _⟩ := lib_eq hs
  exact (step_handles h (hw ▸ hw')).2.2 h1 h2 s

/-- Only sequence operations change which sequence objects there are. -/
theorem perform_handles {t t' : Env α} (h : SReach t.past t.sw) {u : Nat} {op : SOp α} {log : SLog α}
    (hp : t.perform u op = .ok (t', log)) (h1 : ∀ st, op ≠ .plain (.newSequence st)) (h2 : ∀ d, op ≠ .plain (.dropSequence d))
    (s : Nat) : t'.sw.w.hasHandle s = t.sw.w.hasHandle s := by
  obtain ⟨sw', hs, rfl⟩ := perform_eq hp
  have hr : Reach _ t.sw.w := h.inv.reach
  show sw'.w.hasHandle s = t.sw.w.hasHandle s
  cases op with
  | plain p =>
    cases p <;> simp only [SWorld.step] at hs <;> try grind
    all_goals
      split at hs
      · simp at hs
      · rename_i hlib
        simp only [Except.ok.injEq, Prod.mk.injEq] at hs
        rw [← hs.1]
        exact lib_handles hr hlib rfl (by simp) (by simp) s
  | expect =>
    simp only [SWorld.step] at hs
    split at hs
    · simp at hs
    · rename_i hlib
      simp only [Except.ok.injEq, Prod.mk.injEq] at hs
      rw [← hs.1]
      exact lib_handles hr hlib rfl (by simp) (by simp) s
    · rename_i hlib
      simp only [Except.ok.injEq, Prod.mk.injEq] at hs
      rw [← hs.1]
      exact lib_handles hr hlib rfl (by simp) (by simp) s
  | moveConstruct =>
    simp only [SWorld.step] at hs
    split at hs
    · simp at hs
    · simp only [Except.ok.injEq, Prod.mk.injEq] at hs
      rw [← hs.1]
  | isSatisfied =>
    simp only [SWorld.step] at hs
    grind
  | drop =>
    simp only [SWorld.step] at hs
    split at hs
    · simp at hs
    · split at hs
      · simp only [Except.ok.injEq, Prod.mk.injEq] at hs
        rw [← hs.1]
      · split at hs
        · simp at hs
        · rename_i hlib
          simp only [Except.ok.injEq, Prod.mk.injEq] at hs
          rw [← hs.1]
          exact lib_handles hr hlib rfl (by simp) (by simp) s
  | moveAssign =>
    simp only [SWorld.step] at hs
    split at hs
    · split at hs
      · simp only [Except.ok.injEq, Prod.mk.injEq] at hs
        rw [← hs.1]
      · split at hs
        · simp only [Except.ok.injEq, Prod.mk.injEq] at hs
          rw [← hs.1]
        · split at hs
          · simp at hs
          · rename_i hlib
            split at hs
            · simp at hs
            · simp only [Except.ok.injEq, Prod.mk.injEq] at hs
              rw [← hs.1]
              exact lib_handles hr hlib rfl (by simp) (by simp) s
    · simp at hs

/-- A new sequence. -/
theorem perform_newSequence {t t' : Env α} (h : SReach t.past t.sw) {u : Nat} {st : Strategy} {log : SLog α}
    (hp : t.perform u (.plain (.newSequence st)) = .ok (t', log)) (s : Nat) :
    t'.sw.w.hasHandle s = (decide (s = t.sw.w.seqs.length) || t.sw.w.hasHandle s) := by
  obtain ⟨sw', hs, rfl⟩ := perform_eq hp
  simp only [SWorld.step] at hs
  split at hs
  · simp at hs
  · rename_i hlib
    obtain ⟨w', hw, rfl, _⟩ := lib_eq hlib
    simp only [Except.ok.injEq, Prod.mk.injEq] at hs
    rw [← hs.1]
    exact (step_handles h.inv.reach hw).1 st rfl s

/-- The end of a sequence. -/
theorem perform_dropSequence {t t' : Env α} (h : SReach t.past t.sw) {u d : Nat} {log : SLog α}
    (hp : t.perform u (.plain (.dropSequence d)) = .ok (t', log)) (s : Nat) :
    t'.sw.w.hasHandle s = (!decide (s = d) && t.sw.w.hasHandle s) := by
  obtain ⟨sw', hs, rfl⟩ := perform_eq hp
  simp only [SWorld.step] at hs
  split at hs
  · simp at hs
  · rename_i hlib
    obtain ⟨w', hw, rfl, _⟩ := lib_eq hlib
    simp only [Except.ok.injEq, Prod.mk.injEq] at hs
    rw [← hs.1]
    exact (step_handles h.inv.reach hw).2.1 d rfl s

theorem leave_state {pending x : Option Thrown} {t t' : Env α} {exn : Option Exn} (h : leave pending t exn = .ok (t', x)) : t' = t := by
  unfold leave at h
  grind

theorem fresh_handle (w : World α) : w.hasHandle w.seqs.length = false := by
  simp [World.hasHandle]

/-- All sequences that a program creates are gone afterwards, and no others. -/
theorem exec_handles {p : Prog α} {u : Nat} {t t' : Env α} {x : Option Thrown} (ht : SReach t.past t.sw)
    (h : exec u t p = .ok (t', x)) (s : Nat) : t'.sw.w.hasHandle s = t.sw.w.hasHandle s := by
  induction p generalizing u t t' x with
  | skip => simp only [exec, Except.ok.injEq, Prod.mk.injEq] at h; rw [h.1]
  | install k => simp only [exec, Except.ok.injEq, Prod.mk.injEq] at h; rw [← h.1]
  | throw n => simp only [exec, Except.ok.injEq, Prod.mk.injEq] at h; rw [h.1]
  | seq p q ihp ihq =>
    simp only [exec] at h
    split at h
    · simp at h
    · rename_i h1
      simp only [Except.ok.injEq, Prod.mk.injEq] at h
      rw [← h.1]; exact ihp ht h1
    · rename_i h1
      rw [ihq (exec_reach h1 ht) h, ihp ht h1]
  | mock =>
    simp only [exec] at h
    split at h
    · simp at h
    · rename_i h1
      simp only [Except.ok.injEq, Prod.mk.injEq] at h
      rw [← h.1]; exact perform_handles ht h1 (by simp) (by simp) s
  | call m a =>
    simp only [exec] at h
    split at h
    · simp at h
    · rename_i h1
      simp only [Except.ok.injEq, Prod.mk.injEq] at h
      rw [← h.1]; exact perform_handles ht h1 (by simp) (by simp) s
  | assign dst src =>
    simp only [exec] at h
    split at h
    · simp at h
    · rename_i h1
      simp only [Except.ok.injEq, Prod.mk.injEq] at h
      rw [← h.1]; exact perform_handles ht h1 (by simp) (by simp) s
  | expectation m min max tags ps rest ih =>
    simp only [exec] at h
    split at h
    · simp at h
    · rename_i h1
      have ht1 := perform_reach ht h1
      have e1 := perform_handles ht h1 (by simp) (by simp) s
      split at h
      · simp only [Except.ok.injEq, Prod.mk.injEq] at h
        rw [← h.1, e1]
      · split at h
        · simp at h
        · rename_i h2
          split at h
          · simp at h
          · rename_i h3
            rw [leave_state h, perform_handles (exec_reach h2 ht1) h3 (by simp) (by simp) s, ih ht1 h2, e1]
  | moved src rest ih =>
    simp only [exec] at h
    split at h
    · simp at h
    · rename_i h1
      have ht1 := perform_reach ht h1
      have e1 := perform_handles ht h1 (by simp) (by simp) s
      split at h
      · simp only [Except.ok.injEq, Prod.mk.injEq] at h
        rw [← h.1, e1]
      · split at h
        · simp at h
        · rename_i h2
          split at h
          · simp at h
          · rename_i h3
            rw [leave_state h, perform_handles (exec_reach h2 ht1) h3 (by simp) (by simp) s, ih ht1 h2, e1]
  | sequence st rest ih =>
    simp only [exec] at h
    split at h
    · simp at h
    · rename_i h1
      have ht1 := perform_reach ht h1
      split at h
      · simp at h
      · rename_i h2
        split at h
        · simp at h
        · rename_i h3
          rw [leave_state h, perform_dropSequence (exec_reach h2 ht1) h3 s, ih ht1 h2, perform_newSequence ht h1 s]
          by_cases hs : s = t.sw.w.seqs.length
          · simp [hs, fresh_handle]
          · simp [hs]
  | guard c rest ihc ih =>
    simp only [exec] at h
    split at h
    · simp at h
    · rename_i h1
      split at h
      · simp at h
      · simp at h
      · rename_i h2
        simp only [Except.ok.injEq, Prod.mk.injEq] at h
        rw [← h.1, ihc (exec_reach h1 ht) h2, ih ht h1]
  | attempt c body handler ihb ihh =>
    simp only [exec] at h
    split at h
    · simp at h
    · rename_i h1
      simp only [Except.ok.injEq, Prod.mk.injEq] at h
      rw [← h.1]; exact ihb ht h1
    · rename_i h1
      split at h
      · rw [ihh (exec_reach h1 ht) h, ihb ht h1]
      · simp only [Except.ok.injEq, Prod.mk.injEq] at h
        rw [← h.1]; exact ihb ht h1

/-! ## Misuse -/

/-- An operation that only uses what exists is not misuse. -/
theorem lib_valid {tr : Trace α} {w : World α} {sw : SWorld α} (h : Reach tr w) (hw : sw.w = w) {c : Ctx} (hR : c.reporter.Lawful) {op : Op α}
    (hv : tr.valid op) (why : String) : sw.lib c op ≠ .error (.client why) := by
  intro hs
  unfold SWorld.lib at hs
  rw [hw] at hs
  obtain ⟨h1, h2, _⟩ := C17_progress h op
  by_cases ho : tr.overflows op
  · obtain ⟨y, hy⟩ := h2 hv ho
    simp [hy] at hs
  · obtain ⟨w', ev, hy⟩ := h1 hv ho
    simp only [hy] at hs
    split at hs
    · rename_i hd
      obtain ⟨z, hz⟩ := deliver_defined hR hd
      simp [hz] at hs
    · simp at hs

theorem drop_valid {t : Env α} (h : SReach t.past t.sw) {u o : Nat} (ho : slotAlive t.sw.slots o) (why : String) :
    t.perform u (.drop o) ≠ .error (.client why) := by
  intro hs
  unfold Env.perform at hs
  split at hs
  · rename_i hx
    simp only [Except.error.injEq] at hs
    subst hs
    have hsl := slot_of_alive ho
    simp only [SWorld.step, hsl] at hx
    split at hx
    · simp at hx
    · rename_i e he
      have hlive : (t.past.flat).live e := (h.inv.live e).mpr ⟨o, he⟩
      split at hx
      · rename_i hlib
        simp only [Except.error.injEq] at hx
        subst hx
        exact lib_valid (op := .destroy e) h.inv.reach (by rfl) (lawful _) hlive why hlib
      · simp at hx
  · simp at hs

theorem plain_valid {t : Env α} (h : SReach t.past t.sw) {u : Nat} {op : Op α} (hop : (∃ st, op = .newSequence st) ∨ op = .newMock ∨
    ∃ s, op = .dropSequence s) (hv : (t.past.flat).valid op) (why : String) : t.perform u (.plain op) ≠ .error (.client why) := by
  intro hs
  unfold Env.perform at hs
  split at hs
  · rename_i hx
    simp only [Except.error.injEq] at hs
    subst hs
    rcases hop with ⟨st, rfl⟩ | rfl | ⟨s, rfl⟩ <;> simp only [SWorld.step] at hx <;>
    · split at hx
      · rename_i hlib
        simp only [Except.error.injEq] at hx
        subst hx
        exact lib_valid h.inv.reach (by rfl) (lawful _) hv why hlib
      · simp at hx
  · simp at hs

theorem leave_valid {pending : Option Thrown} {t : Env α} {exn : Option Exn} (why : String) :
    leave pending t exn ≠ .error (.client why) := by
  unfold leave
  split <;> simp

/-- A new scoped expectation is alive. -/
theorem perform_slot {t t' : Env α} {u : Nat} {op : SOp α} {log : SLog α} {n : Nat}
    (hop : (∃ m min max tags ps, op = .expect m min max tags ps) ∨ ∃ s, op = .moveConstruct s) (hp : t.perform u op = .ok (t', log))
    (hn : log.slot = some n) : slotAlive t'.sw.slots n := by
  obtain ⟨sw', hs, rfl⟩ := perform_eq hp
  rcases hop with ⟨m, min, max, tags, ps, rfl⟩ | ⟨s, rfl⟩
  · simp only [SWorld.step] at hs
    split at hs
    · simp at hs
    · simp only [Except.ok.injEq, Prod.mk.injEq] at hs
      rw [← hs.2] at hn
      simp at hn
    · simp only [Except.ok.injEq, Prod.mk.injEq] at hs
      rw [← hs.2] at hn
      simp only [Option.some.injEq] at hn
      rw [← hs.1, ← hn]
      simp [slotAlive_push]
  · simp only [SWorld.step] at hs
    split at hs
    · simp at hs
    · rename_i x hx
      simp only [Except.ok.injEq, Prod.mk.injEq] at hs
      rw [← hs.2] at hn
      simp only [Option.some.injEq] at hn
      rw [← hs.1, ← hn]
      simp [slotAlive_push, (slot_some hx).2.2.2]

/-- A program is only wrong in what it names itself. -/
theorem exec_misuse {p : Prog α} {u : Nat} {t : Env α} (ht : SReach t.past t.sw) {why : String}
    (h : exec u t p = .error (.client why)) : ∃ op, Uses p op ∧ ∃ (t' : Env α) (u' : Nat), SReach t'.past t'.sw ∧
      t'.perform u' op = .error (.client why) := by
  induction p generalizing u t with
  | skip => simp [exec] at h
  | install k => simp [exec] at h
  | throw n => simp [exec] at h
  | seq p q ihp ihq =>
    simp only [exec] at h
    split at h
    · rename_i h1
      simp only [Except.error.injEq] at h
      subst h
      obtain ⟨op, h1, h2⟩ := ihp ht h1
      exact ⟨op, .seqLeft h1, h2⟩
    · simp at h
    · rename_i h1
      obtain ⟨op, h1, h2⟩ := ihq (exec_reach h1 ht) h
      exact ⟨op, .seqRight h1, h2⟩
  | mock =>
    simp only [exec] at h
    split at h
    · rename_i h1
      simp only [Except.error.injEq] at h
      subst h
      exact absurd h1 (plain_valid ht (Or.inr (Or.inl rfl)) trivial why)
    · simp at h
  | call m a =>
    simp only [exec] at h
    split at h
    · rename_i h1
      simp only [Except.error.injEq] at h
      subst h
      exact ⟨_, .call, t, u, ht, h1⟩
    · simp at h
  | assign dst src =>
    simp only [exec] at h
    split at h
    · rename_i h1
      simp only [Except.error.injEq] at h
      subst h
      exact ⟨_, .assign, t, u, ht, h1⟩
    · simp at h
  | expectation m min max tags ps rest ih =>
    simp only [exec] at h
    split at h
    · rename_i h1
      simp only [Except.error.injEq] at h
      subst h
      exact ⟨_, .expectation, t, u, ht, h1⟩
    · rename_i h1
      have ht1 := perform_reach ht h1
      split at h
      · simp at h
      · rename_i hn
        have hal := perform_slot (Or.inl ⟨m, min, max, tags, ps, rfl⟩) h1 hn
        split at h
        · rename_i h2
          simp only [Except.error.injEq] at h
          subst h
          obtain ⟨op, h1, h2⟩ := ih ht1 h2
          exact ⟨op, .inExpectation h1, h2⟩
        · rename_i h2
          split at h
          · rename_i h3
            simp only [Except.error.injEq] at h
            subst h
            exact absurd h3 (drop_valid (exec_reach h2 ht1) ((exec_slots h2 _).mpr hal) why)
          · exact absurd h (leave_valid why)
  | moved src rest ih =>
    simp only [exec] at h
    split at h
    · rename_i h1
      simp only [Except.error.injEq] at h
      subst h
      exact ⟨_, .moved, t, u, ht, h1⟩
    · rename_i h1
      have ht1 := perform_reach ht h1
      split at h
      · simp at h
      · rename_i hn
        have hal := perform_slot (Or.inr ⟨src, rfl⟩) h1 hn
        split at h
        · rename_i h2
          simp only [Except.error.injEq] at h
          subst h
          obtain ⟨op, h1, h2⟩ := ih ht1 h2
          exact ⟨op, .inMoved h1, h2⟩
        · rename_i h2
          split at h
          · rename_i h3
            simp only [Except.error.injEq] at h
            subst h
            exact absurd h3 (drop_valid (exec_reach h2 ht1) ((exec_slots h2 _).mpr hal) why)
          · exact absurd h (leave_valid why)
  | sequence st rest ih =>
    simp only [exec] at h
    split at h
    · rename_i h1
      simp only [Except.error.injEq] at h
      subst h
      exact absurd h1 (plain_valid ht (Or.inl ⟨st, rfl⟩) trivial why)
    · rename_i h1
      have ht1 := perform_reach ht h1
      split at h
      · rename_i h2
        simp only [Except.error.injEq] at h
        subst h
        obtain ⟨op, h1, h2⟩ := ih ht1 h2
        exact ⟨op, .sequence h1, h2⟩
      · rename_i h2
        split at h
        · rename_i h3
          simp only [Except.error.injEq] at h
          subst h
          refine absurd h3 (plain_valid (exec_reach h2 ht1) (Or.inr (Or.inr ⟨_, rfl⟩)) ?_ why)
          have hh := (exec_reach h2 ht1).inv.reach.view.2.hasHandle_iff t.sw.w.seqs.length
          refine hh.mp ?_
          rw [abs_hasHandle, exec_handles ht1 h2, perform_newSequence ht h1]
          simp
        · exact absurd h (leave_valid why)
  | guard c rest ihc ih =>
    simp only [exec] at h
    split at h
    · rename_i h1
      simp only [Except.error.injEq] at h
      subst h
      obtain ⟨op, h1, h2⟩ := ih ht h1
      exact ⟨op, .guardRest h1, h2⟩
    · rename_i h1
      split at h
      · rename_i h2
        simp only [Except.error.injEq] at h
        subst h
        obtain ⟨op, h1, h2⟩ := ihc (exec_reach h1 ht) h2
        exact ⟨op, .guardCleanup h1, h2⟩
      · simp at h
      · simp at h
  | attempt c body handler ihb ihh =>
    simp only [exec] at h
    split at h
    · rename_i h1
      simp only [Except.error.injEq] at h
      subst h
      obtain ⟨op, h1, h2⟩ := ihb ht h1
      exact ⟨op, .attemptBody h1, h2⟩
    · simp at h
    · rename_i h1
      split at h
      · obtain ⟨op, h1, h2⟩ := ihh (exec_reach h1 ht) h
        exact ⟨op, .attemptHandler h1, h2⟩
      · simp at h

end Mimic.TestRun
