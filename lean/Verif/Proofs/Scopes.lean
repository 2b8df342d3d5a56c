import Verif.Spec.Scopes
import Verif.Proofs.TestScopes
import Verif.Proofs.Demo
import Verif.Props.Scoped
import Verif.Props.Selection

/-!
# Lemmas on scopes
-/

set_option autoImplicit false

namespace Mimic

variable {α : Type}

namespace TestRun

/-- What an operation of a program can be. -/
def Proper (p : Prog α) (pre : STrace α) (st : SEntry α) : Prop :=
  Uses p st.op ∨ st.op = .plain .newMock ∨ (∃ s, st.op = .plain (.newSequence s)) ∨ (∃ s, st.op = .plain (.dropSequence s)) ∨
  ∃ o, st.op = .drop o ∧ ∀ o', pre.exists o' → o' ≤ o

theorem Proper.imp {p q : Prog α} (h : ∀ op, Uses p op → Uses q op) {pre : STrace α} {st : SEntry α} (hp : Proper p pre st) :
    Proper q pre st := by
  rcases hp with hp | hp
  · exact .inl (h _ hp)
  · exact .inr hp

/-- The new operations of a piece of a history. -/
def New (t t' : Env α) (P : STrace α → SEntry α → Prop) : Prop :=
  ∀ pre st post, t'.past = pre ++ st :: post → t.past.length ≤ pre.length → P pre st

theorem New.refl {t : Env α} {P : STrace α → SEntry α → Prop} : New t t P := by
  intro pre st post h hl
  rw [h] at hl
  simp at hl
  omega

theorem New.trans {t₁ t₂ t₃ : Env α} {P : STrace α → SEntry α → Prop} (h₁ : New t₁ t₂ P) (h₂ : New t₂ t₃ P)
    (h : ∃ new, t₃.past = t₂.past ++ new) : New t₁ t₃ P := by
  intro pre st post hp hl
  by_cases hc : t₂.past.length ≤ pre.length
  · exact h₂ pre st post hp hc
  · obtain ⟨new, hn⟩ := h
    rw [hp] at hn
    rcases List.append_eq_append_iff.mp hn with ⟨as, h1, h2⟩ | ⟨bs, h1, h2⟩
    · cases as with
      | nil =>
        simp at h1
        rw [h1] at hc
        exact absurd (Nat.le_refl _) hc
      | cons y ys =>
        simp only [List.cons_append, List.cons.injEq] at h2
        refine h₁ pre st ys ?_ hl
        rw [h1, h2.1]
    · rw [h1] at hc
      simp at hc

theorem New.perform {t t' : Env α} {u : Nat} {op : SOp α} {log : SLog α} (h : t.perform u op = .ok (t', log))
    {P : STrace α → SEntry α → Prop} (hP : P t.past ⟨⟨t.installed.reporter, u⟩, op, log⟩) : New t t' P := by
  obtain ⟨sw', _, rfl⟩ := perform_eq h
  intro pre st post hp hl
  simp only at hp
  have : post = [] := by
    have := congrArg List.length hp
    simp at this
    exact List.eq_nil_of_length_eq_zero (by omega)
  subst this
  have := List.append_inj_left' hp rfl
  have h2 := List.append_inj_right' hp rfl
  subst this
  simp only [List.cons.injEq, and_true] at h2
  rw [← h2]
  exact hP

theorem New.imp {t t' : Env α} {P Q : STrace α → SEntry α → Prop} (h : New t t' P) (hi : ∀ pre st, P pre st → Q pre st) : New t t' Q :=
  fun pre st post hp hl => hi _ _ (h pre st post hp hl)

theorem perform_past {t t' : Env α} {u : Nat} {op : SOp α} {log : SLog α} (h : t.perform u op = .ok (t', log)) :
    ∃ new, t'.past = t.past ++ new := by
  obtain ⟨sw', _, rfl⟩ := perform_eq h
  exact ⟨_, rfl⟩

theorem leave_past {pending x : Option Thrown} {t t' : Env α} {exn : Option Exn} (h : leave pending t exn = .ok (t', x)) :
    t'.past = t.past := by
  rw [leave_state h]

theorem New.to {t t₁ t₂ : Env α} {P : STrace α → SEntry α → Prop} (h : New t t₁ P) (he : t₂.past = t₁.past) : New t t₂ P := by
  intro pre st post hp hl
  rw [he] at hp
  exact h pre st post hp hl

/-- A new object is younger than all others, and is there. -/
theorem step_slot {sw sw' : SWorld α} {c : Ctx} {op : SOp α} {log : SLog α} (h : sw.step c op = .ok (sw', log)) {n : Nat}
    (hn : log.slot = some n) : n = sw.slots.length ∧ sw'.slots.length = n + 1 := by
  cases op with
  | plain op =>
    cases op <;> simp only [SWorld.step] at h <;> first | (simp at h; done) | skip
    all_goals
      split at h
      · simp at h
      · simp only [Except.ok.injEq, Prod.mk.injEq] at h
        rw [← h.2] at hn; simp at hn
  | expect m min max tags ps =>
    simp only [SWorld.step] at h
    split at h
    · simp at h
    · simp only [Except.ok.injEq, Prod.mk.injEq] at h
      rw [← h.2] at hn; simp at hn
    · rename_i hl
      obtain ⟨w', _, rfl, _⟩ := lib_eq hl
      simp only [Except.ok.injEq, Prod.mk.injEq] at h
      rw [← h.2] at hn
      rw [← h.1]
      simp at hn ⊢
      omega
  | moveConstruct src =>
    simp only [SWorld.step] at h
    split at h
    · simp at h
    · simp only [Except.ok.injEq, Prod.mk.injEq] at h
      rw [← h.2] at hn
      rw [← h.1]
      simp at hn ⊢
      omega
  | moveAssign dst src =>
    simp only [SWorld.step] at h
    grind
  | drop o =>
    simp only [SWorld.step] at h
    grind
  | isSatisfied o =>
    simp only [SWorld.step] at h
    grind

theorem perform_alive {t t' : Env α} (ht : SReach t.past t.sw) {u : Nat} {op : SOp α} {log : SLog α} {n : Nat}
    (h : t.perform u op = .ok (t', log)) (hn : log.slot = some n) {o : Nat} (ho : t'.past.exists o) : o ≤ n := by
  have hr := perform_reach ht h
  obtain ⟨sw', hs, rfl⟩ := perform_eq h
  have := slotAlive_lt ((hr.inv.exists_ o).mp ho)
  have h2 := (step_slot hs hn).2
  simp only at this
  omega

/-- The operations of a program: those that it names, and the ends of its blocks; a block that ends is the innermost one. -/
theorem exec_proper {p : Prog α} {u : Nat} {t t' : Env α} {x : Option Thrown} (ht : SReach t.past t.sw)
    (h : exec u t p = .ok (t', x)) : New t t' (Proper p) := by
  induction p generalizing u t t' x with
  | skip => simp only [exec, Except.ok.injEq, Prod.mk.injEq] at h; rw [h.1]; exact .refl
  | install k => simp only [exec, Except.ok.injEq, Prod.mk.injEq] at h; exact New.to .refl (by rw [← h.1])
  | throw n => simp only [exec, Except.ok.injEq, Prod.mk.injEq] at h; rw [h.1]; exact .refl
  | seq p q ihp ihq =>
    simp only [exec] at h
    split at h
    · simp at h
    · rename_i h1
      simp only [Except.ok.injEq, Prod.mk.injEq] at h
      rw [← h.1]
      exact (ihp ht h1).imp fun _ _ => Proper.imp fun _ => .seqLeft
    · rename_i h1
      exact ((ihp ht h1).imp fun _ _ => Proper.imp fun _ => .seqLeft).trans
        ((ihq (exec_reach h1 ht) h).imp fun _ _ => Proper.imp fun _ => .seqRight) (exec_past h)
  | mock =>
    simp only [exec] at h
    split at h
    · simp at h
    · rename_i h1
      simp only [Except.ok.injEq, Prod.mk.injEq] at h
      rw [← h.1]; exact .perform h1 (.inr (.inl rfl))
  | call m a =>
    simp only [exec] at h
    split at h
    · simp at h
    · rename_i h1
      simp only [Except.ok.injEq, Prod.mk.injEq] at h
      rw [← h.1]; exact .perform h1 (.inl .call)
  | assign dst src =>
    simp only [exec] at h
    split at h
    · simp at h
    · rename_i h1
      simp only [Except.ok.injEq, Prod.mk.injEq] at h
      rw [← h.1]; exact .perform h1 (.inl .assign)
  | expectation m min max tags ps rest ih =>
    simp only [exec] at h
    split at h
    · simp at h
    · rename_i t₁ log h1
      have ht1 := perform_reach ht h1
      have n1 : New t t₁ (Proper (.expectation m min max tags ps rest)) := .perform h1 (.inl .expectation)
      split at h
      · simp only [Except.ok.injEq, Prod.mk.injEq] at h
        rw [← h.1]; exact n1
      · rename_i o ho
        split at h
        · simp at h
        · rename_i t₂ pending h2
          split at h
          · simp at h
          · rename_i h3
            have ht2 := exec_reach h2 ht1
            refine New.to (.trans (n1.trans ((ih ht1 h2).imp fun _ _ => Proper.imp fun _ => .inExpectation) (exec_past h2))
              (.perform h3 ?_) (perform_past h3)) (leave_past h)
            refine .inr (.inr (.inr (.inr ⟨o, rfl, fun o' ho' => ?_⟩)))
            exact perform_alive ht h1 ho ((ht1.inv.exists_ o').mpr ((exec_slots h2 o').mp ((ht2.inv.exists_ o').mp ho')))
  | moved src rest ih =>
    simp only [exec] at h
    split at h
    · simp at h
    · rename_i t₁ log h1
      have ht1 := perform_reach ht h1
      have n1 : New t t₁ (Proper (.moved src rest)) := .perform h1 (.inl .moved)
      split at h
      · simp only [Except.ok.injEq, Prod.mk.injEq] at h
        rw [← h.1]; exact n1
      · rename_i o ho
        split at h
        · simp at h
        · rename_i t₂ pending h2
          split at h
          · simp at h
          · rename_i h3
            have ht2 := exec_reach h2 ht1
            refine New.to (.trans (n1.trans ((ih ht1 h2).imp fun _ _ => Proper.imp fun _ => .inMoved) (exec_past h2))
              (.perform h3 ?_) (perform_past h3)) (leave_past h)
            refine .inr (.inr (.inr (.inr ⟨o, rfl, fun o' ho' => ?_⟩)))
            exact perform_alive ht h1 ho ((ht1.inv.exists_ o').mpr ((exec_slots h2 o').mp ((ht2.inv.exists_ o').mp ho')))
  | sequence st rest ih =>
    simp only [exec] at h
    split at h
    · simp at h
    · rename_i h1
      have ht1 := perform_reach ht h1
      split at h
      · simp at h
      · rename_i h2
        split at h
        · simp at h
        · rename_i h3
          exact New.to (.trans ((New.perform h1 (.inr (.inr (.inl ⟨_, rfl⟩)))).trans
            ((ih ht1 h2).imp fun _ _ => Proper.imp fun _ => .sequence) (exec_past h2))
            (.perform h3 (.inr (.inr (.inr (.inl ⟨_, rfl⟩))))) (perform_past h3)) (leave_past h)
  | guard c rest ihc ih =>
    simp only [exec] at h
    split at h
    · simp at h
    · rename_i h1
      split at h
      · simp at h
      · simp at h
      · rename_i h2
        simp only [Except.ok.injEq, Prod.mk.injEq] at h
        rw [← h.1]
        exact ((ih ht h1).imp fun _ _ => Proper.imp fun _ => .guardRest).trans
          ((ihc (exec_reach h1 ht) h2).imp fun _ _ => Proper.imp fun _ => .guardCleanup) (exec_past h2)
  | attempt c body handler ihb ihh =>
    simp only [exec] at h
    split at h
    · simp at h
    · rename_i h1
      simp only [Except.ok.injEq, Prod.mk.injEq] at h
      rw [← h.1]
      exact (ihb ht h1).imp fun _ _ => Proper.imp fun _ => .attemptBody
    · rename_i h1
      split at h
      · exact ((ihb ht h1).imp fun _ _ => Proper.imp fun _ => .attemptBody).trans
          ((ihh (exec_reach h1 ht) h).imp fun _ _ => Proper.imp fun _ => .attemptHandler) (exec_past h)
      · simp only [Except.ok.injEq, Prod.mk.injEq] at h
        rw [← h.1]
        exact (ihb ht h1).imp fun _ _ => Proper.imp fun _ => .attemptBody

end TestRun

/-! ## Ages -/

/-- The object that a client defines last has the largest number. -/
theorem slot_fresh {tr : STrace α} {sw sw' : SWorld α} (h : SReach tr sw) {c : Ctx} {op : SOp α} {log : SLog α}
    (hs : sw.step c op = .ok (sw', log)) {n : Nat} (hn : log.slot = some n) {o : Nat} (ho : tr.exists o) : o < n := by
  rw [(TestRun.step_slot hs hn).1]
  exact slotAlive_lt ((h.inv.exists_ o).mp ho)

theorem SReach.cut {tr : STrace α} {sw : SWorld α} (h : SReach tr sw) {pre post : STrace α} {st : SEntry α}
    (hp : tr = pre ++ st :: post) : ∃ sw₁ sw₂, SReach pre sw₁ ∧ sw₁.step st.ctx st.op = .ok (sw₂, st.log) ∧ SReach (pre ++ [st]) sw₂ := by
  obtain ⟨sw₁, sw₂, h1, h2⟩ := TestRun.reach_step h (i := pre.length) (st := st) (by rw [hp]; simp)
  have : tr.take pre.length = pre := by rw [hp]; simp
  rw [this] at h1
  exact ⟨sw₁, sw₂, h1, h2, h1.step h2⟩

/-- Inside means younger. -/
theorem inside_lt {tr : STrace α} {sw : SWorld α} (h : SReach tr sw) {i o : Nat} (hi : tr.inside i o) : o < i := by
  obtain ⟨_, _, pre, st, post, hp, hs, ho⟩ := hi
  obtain ⟨sw₁, sw₂, h1, h2, _⟩ := h.cut hp
  exact slot_fresh h1 h2 hs ho

/-- As long as nothing is moved, younger objects own younger expectations. -/
theorem owns_ordered {tr : STrace α} {sw : SWorld α} (h : SReach tr sw)
    (hm : ∀ st ∈ tr, (∀ s, st.op ≠ .moveConstruct s) ∧ ∀ d s, st.op ≠ .moveAssign d s) {o o' e e' : Nat}
    (h1 : tr.owns o e) (h2 : tr.owns o' e') (hlt : o < o') : e < e' := by
  induction h generalizing o o' e e' with
  | init => simp [STrace.owns, OwnsRev] at h1
  | @step tr sw sw' c op log h hs ih =>
    have hm' : ∀ st ∈ tr, (∀ s, st.op ≠ .moveConstruct s) ∧ ∀ d s, st.op ≠ .moveAssign d s :=
      fun st hst => hm st (by simp [hst])
    have hlast := hm ⟨c, op, log⟩ (by simp)
    simp only at hlast
    have hcr : ∀ {o e : Nat}, SEntry.creates ⟨c, op, log⟩ o e → o = sw.slots.length ∧ e = sw.w.exps.length := by
      intro o e hc
      obtain ⟨hn, he⟩ := hc
      simp only at hn he
      refine ⟨(TestRun.step_slot hs hn).1, ?_⟩
      cases op with
      | expect m min max tags ps =>
        simp only [SWorld.step] at hs
        split at hs
        · simp at hs
        · simp only [Except.ok.injEq, Prod.mk.injEq] at hs
          rw [← hs.2] at hn; simp at hn
        · rename_i ev hl
          obtain ⟨w', hst, rfl, _⟩ := lib_eq hl
          simp only [Except.ok.injEq, Prod.mk.injEq] at hs
          rw [← hs.2] at he
          simp only [Trace.events, List.flatMap_cons, List.flatMap_nil, List.append_nil] at he
          rcases expect_events h.inv.reach hst with ⟨rfl, _⟩ | ⟨rfl, _⟩
          · simpa using he
          · simp at he
      | plain op => exact absurd hn (by cases op <;> simp only [SWorld.step] at hs <;> grind)
      | moveConstruct src => exact absurd rfl (hlast.1 src)
      | moveAssign d s => exact absurd rfl (hlast.2 d s)
      | drop o => exact absurd hn (by simp only [SWorld.step] at hs; grind)
      | isSatisfied o => exact absurd hn (by simp only [SWorld.step] at hs; grind)
    have hold : ∀ {o e : Nat}, (tr ++ [⟨c, op, log⟩] : STrace α).owns o e →
        (o = sw.slots.length ∧ e = sw.w.exps.length) ∨ (tr.owns o e ∧ o < sw.slots.length ∧ e < sw.w.exps.length) := by
      intro o e ho
      rcases owns_snoc.mp ho with hc | ⟨s, hc, _⟩ | ⟨hc, _⟩
      · exact .inl (hcr hc)
      · rcases hc with ⟨hc, _⟩ | hc
        · exact absurd hc (hlast.1 s)
        · exact absurd hc (hlast.2 o s)
      · refine .inr ⟨hc, ?_, ?_⟩
        · exact innerAt_lt ((h.inv.owns o e).mp hc)
        · obtain ⟨d, hd⟩ := ((C37_owner h).1 e).mpr ⟨o, hc⟩ |>.1
          exact decl_lt h.inv.reach hd
    rcases hold h1 with ⟨a1, a2⟩ | ⟨a1, a2, a3⟩ <;> rcases hold h2 with ⟨b1, b2⟩ | ⟨b1, b2, b3⟩
    · omega
    · omega
    · omega
    · exact ih hm' a1 b1 hlt

end Mimic
