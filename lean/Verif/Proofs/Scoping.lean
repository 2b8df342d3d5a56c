import Verif.Spec.Scoping
import Verif.Proofs.Watchful
import Verif.Props.Scoped

/-!
# All rules for scoped expectations: proofs
-/

set_option autoImplicit false

namespace Mimic.Scoping

open Watchful (Next next_iff)

variable {α : Type}

/-- What delivering the reports comes to. -/
def Delivered (c : Ctx) (ev : List Event) : Prop :=
  (Kills c ev ∧ ∃ why, deliver c.reporter c.uncaught none ev = .error (.terminate why)) ∨
  (Breaks c ev ∧ ∃ why, deliver c.reporter c.uncaught none ev = .error (.ub why)) ∨
  ∃ x, Ends c ev x ∧ deliver c.reporter c.uncaught none ev = .ok x

theorem ends_unique {c : Ctx} {ev : List Event} {x y : Option Exn} (hx : Ends c ev x) (hy : Ends c ev y) : x = y := by
  apply Option.ext
  intro z
  exact (hx.2.2 z).trans (hy.2.2 z).symm

theorem delivered_quiet {c : Ctx} {ev : List Event} (h : deliver c.reporter c.uncaught none ev = .ok none)
    (hq : ∀ x ∈ ev, (∃ s st, x = .sequenceCreated s st) ∨ (∃ m, x = .mockCreated m) ∨ ∃ e, x = .created e) : Delivered c ev := by
  have hl : ∀ y, ¬ Leaves c ev y := by
    intro y hy
    cases hy with
    | noMatch h => have := hq _ h; simp at this
    | inapplicable h => have := hq _ h; simp at this
    | unfulfilled h _ => have := hq _ h; simp at this
    | rejected h => have := hq _ h; simp at this
  have hk : ¬ Kills c ev := by
    intro hk
    cases hk with
    | fullMatch h _ => have := hq _ h; simp at this
    | unhandled h _ => have := hq _ h; simp at this
    | sequence h _ _ => have := hq _ h; simp at this
    | second h _ _ => have := hq _ h; simp at this
  refine .inr (.inr ⟨none, ⟨hk, ?_, fun y => ?_⟩, h⟩)
  · rintro ⟨_, (⟨⟨es, h⟩, _⟩ | ⟨⟨es, h⟩, _⟩)⟩ <;> have := hq _ h <;> simp at this
  · simp [hl y]

theorem seqEvent_leaves {c : Ctx} {ev : List Event} (hq : ∀ x ∈ ev, seqEvent x ∨ ∃ e, x = .destroyed e) (y : Exn) : ¬ Leaves c ev y := by
  intro hy
  cases hy with
  | noMatch h => have := hq _ h; simp [seqEvent] at this
  | inapplicable h => have := hq _ h; simp [seqEvent] at this
  | unfulfilled h _ => have := hq _ h; simp [seqEvent] at this
  | rejected h => have := hq _ h; simp [seqEvent] at this

theorem delivered_seq {c : Ctx} {ev : List Event} (hq : ∀ x ∈ ev, seqEvent x ∨ ∃ e, x = .destroyed e)
    (hd : (sequenceErrorIn ev ∧ Throws c .error ∧ ∃ why, deliver c.reporter c.uncaught none ev = .error (.terminate why)) ∨
      (¬ (sequenceErrorIn ev ∧ Throws c .error) ∧ deliver c.reporter c.uncaught none ev = .ok none)) : Delivered c ev := by
  have hl := seqEvent_leaves (c := c) hq
  rcases hd with ⟨⟨s, k, n, h1⟩, h2, h3⟩ | ⟨h1, h2⟩
  · exact .inl ⟨.sequence h1 hl h2, h3⟩
  · refine .inr (.inr ⟨none, ⟨?_, ?_, fun y => by simp [hl y]⟩, h2⟩)
    · intro hk
      cases hk with
      | fullMatch h _ => have := hq _ h; simp [seqEvent] at this
      | unhandled h _ => have := hq _ h; simp [seqEvent] at this
      | sequence h _ h3 => exact h1 ⟨⟨_, _, _, h⟩, h3⟩
      | second h h3 _ => exact hl _ h3
    · rintro ⟨_, (⟨⟨es, h⟩, _⟩ | ⟨⟨es, h⟩, _⟩)⟩ <;> have := hq _ h <;> simp [seqEvent] at this

theorem delivered_unfulfilled {c : Ctx} {e : Nat} {rest : List Event} (hq : ∀ x ∈ rest, seqEvent x) :
    Delivered c (.destroyed e :: .unfulfilled e :: rest) := by
  have hm : ∀ x, x ∈ (.destroyed e :: .unfulfilled e :: rest : List Event) ↔ x = .destroyed e ∨ x = .unfulfilled e ∨ x ∈ rest := by simp
  have hl : ∀ y, Leaves c (.destroyed e :: .unfulfilled e :: rest) y ↔ y = .unfulfilled e ∧ Throws c .unfulfilledExpectation := by
    intro y
    constructor
    · intro hy
      cases hy with
      | noMatch h => rw [hm] at h; simp at h; exact absurd (hq _ h) (by simp [seqEvent])
      | inapplicable h => rw [hm] at h; simp at h; exact absurd (hq _ h) (by simp [seqEvent])
      | unfulfilled h ht =>
        rw [hm] at h
        simp at h
        rcases h with rfl | h
        · exact ⟨rfl, ht⟩
        · exact absurd (hq _ h) (by simp [seqEvent])
      | rejected h => rw [hm] at h; simp at h; exact absurd (hq _ h) (by simp [seqEvent])
    · rintro ⟨rfl, ht⟩; exact .unfulfilled (by simp) ht
  have hb : ¬ Breaks c (.destroyed e :: .unfulfilled e :: rest) := by
    rintro ⟨_, (⟨⟨es, h⟩, _⟩ | ⟨⟨es, h⟩, _⟩)⟩ <;> rw [hm] at h <;> simp at h <;> exact absurd (hq _ h) (by simp [seqEvent])
  have he : sequenceErrorIn rest ↔ ∃ s k n, Event.sequenceError s k n ∈ (.destroyed e :: .unfulfilled e :: rest : List Event) := by
    simp [sequenceErrorIn]
  have hk : Kills c (.destroyed e :: .unfulfilled e :: rest) ↔ sequenceErrorIn rest ∧
      ((Throws c .unfulfilledExpectation ∧ ThrowsMeanwhile c .error) ∨ (¬ Throws c .unfulfilledExpectation ∧ Throws c .error)) := by
    rw [he]
    constructor
    · intro hk
      cases hk with
      | fullMatch h _ => rw [hm] at h; simp at h; exact absurd (hq _ h) (by simp [seqEvent])
      | unhandled h _ => rw [hm] at h; simp at h; exact absurd (hq _ h) (by simp [seqEvent])
      | sequence h h2 h3 =>
        have : ¬ Throws c .unfulfilledExpectation := fun ht => h2 _ ((hl _).mpr ⟨rfl, ht⟩)
        exact ⟨⟨_, _, _, h⟩, .inr ⟨this, h3⟩⟩
      | second h h2 h3 => exact ⟨⟨_, _, _, h⟩, .inl ⟨((hl _).mp h2).2, h3⟩⟩
    · rintro ⟨⟨s, k, n, h⟩, (⟨ht, h2⟩ | ⟨ht, h2⟩)⟩
      · exact .second h ((hl _).mpr ⟨rfl, ht⟩) h2
      · exact .sequence h (fun x hx => ht ((hl _).mp hx).2) h2
  by_cases ht : Throws c .unfulfilledExpectation
  · have hd : deliver c.reporter c.uncaught none (.destroyed e :: .unfulfilled e :: rest) =
        deliver c.reporter c.uncaught (some (.unfulfilled e)) rest := by
      have ht' : (c.reporter .unfulfilledExpectation c.uncaught).throws = true := ht
      simp [deliver, deliverOne, Reporter.exn, uncaught, ht']
    simp only [ht, true_and, not_true_eq_false, false_and, or_false] at hk
    rcases deliver_seq (R := c.reporter) (u := c.uncaught) (p := some (.unfulfilled e)) hq with ⟨h1, h2, h3⟩ | ⟨h1, h2⟩
    · exact .inl ⟨hk.mpr ⟨h1, h2⟩, by rw [hd]; exact h3⟩
    · refine .inr (.inr ⟨some (.unfulfilled e), ⟨fun h => h1 (hk.mp h), hb, fun y => ?_⟩, by rw [hd]; exact h2⟩)
      rw [hl]
      simp [ht, eq_comm]
  · have hd : deliver c.reporter c.uncaught none (.destroyed e :: .unfulfilled e :: rest) =
        deliver c.reporter c.uncaught none rest := by
      have ht' : (c.reporter .unfulfilledExpectation c.uncaught).throws = false := by
        unfold Throws at ht; simpa using ht
      simp [deliver, deliverOne, Reporter.exn, uncaught, ht']
    simp only [ht, false_and, not_false_eq_true, true_and, false_or] at hk
    rcases deliver_seq (R := c.reporter) (u := c.uncaught) (p := none) hq with ⟨h1, h2, h3⟩ | ⟨h1, h2⟩
    · exact .inl ⟨hk.mpr ⟨h1, h2⟩, by rw [hd]; exact h3⟩
    · refine .inr (.inr ⟨none, ⟨fun h => h1 (hk.mp h), hb, fun y => ?_⟩, by rw [hd]; exact h2⟩)
      rw [hl]
      simp [ht]

theorem deliver_unhandled {c : Ctx} (us : List Nat) (rest : List Event) :
    deliver c.reporter c.uncaught none (us.map Event.unhandled ++ rest) =
      if us ≠ [] ∧ (c.reporter .unhandledException c.uncaught).throws = true then .error (.terminate "make_match_report")
      else deliver c.reporter c.uncaught none rest := by
  induction us with
  | nil => simp
  | cons e us ih =>
    cases ht : (c.reporter .unhandledException c.uncaught).throws with
    | true => simp [deliver, deliverOne, Reporter.exn, uncaught, ht, atNoexcept, bind, Except.bind]
    | false =>
      rw [ht] at ih
      simpa [deliver, deliverOne, Reporter.exn, uncaught, ht, atNoexcept, bind, Except.bind, pure, Except.pure] using ih

theorem delivered_call {c : Ctx} {us : List Nat} {last : Event}
    (hlast : (∃ e, last = .fullMatch e) ∨ (∃ es, last = .inapplicable es) ∨ ∃ es, last = .noMatch es) :
    Delivered c (us.map Event.unhandled ++ [last]) := by
  have hm : ∀ x, x ∈ us.map Event.unhandled ++ [last] ↔ (∃ e ∈ us, Event.unhandled e = x) ∨ x = last := by simp
  have hl : ∀ y, Leaves c (us.map Event.unhandled ++ [last]) y ↔ y = .unmatched ∧ ∀ e, last ≠ .fullMatch e := by
    intro y
    constructor
    · intro hy
      cases hy with
      | noMatch h => rw [hm] at h; simp at h; subst h; simp
      | inapplicable h => rw [hm] at h; simp at h; subst h; simp
      | unfulfilled h _ => rw [hm] at h; simp at h; subst h; simp at hlast
      | rejected h => rw [hm] at h; simp at h; subst h; simp at hlast
    · rintro ⟨rfl, hf⟩
      rcases hlast with ⟨e, rfl⟩ | ⟨es, rfl⟩ | ⟨es, rfl⟩
      · exact absurd rfl (hf e)
      · exact .inapplicable ((hm _).mpr (.inr rfl))
      · exact .noMatch ((hm _).mpr (.inr rfl))
  have hk : Kills c (us.map Event.unhandled ++ [last]) ↔ (us ≠ [] ∧ Throws c .unhandledException) ∨
      ((∃ e, last = .fullMatch e) ∧ Throws c .fullMatch) := by
    constructor
    · intro hk
      cases hk with
      | fullMatch h ht => rw [hm] at h; simp at h; exact .inr ⟨⟨_, h.symm⟩, ht⟩
      | unhandled h ht =>
        rw [hm] at h
        rcases h with ⟨e, he, _⟩ | h
        · exact .inl ⟨List.ne_nil_of_mem he, ht⟩
        · subst h; simp at hlast
      | sequence h _ _ => rw [hm] at h; simp at h; subst h; simp at hlast
      | second h _ _ => rw [hm] at h; simp at h; subst h; simp at hlast
    · rintro (⟨h, ht⟩ | ⟨⟨e, rfl⟩, ht⟩)
      · obtain ⟨e, he⟩ := List.exists_mem_of_ne_nil _ h
        exact .unhandled ((hm _).mpr (.inl ⟨e, he, rfl⟩)) ht
      · exact .fullMatch ((hm _).mpr (.inr rfl)) ht
  have hd := deliver_unhandled (c := c) us [last]
  by_cases hu : us ≠ [] ∧ (c.reporter .unhandledException c.uncaught).throws = true
  · rw [if_pos hu] at hd
    exact .inl ⟨hk.mpr (.inl hu), _, hd⟩
  rw [if_neg hu] at hd
  unfold Delivered Ends Breaks
  rw [hd, hk]
  simp only [hl, hm]
  have hu' : ¬ (us ≠ [] ∧ Throws c .unhandledException) := hu
  rcases hlast with ⟨e, rfl⟩ | ⟨es, rfl⟩ | ⟨es, rfl⟩
  · cases ht : (c.reporter .fullMatch c.uncaught).throws with
    | true => exact .inl ⟨.inr ⟨⟨e, rfl⟩, ht⟩, "report_full_match", by simp [deliver, deliverOne, Reporter.exn, uncaught, ht, atNoexcept, bind, Except.bind]⟩
    | false =>
      have ht' : ¬ Throws c .fullMatch := by unfold Throws; simp [ht]
      refine .inr (.inr ⟨none, ⟨by simp [hu', ht'], by simp, by simp⟩, ?_⟩)
      simp [deliver, deliverOne, Reporter.exn, uncaught, ht, atNoexcept, bind, Except.bind, pure, Except.pure]
  · cases ht : (c.reporter .inapplicableMatches c.uncaught).throws with
    | true =>
      have ht' : Throws c .inapplicableMatches := ht
      refine .inr (.inr ⟨some .unmatched, ⟨by simpa using hu', by simp [ht'], by simp [eq_comm]⟩, ?_⟩)
      simp [deliver, deliverOne, Reporter.exn, uncaught, ht]
    | false =>
      have ht' : ¬ Throws c .inapplicableMatches := by unfold Throws; simp [ht]
      refine .inr (.inl ⟨⟨by simpa using hu', .inr ⟨⟨es, by simp⟩, ht'⟩⟩, "unreachable", ?_⟩)
      simp [deliver, deliverOne, Reporter.exn, uncaught, ht]
  · cases ht : (c.reporter .noMatches c.uncaught).throws with
    | true =>
      have ht' : Throws c .noMatches := ht
      refine .inr (.inr ⟨some .unmatched, ⟨by simpa using hu', by simp [ht'], by simp [eq_comm]⟩, ?_⟩)
      simp [deliver, deliverOne, Reporter.exn, uncaught, ht]
    | false =>
      have ht' : ¬ Throws c .noMatches := by unfold Throws; simp [ht]
      refine .inr (.inl ⟨⟨by simpa using hu', .inl ⟨⟨es, by simp⟩, ht'⟩⟩, "unreachable", ?_⟩)
      simp [deliver, deliverOne, Reporter.exn, uncaught, ht]

theorem delivered {tr : Trace α} {w w' : World α} (h : Reach tr w) (c : Ctx) {op : Op α} {ev : List Event}
    (hs : w.step op = .ok (w', ev)) : Delivered c ev := by
  have hp := (Whole.prescribed_step h hs).2.2
  cases hp with
  | newSequence hn => exact delivered_quiet rfl (by simp)
  | newMock hn => exact delivered_quiet rfl (by simp)
  | created _ _ _ _ => exact delivered_quiet rfl (by simp)
  | rejected _ =>
    refine .inr (.inr ⟨some .invalidArgument, ⟨?_, ?_, fun y => ?_⟩, rfl⟩)
    · intro hk; cases hk <;> simp_all
    · rintro ⟨_, hb⟩; simp at hb
    · constructor
      · intro hy; simp at hy; subst hy; exact .rejected (by simp)
      · intro hy; cases hy <;> simp_all
  | call hu ho =>
    apply delivered_call
    cases ho with
    | resolved _ _ => exact .inl ⟨_, rfl⟩
    | inapplicable _ _ => exact .inr (.inl ⟨_, rfl⟩)
    | noMatch _ _ => exact .inr (.inr ⟨_, rfl⟩)
  | drop _ =>
    have hq := dropSequence_events hs
    exact delivered_seq (fun x hx => .inl (hq x hx)) (deliver_seq (R := c.reporter) (u := c.uncaught) (p := none) hq)
  | fulfilled hd hn he =>
    rename_i e d evs
    obtain ⟨rest, hr, hcase⟩ := destroy_report h hs
    rcases hcase with ⟨_, heq⟩ | ⟨_, heq⟩
    · rw [heq]; exact delivered_unfulfilled hr
    · rw [heq]
      refine delivered_seq (by simpa using fun x hx => .inl (hr x hx)) ?_
      have : sequenceErrorIn (.destroyed e :: rest) ↔ sequenceErrorIn rest := by simp [sequenceErrorIn]
      rw [this]
      exact deliver_seq (R := c.reporter) (u := c.uncaught) (p := none) hr
  | unfulfilled hd hn he =>
    rename_i e d evs
    obtain ⟨rest, hr, hcase⟩ := destroy_report h hs
    rcases hcase with ⟨_, heq⟩ | ⟨_, heq⟩
    · rw [heq]; exact delivered_unfulfilled hr
    · rw [heq]
      refine delivered_seq (by simpa using fun x hx => .inl (hr x hx)) ?_
      have : sequenceErrorIn (.destroyed e :: rest) ↔ sequenceErrorIn rest := by simp [sequenceErrorIn]
      rw [this]
      exact deliver_seq (R := c.reporter) (u := c.uncaught) (p := none) hr

/-! ### Steps -/

theorem nextHolder_iff {tr : STrace α} {sw : SWorld α} (h : SReach tr sw) (n : Nat) : NextHolder tr n ↔ n = sw.slots.length :=
  ⟨fun h2 => Whole.nextNumber_unique h2 h.inv.made, fun he => he ▸ h.inv.made⟩

theorem owns_none {tr : STrace α} {sw : SWorld α} (h : SReach tr sw) (o : Nat) : (∀ e, ¬ tr.owns o e) ↔ innerAt sw.slots o = none := by
  simp only [h.inv.owns]
  cases innerAt sw.slots o <;> simp

theorem slot_none {tr : STrace α} {sw : SWorld α} (h : SReach tr sw) {o : Nat} (hx : ¬ tr.exists o) : sw.slot o = none := by
  cases hs : sw.slot o with
  | none => rfl
  | some x => exact absurd ((h.inv.exists_ o).mpr (slot_some hs).2.2.1) hx

/-- What an operation comes to. -/
inductive Fate (tr : STrace α) (c : Ctx) (op : SOp α) : SRes α → Prop where
  | rule {sw' : SWorld α} {log : SLog α} : Rule tr c op log → Fate tr c op (.ok (sw', log))
  | terminates {why : String} : Terminates tr c op → Fate tr c op (.error (.terminate why))
  | undefined {why : String} : Undefined tr c op → Fate tr c op (.error (.ub why))
  | client {why : String} : ¬ Allowed tr op → Fate tr c op (.error (.client why))

theorem fate_plain {tr : STrace α} {sw : SWorld α} (h : SReach tr sw) (c : Ctx) (op : Op α) : Fate tr c (.plain op) (sw.step c (.plain op)) := by
  have hr := h.inv.reach
  by_cases ho : Ordinary op
  · have hstep : sw.step c (.plain op) = (match sw.lib c op with
        | .error x => .error x
        | .ok (sw', ev, exn) => .ok (sw', ⟨[(op, ev)], none, exn, none⟩)) := by
      cases op <;> first | rfl | exact ho.elim
    rw [hstep]
    have hf : ¬ tr.flat.overflows op := by cases op <;> first | exact ho.elim | simp [Trace.overflows]
    obtain ⟨p1, p2, p3⟩ := C17_progress hr op
    by_cases hv : tr.flat.valid op
    · obtain ⟨w', ev, hs⟩ := p1 hv hf
      have hn : Next tr.flat op ev := (next_iff hr _ _).mpr ⟨_, hs⟩
      simp only [SWorld.lib, hs]
      rcases delivered hr c hs with ⟨hk, why, hd⟩ | ⟨hb, why, hd⟩ | ⟨x, he, hd⟩
      · rw [hd]; exact .terminates (.plain ho hn hk)
      · rw [hd]; exact .undefined (.plain ho hn hb)
      · rw [hd]; exact .rule (.plain ho hn he)
    · obtain ⟨why, hs⟩ := p3 hv
      simp only [SWorld.lib, hs]
      exact .client (fun ha => hv ha.2)
  · cases op <;> first | exact absurd trivial ho | exact .client (fun ha => ho ha.1)

theorem fate_expect {tr : STrace α} {sw : SWorld α} (h : SReach tr sw) (c : Ctx) (m : Nat) (min max : Int) (ss : List Nat) (ps : List (Policy α)) :
    Fate tr c (.expect m min max ss ps) (sw.step c (.expect m min max ss ps)) := by
  have hr := h.inv.reach
  obtain ⟨p1, p2, p3⟩ := C17_progress hr (.expect m min max ss ps)
  simp only [SWorld.step, SWorld.lib]
  by_cases hv : tr.flat.valid (.expect m min max ss ps)
  · by_cases hf : tr.flat.overflows (.expect m min max ss ps)
    · obtain ⟨why, hs⟩ := p2 hv hf
      rw [hs]
      exact .terminates (.full hv hf)
    · obtain ⟨w', ev, hs⟩ := p1 hv hf
      have hn : Next tr.flat _ ev := (next_iff hr _ _).mpr ⟨_, hs⟩
      rw [hs]
      rcases expect_events hr hs with ⟨rfl, _⟩ | ⟨rfl, _⟩
      · simp only [deliver, deliverOne]
        exact .rule (.expect hn ((nextHolder_iff h _).mpr rfl))
      · simp only [deliver, deliverOne]
        exact .rule (.rejected hn)
  · obtain ⟨why, hs⟩ := p3 hv
    rw [hs]
    exact .client hv

theorem destroy_next {tr : STrace α} {sw : SWorld α} (h : SReach tr sw) {w' : World α} {e : Nat} {ev : List Event}
    (hs : sw.w.step (.destroy e) = .ok (w', ev)) : Next tr.flat (.destroy e) ev := (next_iff h.inv.reach _ _).mpr ⟨_, hs⟩

theorem destroy_breaks {tr : Trace α} {w w' : World α} (h : Reach tr w) {c : Ctx} {e : Nat} {ev : List Event}
    (hs : w.step (.destroy e) = .ok (w', ev)) : ¬ Breaks c ev := by
  obtain ⟨b, rest, rfl, hr⟩ := destroy_events hs
  have key : ∀ x : Event, x ∈ (.destroyed e :: ((if b then [.unfulfilled e] else []) ++ rest) : List Event) →
      x = .destroyed e ∨ x = .unfulfilled e ∨ seqEvent x := by
    intro x hx
    simp only [List.mem_cons, List.mem_append] at hx
    rcases hx with rfl | hx | hx
    · exact .inl rfl
    · cases b <;> simp at hx; exact .inr (.inl hx)
    · exact .inr (.inr (hr x hx))
  rintro ⟨_, (⟨⟨es, h⟩, _⟩ | ⟨⟨es, h⟩, _⟩)⟩ <;> have := key _ h <;> simp [seqEvent] at this

theorem fate_drop {tr : STrace α} {sw : SWorld α} (h : SReach tr sw) (c : Ctx) (o : Nat) : Fate tr c (.drop o) (sw.step c (.drop o)) := by
  by_cases hx : tr.exists o
  · have ha := (h.inv.exists_ o).mp hx
    cases hi : innerAt sw.slots o with
    | none =>
      rw [drop_empty hi ha c]
      exact .rule (.dropSilent hx ((owns_none h o).mpr hi))
    | some e =>
      obtain ⟨w', ev, hs, heq⟩ := drop_owner h.inv hi c
      have ho : tr.owns o e := (h.inv.owns o e).mpr hi
      rw [heq]
      rcases delivered h.inv.reach c hs with ⟨hk, why, hd⟩ | ⟨hb, why, hd⟩ | ⟨x, he, hd⟩
      · rw [hd]; exact .terminates (.drop ho (destroy_next h hs) hk)
      · exact absurd hb (destroy_breaks h.inv.reach hs)
      · rw [hd]; exact .rule (.drop ho (destroy_next h hs) he)
  · simp only [SWorld.step, slot_none h hx]
    exact .client hx

theorem fate_moveConstruct {tr : STrace α} {sw : SWorld α} (h : SReach tr sw) (c : Ctx) (s : Nat) :
    Fate tr c (.moveConstruct s) (sw.step c (.moveConstruct s)) := by
  by_cases hx : tr.exists s
  · simp only [SWorld.step, slot_of_alive ((h.inv.exists_ s).mp hx)]
    exact .rule (.moveConstruct hx ((nextHolder_iff h _).mpr rfl))
  · simp only [SWorld.step, slot_none h hx]
    exact .client hx

theorem fate_moveAssign {tr : STrace α} {sw : SWorld α} (h : SReach tr sw) (c : Ctx) (d s : Nat) :
    Fate tr c (.moveAssign d s) (sw.step c (.moveAssign d s)) := by
  by_cases hx : tr.exists d
  · by_cases hy : tr.exists s
    · have ha := (h.inv.exists_ d).mp hx
      have hb := (h.inv.exists_ s).mp hy
      by_cases hds : d = s
      · simp only [SWorld.step, slot_of_alive ha, slot_of_alive hb, if_pos hds]
        exact .rule (.moveAssignSilent hx hy (.inl hds))
      · cases hi : innerAt sw.slots d with
        | none =>
          simp only [SWorld.step, slot_of_alive ha, slot_of_alive hb, if_neg hds, hi]
          exact .rule (.moveAssignSilent hx hy (.inr ((owns_none h d).mpr hi)))
        | some e =>
          obtain ⟨w', ev, sw', hs, _, heq⟩ := assign_owner h.inv hi hb hds c
          have ho : tr.owns d e := (h.inv.owns d e).mpr hi
          rw [heq]
          rcases delivered h.inv.reach c hs with ⟨hk, why, hd⟩ | ⟨hb, why, hd⟩ | ⟨x, he, hd⟩
          · rw [hd]; exact .terminates (.moveAssign ho hy hds (destroy_next h hs) (.inl hk))
          · exact absurd hb (destroy_breaks h.inv.reach hs)
          · rw [hd]
            cases x with
            | none => exact .rule (.moveAssign ho hy hds (destroy_next h hs) he)
            | some x => exact .terminates (.moveAssign ho hy hds (destroy_next h hs) (.inr ⟨x, (he.2.2 x).mp rfl⟩))
    · have : sw.step c (.moveAssign d s) = .error (.client "use of a dead object") := by
        simp only [SWorld.step, slot_of_alive ((h.inv.exists_ d).mp hx), slot_none h hy]
      rw [this]
      exact .client (fun ha => hy ha.2)
  · have : sw.step c (.moveAssign d s) = .error (.client "use of a dead object") := by
      simp only [SWorld.step, slot_none h hx]
    rw [this]
    exact .client (fun ha => hx ha.1)

theorem fate_isSatisfied {tr : STrace α} {sw : SWorld α} (h : SReach tr sw) (c : Ctx) (o : Nat) :
    Fate tr c (.isSatisfied o) (sw.step c (.isSatisfied o)) := by
  by_cases hx : tr.exists o
  · have ha := (h.inv.exists_ o).mp hx
    cases hi : innerAt sw.slots o with
    | none =>
      simp only [SWorld.step, slot_of_alive ha, hi]
      exact .undefined (.isSatisfied hx ((owns_none h o).mpr hi))
    | some e =>
      obtain ⟨x, hd, hu⟩ := satisfied_iff h.inv.reach ((h.inv.live e).mpr ⟨o, hi⟩)
      simp only [SWorld.step, slot_of_alive ha, hi, hd]
      exact .rule (.isSatisfied ((h.inv.owns o e).mpr hi) hu)
  · simp only [SWorld.step, slot_none h hx]
    exact .client hx

theorem fate {tr : STrace α} {sw : SWorld α} (h : SReach tr sw) (c : Ctx) (op : SOp α) : Fate tr c op (sw.step c op) := by
  cases op with
  | plain op => exact fate_plain h c op
  | expect m min max ss ps => exact fate_expect h c m min max ss ps
  | moveConstruct s => exact fate_moveConstruct h c s
  | moveAssign d s => exact fate_moveAssign h c d s
  | drop o => exact fate_drop h c o
  | isSatisfied o => exact fate_isSatisfied h c o

/-! ### The rules exclude each other -/

theorem next_unique {t : Trace α} {op : Op α} {a b : List Event} (ha : Next t op a) (hb : Next t op b) : a = b :=
  Whole.prescribed_unique ha.2.2 hb.2.2

theorem owns_unique {tr : STrace α} {sw : SWorld α} (h : SReach tr sw) {o e e' : Nat} (ha : tr.owns o e) (hb : tr.owns o e') : e = e' := by
  rw [h.inv.owns] at ha hb
  rw [ha] at hb
  exact Option.some.inj hb

theorem rule_unique {tr : STrace α} {sw : SWorld α} (h : SReach tr sw) {c : Ctx} {op : SOp α} {a b : SLog α} (ha : Rule tr c op a)
    (hb : Rule tr c op b) : a = b := by
  cases ha with
  | plain _ hn he =>
    cases hb with
    | plain _ hn' he' =>
      have := next_unique hn hn'
      subst this
      rw [ends_unique he he']
  | expect hn hh =>
    cases hb with
    | expect hn' hh' =>
      have := next_unique hn hn'
      simp only [List.cons.injEq, Event.created.injEq, and_true] at this
      rw [this, Whole.nextNumber_unique hh hh']
    | rejected hn' => have := next_unique hn hn'; simp at this
  | rejected hn =>
    cases hb with
    | expect hn' hh' => have := next_unique hn hn'; simp at this
    | rejected hn' => rfl
  | moveConstruct _ hh =>
    cases hb with
    | moveConstruct _ hh' => rw [Whole.nextNumber_unique hh hh']
  | moveAssignSilent _ _ h1 =>
    cases hb with
    | moveAssignSilent _ _ _ => rfl
    | moveAssign ho _ hne _ _ => rcases h1 with h1 | h1; exact absurd h1 hne; exact absurd ho (h1 _)
  | moveAssign ho _ hne hn _ =>
    cases hb with
    | moveAssignSilent _ _ h1 => rcases h1 with h1 | h1; exact absurd h1 hne; exact absurd ho (h1 _)
    | moveAssign ho' _ _ hn' _ =>
      have := owns_unique h ho ho'
      subst this
      rw [next_unique hn hn']
  | dropSilent _ h1 =>
    cases hb with
    | dropSilent _ _ => rfl
    | drop ho _ _ => exact absurd ho (h1 _)
  | drop ho hn he =>
    cases hb with
    | dropSilent _ h1 => exact absurd ho (h1 _)
    | drop ho' hn' he' =>
      have := owns_unique h ho ho'
      subst this
      have := next_unique hn hn'
      subst this
      rw [ends_unique he he']
  | isSatisfied ho hb1 =>
    cases hb with
    | isSatisfied ho' hb2 =>
      have := owns_unique h ho ho'
      subst this
      have : (_ = true ↔ _ = true) := hb1.trans hb2.symm
      rw [Bool.eq_iff_iff.mpr this]

theorem rule_not_terminates {tr : STrace α} {sw : SWorld α} (h : SReach tr sw) {c : Ctx} {op : SOp α} {a : SLog α} (ha : Rule tr c op a) :
    ¬ Terminates tr c op := by
  intro ht
  cases ha with
  | plain _ hn he => cases ht with | plain _ hn' hk => have := next_unique hn hn'; subst this; exact he.1 hk
  | expect hn hh => cases ht with | full _ hf => exact hn.2.1 hf
  | rejected hn => cases ht with | full _ hf => exact hn.2.1 hf
  | moveConstruct _ hh => cases ht
  | moveAssignSilent _ _ h1 =>
    cases ht with
    | moveAssign ho _ hne _ _ => rcases h1 with h1 | h1; exact absurd h1 hne; exact absurd ho (h1 _)
  | moveAssign ho _ hne hn he =>
    cases ht with
    | moveAssign ho' _ _ hn' hk =>
      have := owns_unique h ho ho'
      subst this
      have := next_unique hn hn'
      subst this
      rcases hk with hk | ⟨x, hk⟩
      · exact he.1 hk
      · have := (he.2.2 x).mpr hk; cases this
  | dropSilent _ h1 => cases ht with | drop ho _ _ => exact absurd ho (h1 _)
  | drop ho hn he =>
    cases ht with
    | drop ho' hn' hk =>
      have := owns_unique h ho ho'
      subst this
      have := next_unique hn hn'
      subst this
      exact he.1 hk
  | isSatisfied ho hb1 => cases ht

theorem rule_not_undefined {tr : STrace α} {c : Ctx} {op : SOp α} {a : SLog α} (ha : Rule tr c op a) : ¬ Undefined tr c op := by
  intro hu
  cases hu with
  | plain _ hn hb =>
    cases ha with | plain _ hn' he => have := next_unique hn hn'; subst this; exact he.2.1 hb
  | isSatisfied _ h1 => cases ha with | isSatisfied ho _ => exact absurd ho (h1 _)

theorem terminates_not_undefined {tr : STrace α} {c : Ctx} {op : SOp α} (ha : Terminates tr c op) : ¬ Undefined tr c op := by
  intro hu
  cases hu with
  | plain _ hn hb =>
    cases ha with | plain _ hn' he => have := next_unique hn hn'; subst this; exact hb.1 he
  | isSatisfied _ h1 => cases ha

theorem owns_exists {tr : STrace α} {sw : SWorld α} (h : SReach tr sw) {o e : Nat} (ha : tr.owns o e) : tr.exists o :=
  (h.inv.exists_ o).mpr (h.inv.alive o e ((h.inv.owns o e).mp ha))

theorem rule_allowed {tr : STrace α} {sw : SWorld α} (h : SReach tr sw) {c : Ctx} {op : SOp α} {a : SLog α} (ha : Rule tr c op a) :
    Allowed tr op := by
  cases ha with
  | plain ho hn _ => exact ⟨ho, hn.1⟩
  | expect hn _ => exact hn.1
  | rejected hn => exact hn.1
  | moveConstruct hx _ => exact hx
  | moveAssignSilent hx hy _ => exact ⟨hx, hy⟩
  | moveAssign ho hy _ _ _ => exact ⟨owns_exists h ho, hy⟩
  | dropSilent hx _ => exact hx
  | drop ho _ _ => exact owns_exists h ho
  | isSatisfied ho _ => exact owns_exists h ho

theorem terminates_allowed {tr : STrace α} {sw : SWorld α} (h : SReach tr sw) {c : Ctx} {op : SOp α} (ha : Terminates tr c op) :
    Allowed tr op := by
  cases ha with
  | plain ho hn _ => exact ⟨ho, hn.1⟩
  | full hv _ => exact hv
  | moveAssign ho hy _ _ _ => exact ⟨owns_exists h ho, hy⟩
  | drop ho _ _ => exact owns_exists h ho

theorem undefined_allowed {tr : STrace α} {c : Ctx} {op : SOp α} (ha : Undefined tr c op) : Allowed tr op := by
  cases ha with
  | plain ho hn _ => exact ⟨ho, hn.1⟩
  | isSatisfied hx _ => exact hx

theorem step_of_rule {tr : STrace α} {sw : SWorld α} (h : SReach tr sw) {c : Ctx} {op : SOp α} {log : SLog α} (hl : Rule tr c op log) :
    ∃ sw', sw.step c op = .ok (sw', log) := by
  have hf := fate h c op
  generalize hs : sw.step c op = r at hf
  cases hf with
  | rule hr => exact ⟨_, by rw [rule_unique h hl hr]⟩
  | terminates ht => exact absurd ht (rule_not_terminates h hl)
  | undefined hu => exact absurd hu (rule_not_undefined hl)
  | client hc => exact absurd (rule_allowed h hl) hc

theorem rule_of_step {tr : STrace α} {sw sw' : SWorld α} (h : SReach tr sw) {c : Ctx} {op : SOp α} {log : SLog α}
    (hs : sw.step c op = .ok (sw', log)) : Rule tr c op log := by
  have hf := fate h c op
  rw [hs] at hf
  cases hf with
  | rule hr => exact hr

theorem lawful_reach_aux (l : STrace α) : ∀ {pre : STrace α} {sw : SWorld α}, SReach pre sw → Lawful (pre ++ l) →
    ∃ sw', SReach (pre ++ l) sw' := by
  induction l with
  | nil => intro pre sw h _; rw [List.append_nil]; exact ⟨sw, h⟩
  | cons st l ih =>
    intro pre sw h hl
    have he : pre ++ st :: l = (pre ++ [st]) ++ l := by simp
    obtain ⟨sw', hs⟩ := step_of_rule h (hl pre st l rfl)
    rw [he] at hl ⊢
    exact ih (.step h hs) hl

theorem reach_lawful {tr : STrace α} {sw : SWorld α} (h : SReach tr sw) : Lawful tr := by
  induction h with
  | init => intro pre st post he; simp at he
  | @step tr sw sw' c op log h hs ih =>
    intro pre st post he
    rcases List.eq_nil_or_concat post with rfl | ⟨l', st', rfl⟩
    · have h2 := List.append_inj' he rfl
      obtain ⟨rfl, h3⟩ := h2
      simp only [List.cons.injEq, and_true] at h3
      subst h3
      exact rule_of_step h hs
    · have h2 : tr ++ [⟨c, op, log⟩] = (pre ++ st :: l') ++ [st'] := by rw [he]; simp
      exact ih pre st l' (List.append_inj' h2 rfl).1

theorem lawful_prefix {tr post : STrace α} (h : Lawful (tr ++ post)) : Lawful tr := by
  intro pre st post' e
  exact h pre st (post' ++ post) (by rw [e]; simp)

end Mimic.Scoping
