import Verif.Spec.Scoped
import Verif.Proofs.Calls
import Verif.Props.Limits
import Verif.Props.Safety
import Verif.Props.Outcome

/-!
# Lemmas about scoped expectations and reporters
-/

set_option autoImplicit false
set_option linter.unusedSimpArgs false

namespace Mimic

variable {α : Type}

/-! ### What an operation of the library reports -/

/-- Events about the end of sequences. -/
def seqEvent : Event → Prop
  | .sequenceError _ _ _ => True
  | .sequenceDestroyed _ => True
  | _ => False

theorem release_events {w w' : World α} {s : Nat} {ev : List Event} (h : w.release s = .ok (w', ev)) :
    w'.exps = w.exps ∧ ∀ x ∈ ev, seqEvent x := by
  unfold World.release at h
  split at h
  · simp only [Except.ok.injEq, Prod.mk.injEq] at h
    obtain ⟨rfl, rfl⟩ := h
    simp
  · simp only [bind, Except.bind, pure, Except.pure] at h
    split at h
    · simp at h
    · split at h
      · simp at h
      · split at h
        · simp only [Except.ok.injEq, Prod.mk.injEq] at h
          obtain ⟨rfl, rfl⟩ := h
          simp [seqEvent]
        · simp only [Except.ok.injEq, Prod.mk.injEq] at h
          obtain ⟨rfl, rfl⟩ := h
          simp [seqEvent]

theorem releaseAll_events {ss : List Nat} {w w' : World α} {ev : List Event} (h : w.releaseAll ss = .ok (w', ev)) :
    w'.exps = w.exps ∧ ∀ x ∈ ev, seqEvent x := by
  induction ss generalizing w ev with
  | nil =>
    simp only [World.releaseAll, Except.ok.injEq, Prod.mk.injEq] at h
    obtain ⟨rfl, rfl⟩ := h
    simp
  | cons s ss ih =>
    simp only [World.releaseAll, bind, Except.bind, pure, Except.pure] at h
    split at h
    · simp at h
    · rename_i r hr
      split at h
      · simp at h
      · rename_i r' hr'
        simp only [Except.ok.injEq, Prod.mk.injEq] at h
        obtain ⟨rfl, rfl⟩ := h
        obtain ⟨h1, h2⟩ := release_events hr
        obtain ⟨h3, h4⟩ := ih hr'
        refine ⟨h3.trans h1, fun x hx => ?_⟩
        rw [List.mem_append] at hx
        rcases hx with hx | hx
        · exact h2 x hx
        · exact h4 x hx

theorem destroy_events {w w' : World α} {e : Nat} {ev : List Event} (h : w.step (.destroy e) = .ok (w', ev)) :
    ∃ (b : Bool) (rest : List Event), ev = .destroyed e :: ((if b then [.unfulfilled e] else []) ++ rest) ∧
      ∀ x ∈ rest, seqEvent x := by
  simp only [World.step, World.destroyExp, bind, Except.bind, pure, Except.pure, check] at h
  split at h
  · simp at h
  · rename_i x hx
    split at h
    · simp at h
    · split at h
      · simp at h
      · split at h
        · simp at h
        · split at h
          · simp at h
          · rename_i r hr
            simp only [Except.ok.injEq, Prod.mk.injEq] at h
            obtain ⟨rfl, rfl⟩ := h
            refine ⟨!x.isSatisfied, r.2, ?_, (releaseAll_events hr).2⟩
            cases x.isSatisfied <;> simp

theorem expect_events {tr : Trace α} {w w' : World α} (h : Reach tr w) {m : Nat} {min max : Int} {tags : List Nat}
    {ps : List (Policy α)} {ev : List Event} (hs : w.step (.expect m min max tags ps) = .ok (w', ev)) :
    (ev = [.created w.exps.length] ∧ tr.decl w.exps.length = none) ∨ (ev = [.rejected] ∧ w' = w) := by
  obtain ⟨h1, h2⟩ := C01_expect_accepted h hs
  by_cases hv : 0 ≤ min ∧ min ≤ max ∧ tags.Nodup
  · obtain ⟨e, rfl, _, hn⟩ := h1 hv
    left
    have he : e = w.exps.length := by
      simp only [World.step, World.expect, bind, Except.bind, pure, Except.pure, check] at hs
      split at hs
      · simp at hs
      · split at hs
        · split at hs
          · split at hs
            · simp at hs
            · split at hs
              · simp at hs
              · simp only [Except.ok.injEq, Prod.mk.injEq, List.cons.injEq, Event.created.injEq, and_true] at hs
                exact hs.2.symm
          · simp at hs
        · simp at hs
    rw [← he]
    exact ⟨rfl, hn⟩
  · exact Or.inr (h2 hv)

theorem dropSequence_events {w w' : World α} {s : Nat} {ev : List Event} (h : w.step (.dropSequence s) = .ok (w', ev)) :
    ∀ x ∈ ev, seqEvent x := by
  simp only [World.step] at h
  split at h
  · exact (release_events h).2
  · simp at h

/-! ### Who lives -/

/-- Operations that leave the set of expectations alone. -/
def neutral : Op α → Prop
  | .expect .. => False
  | .destroy _ => False
  | _ => True

theorem neutral_decl {op : Op α} (h : neutral op) (e : Nat) (ev : List Event) : declStep e op ev = none := by
  cases op <;> simp_all [neutral, declStep]

theorem live_neutral {tr : Trace α} {w w' : World α} (h : Reach tr w) {op : Op α} (hn : neutral op) {ev : List Event}
    (hs : w.step op = .ok (w', ev)) (e : Nat) : (tr ++ [(op, ev)] : Trace α).live e ↔ tr.live e := by
  constructor
  · rintro ⟨⟨d, hd⟩, hx⟩
    rw [decl_snoc_none (neutral_decl hn e ev)] at hd
    rw [events_append] at hx
    simp at hx
    exact ⟨⟨d, hd⟩, hx.1⟩
  · intro hl
    rw [← isAlive_live h] at hl
    rw [← isAlive_live (h.step hs)]
    exact step_alive h hs (by rintro e rfl; exact hn) e hl

theorem live_destroy {tr : Trace α} {w w' : World α} {e0 : Nat} {ev : List Event}
    (hs : w.step (.destroy e0) = .ok (w', ev)) (e : Nat) :
    (tr ++ [(.destroy e0, ev)] : Trace α).live e ↔ tr.live e ∧ e ≠ e0 := by
  obtain ⟨b, rest, rfl, hr⟩ := destroy_events hs
  have hd : (tr ++ [(.destroy e0, _)] : Trace α).decl e = tr.decl e :=
    decl_snoc_none (ev := .destroyed e0 :: ((if b then [.unfulfilled e0] else []) ++ rest)) (by simp [declStep])
  have hm : Event.destroyed e ∉ rest := fun hc => by simpa [seqEvent] using hr _ hc
  unfold Trace.live
  rw [hd, events_append]
  cases b <;> simp [Trace.events, hm, and_assoc]

theorem live_expect {tr : Trace α} {w w' : World α} (h : Reach tr w) {m : Nat} {min max : Int} {tags : List Nat}
    {ps : List (Policy α)} {ev : List Event} (hs : w.step (.expect m min max tags ps) = .ok (w', ev)) (e : Nat) :
    (tr ++ [(.expect m min max tags ps, ev)] : Trace α).live e ↔
      tr.live e ∨ (ev = [.created w.exps.length] ∧ e = w.exps.length) := by
  rcases expect_events h hs with ⟨rfl, hn⟩ | ⟨rfl, _⟩
  · have hf := (h.view.2.fresh w.exps.length (by rw [abs_exps_length]; omega)).2.2
    unfold Trace.live
    rw [decl_snoc, events_append]
    simp only [declStep, List.mem_cons, Event.created.injEq, List.not_mem_nil, or_false, Trace.events, List.flatMap_cons,
      List.flatMap_nil, List.append_nil, List.mem_append, reduceCtorEq, true_and]
    by_cases he : e = w.exps.length
    · subst he
      rw [hn]
      simp only [if_true, Option.none_or, Option.some.injEq, exists_eq', true_and, reduceCtorEq, exists_false, false_and,
        false_or, iff_true]
      exact hf
    · rw [if_neg he]
      simp [he]
  · unfold Trace.live
    rw [decl_snoc, events_append]
    simp [declStep, Trace.events]

/-- Destroying changes nothing about who is unmet. -/
theorem unmet_destroy {tr : Trace α} {w w' : World α} {e0 : Nat} {ev : List Event}
    (hs : w.step (.destroy e0) = .ok (w', ev)) (e : Nat) :
    (tr ++ [(.destroy e0, ev)] : Trace α).unmet e ↔ tr.unmet e := by
  obtain ⟨b, rest, rfl, hr⟩ := destroy_events hs
  have hd : (tr ++ [(.destroy e0, _)] : Trace α).decl e = tr.decl e :=
    decl_snoc_none (ev := .destroyed e0 :: ((if b then [.unfulfilled e0] else []) ++ rest)) (by simp [declStep])
  have hm : Event.fullMatch e ∉ rest := fun hc => by simpa [seqEvent] using hr _ hc
  unfold Trace.unmet
  rw [hd, matched_snoc, List.count_eq_zero_of_not_mem]
  · simp
  · cases b <;> simp [hm]

/-- What destroying an expectation reports. -/
theorem destroy_report {tr : Trace α} {w w' : World α} (h : Reach tr w) {e : Nat} {ev : List Event}
    (hs : w.step (.destroy e) = .ok (w', ev)) :
    ∃ rest : List Event, (∀ x ∈ rest, seqEvent x) ∧
      ((tr.unmet e ∧ ev = .destroyed e :: .unfulfilled e :: rest) ∨ (¬ tr.unmet e ∧ ev = .destroyed e :: rest)) := by
  obtain ⟨d, hd, hiff⟩ := C03_unfulfilled_iff h hs
  obtain ⟨b, rest, rfl, hr⟩ := destroy_events hs
  refine ⟨rest, hr, ?_⟩
  have hm : Event.unfulfilled e ∉ rest := fun hc => by simpa [seqEvent] using hr _ hc
  have hu : tr.unmet e ↔ b = true := by
    have : tr.unmet e ↔ ((tr.matched e : Int) < d.min ∨ ∃ p ∈ d.policies, p.isSatisfied = false) := by
      unfold Trace.unmet
      rw [hd]
      simp
    rw [this, ← hiff]
    cases b <;> simp [hm]
  cases b with
  | true => exact Or.inl ⟨hu.mpr rfl, by simp⟩
  | false => exact Or.inr ⟨by rw [hu]; simp, by simp⟩

/-! ### Delivery -/

theorem deliver_append {R : Reporter} {u : Nat} (l1 l2 : List Event) (p : Option Exn) :
    deliver R u p (l1 ++ l2) = (deliver R u p l1).bind (fun q => deliver R u q l2) := by
  induction l1 generalizing p with
  | nil => rfl
  | cons e l1 ih =>
    simp only [List.cons_append, deliver]
    cases deliverOne R u p e with
    | error x => rfl
    | ok q => exact ih q

/-- Errors about sequences are swallowed or end the program. -/
theorem deliver_seq {R : Reporter} {u : Nat} {p : Option Exn} {ev : List Event} (h : ∀ x ∈ ev, seqEvent x) :
    (sequenceErrorIn ev ∧ (R .error (uncaught u p)).throws = true ∧ ∃ why, deliver R u p ev = .error (.terminate why)) ∨
    (¬ (sequenceErrorIn ev ∧ (R .error (uncaught u p)).throws = true) ∧ deliver R u p ev = .ok p) := by
  induction ev with
  | nil => right; simp [sequenceErrorIn, deliver]
  | cons x ev ih =>
    have hx := h x (by simp)
    have ih := ih (fun y hy => h y (by simp [hy]))
    cases x <;> simp only [seqEvent] at hx
    · rename_i s
      have : sequenceErrorIn (.sequenceDestroyed s :: ev) ↔ sequenceErrorIn ev := by simp [sequenceErrorIn]
      rw [this]
      simpa [deliver, deliverOne] using ih
    · rename_i s k n
      have hs : sequenceErrorIn (.sequenceError s k n :: ev) := ⟨s, k, n, by simp⟩
      cases ht : (R .error (uncaught u p)).throws with
      | true =>
        left
        refine ⟨hs, rfl, "~shared_ptr", ?_⟩
        simp [deliver, deliverOne, Reporter.exn, ht, atNoexcept, bind, Except.bind]
      | false =>
        right
        refine ⟨by simp, ?_⟩
        rw [ht] at ih
        simp only [Bool.false_eq_true, and_false, false_and, not_false_eq_true, true_and, false_or] at ih
        simp [deliver, deliverOne, Reporter.exn, ht, atNoexcept, bind, Except.bind, pure, Except.pure, ih]

theorem lib_eq {c : Ctx} {sw sw' : SWorld α} {op : Op α} {ev : List Event} {exn : Option Exn}
    (h : sw.lib c op = .ok (sw', ev, exn)) :
    ∃ w', sw.w.step op = .ok (w', ev) ∧ sw' = { sw with w := w' } ∧ deliver c.reporter c.uncaught none ev = .ok exn := by
  unfold SWorld.lib at h
  split at h
  · simp at h
  · rename_i w' ev' hs
    split at h
    · simp at h
    · rename_i p hd
      simp only [Except.ok.injEq, Prod.mk.injEq] at h
      obtain ⟨rfl, rfl, rfl⟩ := h
      exact ⟨w', hs, rfl, hd⟩

/-! ### The invariant -/

theorem owns_snoc {tr : STrace α} {st : SEntry α} {o e : Nat} :
    (tr ++ [st] : STrace α).owns o e ↔
      st.creates o e ∨ (∃ s, st.movesTo s o ∧ tr.owns s e) ∨ (tr.owns o e ∧ ¬ st.leaves o) := by
  simp [STrace.owns, OwnsRev]

theorem sflat_snoc {tr : STrace α} {st : SEntry α} : (tr ++ [st] : STrace α).flat = tr.flat ++ st.log.lib := by
  simp [STrace.flat]

theorem sexists_snoc {tr : STrace α} {st : SEntry α} {o : Nat} : (tr ++ [st] : STrace α).exists o ↔
    ((∃ st ∈ tr, st.log.slot = some o) ∨ st.log.slot = some o) ∧ (∀ st ∈ tr, st.op ≠ .drop o) ∧ st.op ≠ .drop o := by
  simp only [STrace.exists, List.mem_append, List.mem_singleton]
  constructor
  · rintro ⟨⟨x, (h | rfl), h1⟩, h2⟩
    · exact ⟨Or.inl ⟨x, h, h1⟩, fun y hy => h2 y (Or.inl hy), h2 _ (Or.inr rfl)⟩
    · exact ⟨Or.inr h1, fun y hy => h2 y (Or.inl hy), h2 _ (Or.inr rfl)⟩
  · rintro ⟨h1, h2, h3⟩
    refine ⟨?_, ?_⟩
    · rcases h1 with ⟨x, h, h1⟩ | h1
      · exact ⟨x, Or.inl h, h1⟩
      · exact ⟨_, Or.inr rfl, h1⟩
    · rintro y (hy | rfl)
      · exact h2 y hy
      · exact h3

/-- What slot `o` holds. -/
def innerAt (slots : List Slot) (o : Nat) : Option Nat := (slots[o]?).bind (·.inner)

/-- Whether slot `o` is there. -/
def slotAlive (slots : List Slot) (o : Nat) : Prop := (slots[o]?).map (·.alive) = some true

theorem innerAt_set (slots : List Slot) (i o : Nat) (x : Slot) :
    innerAt (slots.set i x) o = if o = i ∧ i < slots.length then x.inner else innerAt slots o := by
  simp only [innerAt, List.getElem?_set]
  grind

theorem innerAt_push (slots : List Slot) (o : Nat) (x : Slot) :
    innerAt (slots ++ [x]) o = if o = slots.length then x.inner else innerAt slots o := by
  simp only [innerAt]
  grind

theorem slotAlive_set (slots : List Slot) (i o : Nat) (x : Slot) :
    slotAlive (slots.set i x) o ↔ if o = i ∧ i < slots.length then x.alive = true else slotAlive slots o := by
  simp only [slotAlive, List.getElem?_set]
  grind

theorem slotAlive_push (slots : List Slot) (o : Nat) (x : Slot) :
    slotAlive (slots ++ [x]) o ↔ if o = slots.length then x.alive = true else slotAlive slots o := by
  simp only [slotAlive]
  grind

theorem innerAt_lt {slots : List Slot} {o e : Nat} (h : innerAt slots o = some e) : o < slots.length := by
  simp only [innerAt] at h
  grind

theorem slotAlive_lt {slots : List Slot} {o : Nat} (h : slotAlive slots o) : o < slots.length := by
  simp only [slotAlive] at h
  grind

theorem slot_some {sw : SWorld α} {o : Nat} {x : Slot} (h : sw.slot o = some x) :
    o < sw.slots.length ∧ innerAt sw.slots o = x.inner ∧ slotAlive sw.slots o ∧ x.alive = true := by
  unfold SWorld.slot at h
  simp only [innerAt, slotAlive]
  grind

theorem slot_of_alive {sw : SWorld α} {o : Nat} (h : slotAlive sw.slots o) :
    sw.slot o = some ⟨innerAt sw.slots o, true⟩ := by
  unfold SWorld.slot
  simp only [innerAt, slotAlive] at h ⊢
  cases hs : sw.slots[o]? with
  | none => rw [hs] at h; simp at h
  | some x =>
    rw [hs] at h
    simp at h
    simp only [h, if_true, Option.bind_some, Option.some.injEq]
    cases x
    simp_all

structure SInv (tr : STrace α) (sw : SWorld α) : Prop where
  reach : Reach tr.flat sw.w
  owns : ∀ o e, tr.owns o e ↔ innerAt sw.slots o = some e
  inj : ∀ o o' e, innerAt sw.slots o = some e → innerAt sw.slots o' = some e → o = o'
  live : ∀ e, tr.flat.live e ↔ ∃ o, innerAt sw.slots o = some e
  alive : ∀ o e, innerAt sw.slots o = some e → slotAlive sw.slots o
  exists_ : ∀ o, tr.exists o ↔ slotAlive sw.slots o
  made : ∀ o : Nat, (∃ st ∈ tr, st.log.slot = some o) ↔ o < sw.slots.length
  dropped : ∀ o : Nat, ∀ st ∈ tr, st.op = .drop o → o < sw.slots.length

theorem SInv.init : SInv ([] : STrace α) SWorld.init := by
  constructor <;> simp [SWorld.init, STrace.flat, STrace.owns, OwnsRev, innerAt, Trace.live, Trace.decl, STrace.exists,
    slotAlive]
  exact .init

theorem decl_lt {tr : Trace α} {w : World α} (h : Reach tr w) {e : Nat} {d : Decl α} (hd : tr.decl e = some d) :
    e < w.exps.length := by
  have := h.view.2.exps e
  rw [hd] at this
  simp only [Option.map_some] at this
  have := (List.getElem?_eq_some_iff.mp this).1
  rwa [abs_exps_length] at this

/-- The parts of the invariant that only concern the slots. -/
theorem SInv.assemble {tr : STrace α} {sw sw' : SWorld α} (h : SInv tr sw) {c : Ctx} {op : SOp α} {log : SLog α}
    (hreach : Reach (tr.flat ++ log.lib) sw'.w)
    (howns : ∀ o e, ((SEntry.mk c op log).creates o e ∨ (∃ s, (SEntry.mk c op log).movesTo s o ∧ innerAt sw.slots s = some e) ∨
      (innerAt sw.slots o = some e ∧ ¬ (SEntry.mk c op log).leaves o)) ↔ innerAt sw'.slots o = some e)
    (hinj : ∀ o o' e, innerAt sw'.slots o = some e → innerAt sw'.slots o' = some e → o = o')
    (hlive : ∀ e, (tr.flat ++ log.lib : Trace α).live e ↔ ∃ o, innerAt sw'.slots o = some e)
    (halive : ∀ o e, innerAt sw'.slots o = some e → slotAlive sw'.slots o)
    (hlen : ∀ o, o < sw'.slots.length ↔ o < sw.slots.length ∨ log.slot = some o)
    (hslot : ∀ o, slotAlive sw'.slots o ↔ (slotAlive sw.slots o ∨ (log.slot = some o ∧ sw.slots.length ≤ o)) ∧ op ≠ .drop o)
    (hnew : ∀ o, log.slot = some o → sw.slots.length ≤ o)
    (hdrop : ∀ o, op = .drop o → o < sw.slots.length) : SInv (tr ++ [⟨c, op, log⟩]) sw' := by
  have hmade : ∀ o : Nat, (∃ st ∈ (tr ++ [⟨c, op, log⟩] : STrace α), st.log.slot = some o) ↔ o < sw'.slots.length := by
    intro o
    rw [hlen, ← h.made]
    simp only [List.mem_append, List.mem_singleton]
    constructor
    · rintro ⟨x, (hx | rfl), h1⟩
      · exact Or.inl ⟨x, hx, h1⟩
      · exact Or.inr h1
    · rintro (⟨x, hx, h1⟩ | h1)
      · exact ⟨x, Or.inl hx, h1⟩
      · exact ⟨_, Or.inr rfl, h1⟩
  refine ⟨by rw [sflat_snoc]; exact hreach, fun o e => ?_, hinj, by rw [sflat_snoc]; exact hlive, halive, fun o => ?_, hmade,
    fun o st hst ho => ?_⟩
  · rw [owns_snoc, ← howns]
    simp only [h.owns]
  · rw [sexists_snoc, h.made, hslot]
    have h1 := h.exists_ o
    unfold STrace.exists at h1
    rw [h.made] at h1
    have h2 := h.dropped o
    have h3 := hnew o
    have h4 := @slotAlive_lt sw.slots o
    grind
  · rw [hlen]
    simp only [List.mem_append, List.mem_singleton] at hst
    rcases hst with hst | rfl
    · exact Or.inl (h.dropped o st hst ho)
    · exact Or.inl (hdrop o ho)

theorem SInv.step {tr : STrace α} {sw sw' : SWorld α} (h : SInv tr sw) {c : Ctx} {op : SOp α} {log : SLog α}
    (hs : sw.step c op = .ok (sw', log)) : SInv (tr ++ [⟨c, op, log⟩]) sw' := by
  have hlt := @innerAt_lt sw.slots
  have hal := @slotAlive_lt sw.slots
  cases op with
  | plain op =>
    have key : neutral op ∧ ∃ w' ev exn, sw.w.step op = .ok (w', ev) ∧ sw' = { sw with w := w' } ∧
        log = ⟨[(op, ev)], none, exn, none⟩ := by
      simp only [SWorld.step] at hs
      split at hs
      · simp at hs
      · simp at hs
      · rename_i h1 h2
        split at hs
        · simp at hs
        · rename_i sw1 ev exn hlib
          simp only [Except.ok.injEq, Prod.mk.injEq] at hs
          obtain ⟨rfl, rfl⟩ := hs
          obtain ⟨w', h3, h4, _⟩ := lib_eq hlib
          refine ⟨?_, w', ev, exn, h3, h4, rfl⟩
          cases op with
          | expect => exact absurd rfl (h1 _ _ _ _ _)
          | destroy => exact absurd rfl (h2 _)
          | _ => trivial
    obtain ⟨hn, w', ev, exn, hst, rfl, rfl⟩ := key
    refine h.assemble (h.reach.step hst) (fun o e => ?_) h.inj (fun e => ?_) h.alive ?_ ?_ ?_ ?_
    · simp [SEntry.creates, SEntry.movesTo, SEntry.leaves]
    · rw [live_neutral h.reach hn hst, h.live]
    · simp
    · simp
    · simp
    · simp
  | expect m min max tags ps =>
    simp only [SWorld.step] at hs
    split at hs
    · simp at hs
    · rename_i sw1 ev exn hlib
      simp only [Except.ok.injEq, Prod.mk.injEq] at hs
      obtain ⟨rfl, rfl⟩ := hs
      obtain ⟨w', hst, rfl, hd⟩ := lib_eq hlib
      have hl := live_expect h.reach hst
      have hev : ev = [.rejected] := by
        rcases expect_events h.reach hst with ⟨rfl, _⟩ | ⟨rfl, _⟩
        · simp [deliver, deliverOne] at hd
        · rfl
      subst hev
      refine h.assemble (h.reach.step hst) (fun o e => ?_) h.inj (fun e => ?_) h.alive ?_ ?_ ?_ ?_
      · simp [SEntry.creates, SEntry.movesTo, SEntry.leaves]
      · rw [hl, h.live]; simp
      · simp
      · simp
      · simp
      · simp
    · rename_i sw1 ev hlib
      simp only [Except.ok.injEq, Prod.mk.injEq] at hs
      obtain ⟨rfl, rfl⟩ := hs
      obtain ⟨w', hst, rfl, hd⟩ := lib_eq hlib
      have hl := live_expect h.reach hst
      have hev : ev = [.created sw.w.exps.length] := by
        rcases expect_events h.reach hst with ⟨rfl, _⟩ | ⟨rfl, _⟩
        · rfl
        · simp [deliver, deliverOne] at hd
      subst hev
      have hnl : ∀ o, innerAt sw.slots o ≠ some sw.w.exps.length := by
        intro o ho
        obtain ⟨⟨d, hd⟩, _⟩ := (h.live _).mpr ⟨o, ho⟩
        have := decl_lt h.reach hd
        omega
      have hinj := h.inj
      have halive := h.alive
      refine h.assemble (h.reach.step hst) (fun o e => ?_) ?_ (fun e => ?_) ?_ ?_ ?_ ?_ ?_
      · simp [SEntry.creates, SEntry.movesTo, SEntry.leaves, innerAt_push, Trace.events]
        grind
      · simp only [innerAt_push]; grind
      · rw [hl, h.live]
        simp only [innerAt_push]
        constructor
        · rintro (⟨o, ho⟩ | ⟨_, rfl⟩)
          · exact ⟨o, by grind⟩
          · exact ⟨sw.slots.length, by simp⟩
        · rintro ⟨o, ho⟩
          by_cases ho' : o = sw.slots.length
          · right; grind
          · left; exact ⟨o, by grind⟩
      · simp only [innerAt_push, slotAlive_push]; grind
      · simp; grind
      · simp [slotAlive_push]; grind
      · simp
      · simp
  | moveConstruct src =>
    simp only [SWorld.step] at hs
    split at hs
    · simp at hs
    · rename_i x hx
      simp only [Except.ok.injEq, Prod.mk.injEq] at hs
      obtain ⟨rfl, rfl⟩ := hs
      obtain ⟨h1, h2, h3, h4⟩ := slot_some hx
      have hinj := h.inj
      have halive := h.alive
      refine h.assemble (by simpa using h.reach) (fun o e => ?_) ?_ (fun e => ?_) ?_ ?_ ?_ ?_ ?_
      · simp [SEntry.creates, SEntry.movesTo, SEntry.leaves, innerAt_push, innerAt_set, Trace.events]
        grind
      · simp only [innerAt_push, innerAt_set, List.length_set]; grind
      · simp only [List.append_nil]
        rw [h.live]
        simp only [innerAt_push, innerAt_set, List.length_set]
        constructor
        · rintro ⟨o, ho⟩
          by_cases ho' : o = src
          · exact ⟨sw.slots.length, by grind⟩
          · exact ⟨o, by grind⟩
        · rintro ⟨o, ho⟩
          by_cases ho' : o = sw.slots.length
          · exact ⟨src, by grind⟩
          · exact ⟨o, by grind⟩
      · simp only [innerAt_push, slotAlive_push, innerAt_set, slotAlive_set, List.length_set]; grind
      · simp; grind
      · simp [slotAlive_push, slotAlive_set]; grind
      · simp
      · simp
  | moveAssign dst src =>
    simp only [SWorld.step] at hs
    split at hs
    · rename_i x y hx hy
      obtain ⟨h1, h2, h3, h4⟩ := slot_some hx
      obtain ⟨g1, g2, g3, g4⟩ := slot_some hy
      have hinj := h.inj
      have halive := h.alive
      split at hs
      · rename_i hds
        subst hds
        simp only [Except.ok.injEq, Prod.mk.injEq] at hs
        obtain ⟨rfl, rfl⟩ := hs
        refine h.assemble (by simpa using h.reach) (fun o e => ?_) h.inj (fun e => ?_) h.alive ?_ ?_ ?_ ?_
        · simp [SEntry.creates, SEntry.movesTo, SEntry.leaves, Trace.events]
          grind
        · simp [h.live]
        · simp
        · simp
        · simp
        · simp
      · rename_i hds
        split at hs
        · rename_i hxi
          simp only [Except.ok.injEq, Prod.mk.injEq] at hs
          obtain ⟨rfl, rfl⟩ := hs
          refine h.assemble (by simpa using h.reach) (fun o e => ?_) ?_ (fun e => ?_) ?_ ?_ ?_ ?_ ?_
          · simp [SEntry.creates, SEntry.movesTo, SEntry.leaves, innerAt_set, Trace.events]
            grind
          · simp only [innerAt_set, List.length_set]; grind
          · simp only [List.append_nil]
            rw [h.live]
            simp only [innerAt_set, List.length_set]
            constructor
            · rintro ⟨o, ho⟩
              by_cases ho' : o = src
              · exact ⟨dst, by grind⟩
              · exact ⟨o, by grind⟩
            · rintro ⟨o, ho⟩
              by_cases ho' : o = dst
              · exact ⟨src, by grind⟩
              · exact ⟨o, by grind⟩
          · simp only [slotAlive_set, innerAt_set, List.length_set]; grind
          · simp
          · simp [slotAlive_set]; grind
          · simp
          · simp
        · rename_i e0 hxi
          split at hs
          · simp at hs
          · rename_i sw1 ev exn hlib
            split at hs
            · simp at hs
            · simp only [Except.ok.injEq, Prod.mk.injEq] at hs
              obtain ⟨rfl, rfl⟩ := hs
              obtain ⟨w', hst, rfl, hd⟩ := lib_eq hlib
              have hl := live_destroy (tr := tr.flat) hst
              simp only at hst
              obtain ⟨b, rest, hev, hr⟩ := destroy_events hst
              have hnc : ∀ e, Event.created e ∉ ev := by
                intro e hc
                rw [hev] at hc
                have : Event.created e ∉ rest := fun hc => by simpa [seqEvent] using hr _ hc
                cases b <;> simp [this] at hc
              refine h.assemble (h.reach.step hst) (fun o e => ?_) ?_ (fun e => ?_) ?_ ?_ ?_ ?_ ?_
              · simp [SEntry.creates, SEntry.movesTo, SEntry.leaves, innerAt_set]
                grind
              · simp only [innerAt_set, List.length_set]; grind
              · rw [hl, h.live]
                simp only [innerAt_set, List.length_set]
                constructor
                · rintro ⟨⟨o, ho⟩, hne⟩
                  by_cases ho' : o = src
                  · exact ⟨dst, by grind⟩
                  · exact ⟨o, by grind⟩
                · rintro ⟨o, ho⟩
                  by_cases ho' : o = dst
                  · exact ⟨⟨src, by grind⟩, by grind⟩
                  · exact ⟨⟨o, by grind⟩, by grind⟩
              · simp only [slotAlive_set, innerAt_set, List.length_set]; grind
              · simp
              · simp [slotAlive_set]; grind
              · simp
              · simp
    · simp at hs
  | drop o =>
    simp only [SWorld.step] at hs
    split at hs
    · simp at hs
    · rename_i x hx
      obtain ⟨h1, h2, h3, h4⟩ := slot_some hx
      have hinj := h.inj
      have halive := h.alive
      split at hs
      · rename_i hxi
        simp only [Except.ok.injEq, Prod.mk.injEq] at hs
        obtain ⟨rfl, rfl⟩ := hs
        refine h.assemble (by simpa using h.reach) (fun o e => ?_) ?_ (fun e => ?_) ?_ ?_ ?_ ?_ ?_
        · simp [SEntry.creates, SEntry.movesTo, SEntry.leaves, innerAt_set, Trace.events]
          grind
        · simp only [innerAt_set, List.length_set]; grind
        · simp only [List.append_nil]
          rw [h.live]
          simp only [innerAt_set, List.length_set]
          grind
        · simp only [slotAlive_set, innerAt_set, List.length_set]; grind
        · simp
        · simp [slotAlive_set]; grind
        · simp
        · simp; grind
      · rename_i e0 hxi
        split at hs
        · simp at hs
        · rename_i sw1 ev exn hlib
          simp only [Except.ok.injEq, Prod.mk.injEq] at hs
          obtain ⟨rfl, rfl⟩ := hs
          obtain ⟨w', hst, rfl, hd⟩ := lib_eq hlib
          have hl := live_destroy (tr := tr.flat) hst
          simp only at hst
          obtain ⟨b, rest, hev, hr⟩ := destroy_events hst
          refine h.assemble (h.reach.step hst) (fun o e => ?_) ?_ (fun e => ?_) ?_ ?_ ?_ ?_ ?_
          · simp [SEntry.creates, SEntry.movesTo, SEntry.leaves, innerAt_set]
            grind
          · simp only [innerAt_set, List.length_set]; grind
          · rw [hl, h.live]
            simp only [innerAt_set, List.length_set]
            grind
          · simp only [slotAlive_set, innerAt_set, List.length_set]; grind
          · simp
          · simp [slotAlive_set]; grind
          · simp
          · simp; grind
  | isSatisfied o =>
    simp only [SWorld.step] at hs
    split at hs
    · simp at hs
    · split at hs
      · simp at hs
      · split at hs
        · simp at hs
        · simp only [Except.ok.injEq, Prod.mk.injEq] at hs
          obtain ⟨rfl, rfl⟩ := hs
          refine h.assemble (by simpa using h.reach) (fun o e => ?_) h.inj (fun e => ?_) h.alive ?_ ?_ ?_ ?_
          · simp [SEntry.creates, SEntry.movesTo, SEntry.leaves, Trace.events]
          · simp [h.live]
          · simp
          · simp
          · simp
          · simp

theorem SReach.inv {tr : STrace α} {sw : SWorld α} (h : SReach tr sw) : SInv tr sw := by
  induction h with
  | init => exact .init
  | step _ hs ih => exact ih.step hs

/-! ### Single operations -/

theorem destroy_valid {tr : Trace α} {w : World α} (h : Reach tr w) {e : Nat} :
    tr.live e ↔ ∃ w' ev, w.step (.destroy e) = .ok (w', ev) := by
  obtain ⟨h1, h2, h3⟩ := C17_progress h (.destroy e)
  constructor
  · intro hl
    exact h1 hl (by simp [Trace.overflows])
  · rintro ⟨w', ev, hs⟩
    apply Classical.byContradiction
    intro hn
    obtain ⟨why, hw⟩ := h3 hn
    rw [hs] at hw
    simp at hw

theorem satisfied_iff {tr : Trace α} {w : World α} (h : Reach tr w) {e : Nat} (hl : tr.live e) :
    ∃ x, w.deref e = .ok x ∧ (x.isSatisfied = true ↔ ¬ tr.unmet e) := by
  obtain ⟨w', ev, hs⟩ := (destroy_valid h).mp hl
  obtain ⟨rest, hr, hcase⟩ := destroy_report h hs
  have hm : Event.unfulfilled e ∉ rest := fun hc => by simpa [seqEvent] using hr _ hc
  simp only [World.step, World.destroyExp, bind, Except.bind, pure, Except.pure, check] at hs
  split at hs
  · simp at hs
  · rename_i x hx
    split at hs
    · simp at hs
    · rename_i ha
      split at hs
      · simp at hs
      · split at hs
        · simp at hs
        · split at hs
          · simp at hs
          · rename_i r hr'
            simp only [Except.ok.injEq, Prod.mk.injEq] at hs
            obtain ⟨_, hev⟩ := hs
            refine ⟨x, by simp at ha; simp [World.deref, hx, ha], ?_⟩
            have hm2 : Event.unfulfilled e ∉ r.2 := fun hc => by simpa [seqEvent] using (releaseAll_events hr').2 _ hc
            have : Event.unfulfilled e ∈ ev ↔ x.isSatisfied = false := by
              rw [← hev]
              cases x.isSatisfied <;> simp [hm2]
            rcases hcase with ⟨hu, rfl⟩ | ⟨hu, rfl⟩
            · simp at this
              simp [this, hu]
            · simp [hm] at this
              simp [this, hu]

/-- How a reporter that follows the rules takes the end of an expectation. -/
theorem destroy_deliver {R : Reporter} (hR : R.Lawful) {tr : Trace α} {w w' : World α} (h : Reach tr w) {e : Nat}
    {ev : List Event} (hs : w.step (.destroy e) = .ok (w', ev)) (u : Nat) :
    (tr.unmet e → u = 0 → deliver R u none ev = .ok (some (.unfulfilled e))) ∧
    (0 < u → deliver R u none ev = .ok none) ∧
    (¬ tr.unmet e → u = 0 → sequenceErrorIn ev → ∃ why, deliver R u none ev = .error (.terminate why)) ∧
    (¬ tr.unmet e → ¬ sequenceErrorIn ev → deliver R u none ev = .ok none) := by
  obtain ⟨rest, hr, hcase⟩ := destroy_report h hs
  have hU := hR.unfulfilledExpectation u
  have hE : ∀ p, (R .error (uncaught u p)).throws = true ↔ uncaught u p = 0 := fun p => hR.error _
  rcases hcase with ⟨hu, rfl⟩ | ⟨hu, rfl⟩
  · refine ⟨fun _ h0 => ?_, fun h0 => ?_, fun hc => absurd hu hc, fun hc => absurd hu hc⟩
    · rw [hU.symm] at h0
      have h1 : deliver R u (some (.unfulfilled e)) rest = .ok (some (.unfulfilled e)) := by
        rcases deliver_seq (R := R) (u := u) (p := some (.unfulfilled e)) hr with ⟨_, h2, _⟩ | ⟨_, h2⟩
        · rw [hE] at h2; simp [uncaught] at h2
        · exact h2
      simp [deliver, deliverOne, Reporter.exn, uncaught, h0, h1]
    · have h2 : (R .unfulfilledExpectation u).throws = false := by
        cases ht : (R .unfulfilledExpectation u).throws with
        | false => rfl
        | true => have := hU.mp ht; omega
      have h1 : deliver R u none rest = .ok none := by
        rcases deliver_seq (R := R) (u := u) (p := none) hr with ⟨_, h2, _⟩ | ⟨_, h2⟩
        · rw [hE] at h2; simp [uncaught] at h2; omega
        · exact h2
      simp [deliver, deliverOne, Reporter.exn, uncaught, h2, h1]
  · have he : sequenceErrorIn (.destroyed e :: rest) ↔ sequenceErrorIn rest := by simp [sequenceErrorIn]
    have hd : deliver R u none (.destroyed e :: rest) = deliver R u none rest := rfl
    rw [he, hd]
    rcases deliver_seq (R := R) (u := u) (p := none) hr with ⟨h1, h2, h3⟩ | ⟨h1, h2⟩
    · rw [hE] at h2
      simp only [uncaught] at h2
      exact ⟨fun hc => absurd hc hu, fun h0 => by omega, fun _ _ _ => h3, fun _ hc => absurd h1 hc⟩
    · refine ⟨fun hc => absurd hc hu, fun _ => h2, fun _ h0 hse => ?_, fun _ _ => h2⟩
      exact absurd ⟨hse, (hE none).mpr h0⟩ h1

/-- What dropping the owner of `e` does. -/
theorem drop_owner {tr : STrace α} {sw : SWorld α} (h : SInv tr sw) {o e : Nat} (ho : innerAt sw.slots o = some e) (c : Ctx) :
    ∃ w' ev, sw.w.step (.destroy e) = .ok (w', ev) ∧
      sw.step c (.drop o) = (match deliver c.reporter c.uncaught none ev with
        | .error x => .error x
        | .ok exn => .ok ({ w := w', slots := sw.slots.set o ⟨none, false⟩ }, ⟨[(.destroy e, ev)], none, exn, none⟩)) := by
  obtain ⟨w', ev, hs⟩ := (destroy_valid h.reach).mp ((h.live e).mpr ⟨o, ho⟩)
  refine ⟨w', ev, hs, ?_⟩
  simp only [SWorld.step, slot_of_alive (h.alive o e ho), ho, SWorld.lib, hs]
  cases deliver c.reporter c.uncaught none ev <;> rfl

theorem drop_empty {sw : SWorld α} {o : Nat} (ho : innerAt sw.slots o = none)
    (ha : slotAlive sw.slots o) (c : Ctx) :
    sw.step c (.drop o) = .ok ({ sw with slots := sw.slots.set o ⟨none, false⟩ }, ⟨[], none, none, none⟩) := by
  simp only [SWorld.step, slot_of_alive ha, ho]

/-- What assigning over the owner of `e` does. -/
theorem assign_owner {tr : STrace α} {sw : SWorld α} (h : SInv tr sw) {o s e : Nat} (ho : innerAt sw.slots o = some e)
    (hs : slotAlive sw.slots s) (hne : o ≠ s) (c : Ctx) :
    ∃ w' ev sw', sw.w.step (.destroy e) = .ok (w', ev) ∧ sw'.w = w' ∧
      sw.step c (.moveAssign o s) = (match deliver c.reporter c.uncaught none ev with
        | .error x => .error x
        | .ok (some _) => .error (.terminate "unique_ptr::reset")
        | .ok none => .ok (sw', ⟨[(.destroy e, ev)], none, none, none⟩)) := by
  obtain ⟨w', ev, hst⟩ := (destroy_valid h.reach).mp ((h.live e).mpr ⟨o, ho⟩)
  refine ⟨w', ev, ⟨w', (sw.slots.set s ⟨none, true⟩).set o ⟨innerAt sw.slots s, true⟩⟩, hst, rfl, ?_⟩
  simp only [SWorld.step, slot_of_alive (h.alive o e ho), slot_of_alive hs, ho, SWorld.lib, hst, if_neg hne]
  cases deliver c.reporter c.uncaught none ev with
  | error x => rfl
  | ok exn => cases exn <;> rfl

end Mimic
