import Verif.Proofs.Whole
import Verif.Spec.Steady

/-!
# Proofs: which numbers of calls make a difference
-/

set_option autoImplicit false

namespace Mimic.Steady

open Mimic.Whole

variable {α : Type}

namespace Akin

variable {tr tr' : Trace α}

theorem symm (h : Akin tr tr') : Akin tr' tr :=
  ⟨fun e => (h.declared e).symm, fun e => (h.inForce e).symm, fun m => (h.mocks m).symm, fun s st => (h.kinds s st).symm,
   fun s => (h.handles s).symm, fun e => (h.unused e).symm, fun e => (h.tooFew e).symm,
   fun e d hd => (h.room e d (by rw [h.declared]; exact hd)).symm⟩

variable (h : Akin tr tr')
include h

theorem decl : tr.decl = tr'.decl := funext h.declared

theorem attached : tr.attached = tr'.attached := by
  funext e s
  unfold Trace.attached
  rw [h.declared e]

theorem accepts (m : Nat) (a : α) : tr.accepts m a = tr'.accepts m a := by
  funext e
  unfold Trace.accepts
  rw [h.declared e, propext (h.inForce e)]

theorem throws (m : Nat) (a : α) : tr.throws m a = tr'.throws m a := by
  funext e
  unfold Trace.throws
  rw [h.declared e, propext (h.inForce e)]

theorem few : tr.tooFew = tr'.tooFew := funext fun e => propext (h.tooFew e)

theorem live : tr.live = tr'.live := funext fun e => propext (h.inForce e)

theorem handle : tr.handle = tr'.handle := funext fun e => propext (h.handles e)

theorem turn : tr.turn = tr'.turn := by
  funext e s
  unfold Trace.turn
  simp only [h.attached, h.few, h.unused]

theorem candidate (m : Nat) (a : α) : tr.candidate m a = tr'.candidate m a := by
  funext e
  unfold Trace.candidate Trace.applicable
  rw [h.accepts, h.attached, h.turn]
  have : (∃ d, tr.decl e = some d ∧ (tr.matched e : Int) < d.max) ↔ ∃ d, tr'.decl e = some d ∧ (tr'.matched e : Int) < d.max := by
    refine exists_congr fun d => ?_
    rw [h.declared e]
    refine and_congr_right fun hd => h.room e d ?_
    rw [h.declared e]
    exact hd
  rw [propext this]

theorem kindCount : tr.kindCount = tr'.kindCount := by
  funext ss st
  unfold Trace.kindCount
  apply List.countP_congr
  intro s _
  have := h.kinds s st
  unfold Trace.kind at this
  simp [this]

theorem givesWay : tr.givesWay = tr'.givesWay := by
  funext x y
  unfold Trace.givesWay
  rw [h.decl, h.attached, h.kindCount]

theorem chosen {x r : Nat} {ys : List Nat} (hc : tr.Chosen x ys r) : tr'.Chosen x ys r := by
  induction hc with
  | done x => exact .done x
  | move h1 _ ih => exact .move (by rw [← h.givesWay]; exact h1) ih
  | stay h1 _ ih => exact .stay (by rw [← h.givesWay]; exact h1) ih

theorem outcome {m : Nat} {a : α} {x : Event} (ho : Whole.Outcome tr m a x) : Whole.Outcome tr' m a x := by
  cases ho with
  | resolved h1 h2 => exact .resolved (by rw [← h.candidate]; exact h1) (h.chosen h2)
  | inapplicable h1 h2 => exact .inapplicable (by rw [← h.candidate]; exact h1) (by rw [← h.accepts]; exact h2)
  | noMatch h1 h2 => exact .noMatch (by rw [← h.accepts]; exact h1) (by rw [← h.throws, ← h.live, ← h.decl]; exact h2)

theorem endOf {s : Nat} {ev : List Event} (he : EndOf tr s ev) : EndOf tr' s ev := by
  cases he with
  | fine h1 => exact .fine (by rw [← h.attached, ← h.few]; exact h1)
  | missing h1 h2 h3 h4 => exact .missing (by rw [← h.attached]; exact h1) h2 (by rw [← h.few]; exact h3) (by rw [← h.few]; exact h4)

theorem ends {kept : Nat → Prop} {ss : List Nat} {ev : List Event} (he : Ends tr kept ss ev) : Ends tr' kept ss ev := by
  induction he with
  | nil => exact .nil
  | keep h1 _ ih => exact .keep h1 ih
  | gone h1 h2 _ ih => exact .gone h1 (h.endOf h2) ih

theorem dissatisfied : Whole.dissatisfied tr = Whole.dissatisfied tr' := by
  funext e
  unfold Whole.dissatisfied
  rw [h.decl]

theorem valid {op : Op α} (hv : tr.valid op) : tr'.valid op := by
  cases op with
  | newSequence | newMock => trivial
  | dropSequence s => exact (h.handles s).1 hv
  | expect m min max ss ps => exact ⟨(h.mocks m).1 hv.1, fun s hs => (h.handles s).1 (hv.2.1 s hs), hv.2.2⟩
  | call m a => exact (h.mocks m).1 hv
  | destroy e => exact (h.inForce e).1 hv

theorem overflows {op : Op α} (hv : tr'.overflows op) : tr.overflows op := by
  cases op with
  | expect m min max ss ps =>
    unfold Trace.overflows Trace.atCapacity at hv ⊢
    rw [h.attached]
    exact hv
  | _ => exact hv

theorem prescribed {op : Op α} {ev : List Event} (hp : Prescribed tr op ev) : Prescribed tr' op ev := by
  cases hp with
  | newSequence hn => exact .newSequence (by simpa only [NextNumber, h.kinds] using hn)
  | newMock hn => exact .newMock (by simpa only [NextNumber, h.mocks] using hn)
  | created h1 h2 h3 hn => exact .created h1 h2 h3 (by rw [← h.decl]; exact hn)
  | rejected h1 => exact .rejected h1
  | call h1 h2 => exact .call (by rw [← h.throws]; exact h1) (h.outcome h2)
  | drop h1 => exact .drop (by rw [← h.attached, ← h.live]; exact h.ends h1)
  | fulfilled h1 h2 h3 =>
    exact .fulfilled (by rw [← h.decl]; exact h1) (by rw [← h.few, ← h.dissatisfied]; exact h2)
      (by rw [← h.attached, ← h.live, ← h.handle]; exact h.ends h3)
  | unfulfilled h1 h2 h3 =>
    exact .unfulfilled (by rw [← h.decl]; exact h1) (by rw [← h.few, ← h.dissatisfied]; exact h2)
      (by rw [← h.attached, ← h.live, ← h.handle]; exact h.ends h3)

theorem next {op : Op α} {ev : List Event} (hl : Lawful tr') (hn : Lawful (tr ++ [(op, ev)])) : Lawful (tr' ++ [(op, ev)]) := by
  obtain ⟨-, h1, h2, h3⟩ := lawful_snoc.mp hn
  exact lawful_snoc.mpr ⟨hl, h.valid h1, fun hv => h2 (h.overflows hv), h.prescribed h3⟩

end Akin

/-! ## Situations that differ in numbers only -/

theorem undeclared {tr : Trace α} {w : World α} (h : Reach tr w) {e : Nat} (hd : tr.decl e = none) :
    Event.destroyed e ∉ tr.events ∧ tr.matched e = 0 := by
  have v := h.view.2
  have : (abs w).exps.length ≤ e := by
    have := v.exps e
    rw [hd, Option.map_none, List.getElem?_eq_none_iff] at this
    exact this
  obtain ⟨-, h1, h2⟩ := v.fresh e this
  exact ⟨h2, List.count_eq_zero_of_not_mem h1⟩

theorem unknown {tr : Trace α} {w : World α} (h : Reach tr w) {s : Nat} (hk : ∀ st, ¬ tr.kind s st) (ev : List Event) :
    (Op.dropSequence s, ev) ∉ tr := by
  have v := h.view.2
  by_cases hs : (abs w).seqs.length ≤ s
  · exact (v.freshSeq s hs).2 ev
  · have hs' : s < (abs w).seqs.length := by omega
    obtain ⟨h1, -⟩ := v.seqs s _ (List.getElem?_eq_getElem hs')
    exact absurd ((h1 _).2 rfl) (hk _)

theorem Enough.symm {tr tr' rest : Trace α} (h : Enough tr tr' rest) : Enough tr' tr rest :=
  ⟨fun e => (h.declared e).symm, fun e => (h.inForce e).symm, fun m => (h.mocks m).symm, fun s st => (h.kinds s st).symm,
   fun s => (h.handles s).symm, fun e => (h.counts e).elim (fun h1 => .inl h1.symm) (fun h1 => .inr ⟨h1.2, h1.1⟩)⟩

theorem Enough.akin {tr tr' rest : Trace α} (h : Enough tr tr' rest) : Akin tr tr' := by
  refine ⟨h.declared, h.inForce, h.mocks, h.kinds, h.handles, fun e => ?_, fun e => ?_, fun e d hd => ?_⟩
  · rcases h.counts e with h1 | ⟨h1, h2⟩
    · rw [h1]
    · have := h1.1
      have := h2.1
      omega
  · unfold Trace.tooFew
    rw [h.declared e]
    refine exists_congr fun d => and_congr_right fun hd => ?_
    rcases h.counts e with h1 | ⟨⟨-, d1, h1, h2, -⟩, ⟨-, d2, h3, h4, -⟩⟩
    · rw [h1]
    · rw [h.declared e, hd] at h1
      rw [hd] at h3
      cases h1
      cases h3
      omega
  · rcases h.counts e with h1 | ⟨⟨-, d1, h1, -, h2⟩, ⟨-, d2, h3, -, h4⟩⟩
    · rw [h1]
    · rw [← h.declared e] at h3
      rw [hd] at h1 h3
      cases h1
      cases h3
      omega

theorem matched_cons (op : Op α) (ev : List Event) (rest : Trace α) (e : Nat) :
    Trace.matched ((op, ev) :: rest) e = ev.count (.fullMatch e) + rest.matched e := by
  simp [Trace.matched, Trace.events, List.count_append]

theorem Settled.snoc {tr rest : Trace α} {op : Op α} {ev : List Event} {e : Nat} (h : Settled tr e (Trace.matched ((op, ev) :: rest) e)) :
    Settled (tr ++ [(op, ev)]) e (rest.matched e) := by
  obtain ⟨h1, d, h2, h3, h4⟩ := h
  rw [matched_cons] at h4
  refine ⟨by rw [matched_snoc]; omega, d, by rw [decl_snoc, h2]; rfl, by rw [matched_snoc]; omega, by rw [matched_snoc]; omega⟩

theorem Enough.snoc {tr tr' rest : Trace α} {w w' : World α} (hr : Reach tr w) (hr' : Reach tr' w') {op : Op α} {ev : List Event}
    (h : Enough tr tr' ((op, ev) :: rest)) : Enough (tr ++ [(op, ev)]) (tr' ++ [(op, ev)]) rest := by
  refine ⟨fun e => ?_, fun e => ?_, fun m => ?_, fun s st => ?_, fun s => ?_, fun e => ?_⟩
  · rw [decl_snoc, decl_snoc, h.declared e]
  · have hl := h.inForce e
    unfold Trace.live at hl ⊢
    rw [decl_snoc, decl_snoc, events_snoc, events_snoc, h.declared e]
    apply and_congr_right
    intro _
    rw [h.declared e] at hl
    simp only [List.mem_append, not_or]
    apply and_congr_left
    intro _
    cases hd : tr'.decl e with
    | some d => simpa [hd] using hl
    | none =>
      have h1 := (undeclared hr (by rw [h.declared e]; exact hd)).1
      have h2 := (undeclared hr' hd).1
      simp [h1, h2]
  · rw [events_snoc, events_snoc, List.mem_append, List.mem_append, h.mocks m]
  · have := h.kinds s st
    unfold Trace.kind at this ⊢
    rw [events_snoc, events_snoc, List.mem_append, List.mem_append, this]
  · have hk : ∀ st, Trace.kind (tr ++ [(op, ev)]) s st ↔ Trace.kind (tr' ++ [(op, ev)]) s st := by
      intro st
      have := h.kinds s st
      unfold Trace.kind at this ⊢
      rw [events_snoc, events_snoc, List.mem_append, List.mem_append, this]
    have hh := h.handles s
    unfold Trace.handle at hh ⊢
    simp only [hk, List.mem_append, not_or]
    apply and_congr_right
    intro _
    have hdrop : (∀ ev, (Op.dropSequence s, ev) ∉ tr) ↔ ∀ ev, (Op.dropSequence s, ev) ∉ tr' := by
      by_cases hs : ∃ st, tr.kind s st
      · have hs' : ∃ st, tr'.kind s st := by simpa only [h.kinds] using hs
        simpa [hs, hs'] using hh
      · have h1 := unknown hr (not_exists.mp hs)
        have h2 := unknown hr' (s := s) (fun st hst => hs ⟨st, (h.kinds s st).2 hst⟩)
        exact ⟨fun _ => h2, fun _ => h1⟩
    exact ⟨fun hx ev => ⟨hdrop.1 (fun ev => (hx ev).1) ev, (hx ev).2⟩, fun hx ev => ⟨hdrop.2 (fun ev => (hx ev).1) ev, (hx ev).2⟩⟩
  · rcases h.counts e with h1 | ⟨h1, h2⟩
    · left
      rw [matched_snoc, matched_snoc, h1]
    · exact .inr ⟨h1.snoc, h2.snoc⟩

theorem future (rest : Trace α) : ∀ {tr tr' : Trace α} {w' : World α}, Reach tr' w' → Enough tr tr' rest → Lawful (tr ++ rest) →
    Lawful (tr' ++ rest) := by
  induction rest with
  | nil => intro tr tr' w' h' _ _; rw [List.append_nil]; exact reach_lawful h'
  | cons st rest ih =>
    obtain ⟨op, ev⟩ := st
    intro tr tr' w' h' he hl
    have e1 : ∀ t : Trace α, t ++ (op, ev) :: rest = (t ++ [(op, ev)]) ++ rest := by simp
    rw [e1] at hl ⊢
    obtain ⟨w, h⟩ := lawful_reach (lawful_prefix (lawful_prefix hl))
    have hn := he.akin.next (reach_lawful h') (lawful_prefix hl)
    obtain ⟨v, hv⟩ := lawful_reach hn
    exact ih hv (he.snoc h h') hl

/-! ## Calls that are left out or repeated -/

/-- A call changes nothing but one number. -/
theorem call_snoc {tr : Trace α} {m : Nat} {a : α} {ev : List Event} {e : Nat} (hl : Lawful (tr ++ [(Op.call m a, ev)]))
    (he : Event.fullMatch e ∈ ev) :
    (∀ x, Trace.decl (tr ++ [(Op.call m a, ev)]) x = tr.decl x) ∧ (∀ x, Event.destroyed x ∉ ev) ∧ (∀ x, Event.mockCreated x ∉ ev) ∧
    (∀ s st, Event.sequenceCreated s st ∉ ev) ∧ ∀ x, ev.count (.fullMatch x) = if x = e then 1 else 0 := by
  have hp := (lawful_snoc.mp hl).2.2.2
  cases hp with
  | @call _ _ us last h1 h2 =>
    have hlast : last = .fullMatch e := by
      rcases List.mem_append.mp he with he | he
      · simp at he
      · exact (List.mem_singleton.mp he).symm
    subst hlast
    refine ⟨fun x => decl_snoc_none rfl, by simp, by simp, by simp, fun x => ?_⟩
    rw [List.count_append, List.count_eq_zero_of_not_mem (by simp), List.count_singleton]
    by_cases hx : x = e
    · simp [hx]
    · simp [hx, Ne.symm hx]

theorem calls_same {tr : Trace α} {m : Nat} {a : α} {ev : List Event} {e : Nat} (hl : Lawful (tr ++ [(Op.call m a, ev)]))
    (he : Event.fullMatch e ∈ ev) (n : Nat) :
    (∀ x, Trace.decl (tr ++ List.replicate n (Op.call m a, ev)) x = tr.decl x) ∧
    (∀ x, Trace.live (tr ++ List.replicate n (Op.call m a, ev)) x ↔ tr.live x) ∧
    (∀ x, Event.mockCreated x ∈ Trace.events (tr ++ List.replicate n (Op.call m a, ev)) ↔ Event.mockCreated x ∈ tr.events) ∧
    (∀ s st, Trace.kind (tr ++ List.replicate n (Op.call m a, ev)) s st ↔ tr.kind s st) ∧
    (∀ s, Trace.handle (tr ++ List.replicate n (Op.call m a, ev)) s ↔ tr.handle s) ∧
    ∀ x, Trace.matched (tr ++ List.replicate n (Op.call m a, ev)) x = tr.matched x + if x = e then n else 0 := by
  obtain ⟨-, h2, h3, h4, h5⟩ := call_snoc hl he
  induction n with
  | zero => simp
  | succ n ih =>
    obtain ⟨i1, i2, i3, i4, i5, i6⟩ := ih
    have e1 : tr ++ List.replicate (n + 1) (Op.call m a, ev) = (tr ++ List.replicate n (Op.call m a, ev)) ++ [(Op.call m a, ev)] := by
      rw [List.replicate_succ', List.append_assoc]
    rw [e1]
    have hk : ∀ s st, Trace.kind (tr ++ List.replicate n (Op.call m a, ev) ++ [(Op.call m a, ev)]) s st ↔ tr.kind s st := by
      intro s st
      rw [← i4]
      unfold Trace.kind
      rw [events_snoc, List.mem_append]
      simp [h4]
    refine ⟨fun x => by rw [decl_snoc_none rfl, i1], fun x => ?_, fun x => ?_, hk, fun s => ?_, fun x => ?_⟩
    · rw [← i2]
      unfold Trace.live
      rw [decl_snoc_none rfl, events_snoc, List.mem_append]
      simp [h2]
    · rw [← i3, events_snoc, List.mem_append]
      simp [h3]
    · rw [← i5]
      unfold Trace.handle
      simp only [hk, i4, List.mem_append, List.mem_singleton, Prod.mk.injEq, reduceCtorEq, false_and, or_false]
    · rw [matched_snoc, i6, h5]
      split <;> omega

end Mimic.Steady
