import Verif.Proofs.Bystander
import Verif.Spec.Redundant

/-!
# Proofs: tests without one of their sequences
-/

set_option autoImplicit false

namespace Mimic.Redundant

open Mimic.Unused (down thin down_inj mem_thin thin_cons thin_same)
open Mimic.Bystander (decl_split up up_ne down_up down_lt forall_down exists_down next_down Ends.plain)
open Mimic.Whole

variable {α : Type}

theorem without_snoc (t : Nat) (tr : Trace α) (st : Op α × List Event) : without t (tr ++ [st]) = without t tr ++ (left t st).toList := by
  unfold without
  rw [List.filterMap_append]
  cases h : left t st <;> simp [h]

/-! ## Candidates -/

theorem bound_created (l : List Event) : ∃ N, ∀ e, Event.created e ∈ l → e < N := by
  induction l with
  | nil => exact ⟨0, by simp⟩
  | cons x l ih =>
    obtain ⟨N, hN⟩ := ih
    cases x with
    | created k =>
      refine ⟨N + k + 1, fun e he => ?_⟩
      rcases List.mem_cons.mp he with he | he
      · cases he; omega
      · have := hN e he; omega
    | _ => exact ⟨N, fun e he => hN e (by simpa using he)⟩

theorem list_candidates {tr : Trace α} (t m : Nat) (a : α) : ∃ ns, YoungestFirst (candidateWithout tr t m a) ns := by
  classical
  obtain ⟨N, hN⟩ := bound_created tr.events
  refine ⟨(List.range N).reverse.filter (fun e => decide (candidateWithout tr t m a e)), ?_, fun e => ?_⟩
  · apply List.Pairwise.filter
    rw [List.pairwise_reverse]
    exact List.pairwise_lt_range
  · simp only [List.mem_filter, List.mem_reverse, List.mem_range, decide_eq_true_eq, and_iff_right_iff_imp]
    rintro ⟨⟨⟨⟨d, hd⟩, -⟩, -⟩, -⟩
    apply hN
    obtain ⟨pre, ev, post, htr, he⟩ := decl_split hd
    rw [htr]
    simp only [Trace.events, List.flatMap_append, List.flatMap_cons, List.mem_append]
    exact .inr (.inl he)

theorem candidate_without {tr : Trace α} {t m : Nat} {a : α} {e : Nat} (h : tr.candidate m a e) : candidateWithout tr t m a e :=
  ⟨h.1, h.2.1, fun s _ hs => h.2.2 s hs⟩

theorem Covered.candidate {tr : Trace α} {t : Nat} (hc : Covered tr t) (m : Nat) (a : α) : candidateWithout tr t m a = tr.candidate m a := by
  funext e
  refine propext ⟨fun ⟨h1, h2, h3⟩ => ⟨h1, h2, fun s hs => ?_⟩, candidate_without⟩
  by_cases hst : s = t
  · subst hst
    constructor
    · intro j hj ha
      obtain ⟨u, hu, h4, h5⟩ := hc e j (by omega) hs ha
      exact (h3 u hu h4).1 j hj h5
    · intro j hj ha
      obtain ⟨u, hu, h4, h5⟩ := hc e j (by omega) hs ha
      exact (h3 u hu h4).2 j hj h5
  · exact h3 s hst hs

/-! ## Observations -/

/-- Observations that name no sequence. -/
def plain : Event → Bool
  | .sequenceCreated _ _ => false
  | .sequenceDestroyed _ => false
  | .sequenceError _ _ _ => false
  | _ => true

theorem event_plain {x : Event} (h : plain x = true) (t : Nat) : event t x = some x := by
  cases x <;> first | rfl | cases h

theorem plain_of_event {t : Nat} {x y : Event} (h : event t y = some x) (hx : plain x = true) : y = x := by
  cases y with
  | sequenceCreated => simp only [event] at h; split at h <;> cases h; cases hx
  | sequenceDestroyed => simp only [event] at h; split at h <;> cases h; cases hx
  | sequenceError => simp only [event] at h; split at h <;> cases h; cases hx
  | _ => exact Option.some.inj h

theorem mem_plain {t : Nat} {x : Event} (hx : plain x = true) (ev : List Event) : x ∈ ev.filterMap (event t) ↔ x ∈ ev := by
  rw [List.mem_filterMap]
  constructor
  · rintro ⟨y, hy, h⟩
    rw [← plain_of_event h hx]
    exact hy
  · intro h
    exact ⟨x, h, event_plain hx t⟩

theorem count_plain {t : Nat} {x : Event} (hx : plain x = true) (ev : List Event) : (ev.filterMap (event t)).count x = ev.count x := by
  induction ev with
  | nil => rfl
  | cons y ev ih =>
    cases hz : event t y with
    | none =>
      have : y ≠ x := by
        rintro rfl
        rw [event_plain hx] at hz
        cases hz
      rw [List.filterMap_cons_none hz, ih, List.count_cons_of_ne this]
    | some z =>
      rw [List.filterMap_cons_some hz, List.count_cons, List.count_cons, ih]
      congr 1
      by_cases hy : y = x
      · subst hy
        rw [event_plain hx] at hz
        cases hz
        rfl
      · have : z ≠ x := by
          rintro rfl
          exact hy (plain_of_event hz hx)
        simp [hy, this]

theorem mem_sequence {t s : Nat} (hs : s ≠ t) (st : Strategy) (ev : List Event) :
    Event.sequenceCreated (down t s) st ∈ ev.filterMap (event t) ↔ Event.sequenceCreated s st ∈ ev := by
  rw [List.mem_filterMap]
  constructor
  · rintro ⟨y, hy, h⟩
    cases y with
    | sequenceCreated k st' =>
      simp only [event] at h
      split at h
      · cases h
      · rename_i hk
        simp only [Option.some.injEq, Event.sequenceCreated.injEq] at h
        rw [(down_inj hk hs).1 h.1, h.2] at hy
        exact hy
    | sequenceDestroyed => simp only [event] at h; split at h <;> cases h
    | sequenceError => simp only [event] at h; split at h <;> cases h
    | _ => cases h
  · intro h
    exact ⟨_, h, by simp [event, hs]⟩

theorem filterMap_plain {t : Nat} {ev : List Event} (h : ∀ x ∈ ev, plain x = true) : ev.filterMap (event t) = ev := by
  induction ev with
  | nil => rfl
  | cons x ev ih =>
    rw [List.filterMap_cons_some (event_plain (h x (by simp)) t), ih (fun y hy => h y (by simp [hy]))]

/-! ## The history without `t` -/

/-- What an expectation is declared with if there is no sequence `t`. -/
def declaration (t : Nat) (d : Decl α) : Decl α := { d with seqs := thin t d.seqs }

/-- Everything but `t` is the same in both histories. -/
structure Same (t : Nat) (tr T : Trace α) : Prop where
  decl : ∀ n, T.decl n = (tr.decl n).map (declaration t)
  matched : ∀ n, T.matched n = tr.matched n
  gone : ∀ n, Event.destroyed n ∈ T.events ↔ Event.destroyed n ∈ tr.events
  mocks : ∀ m, Event.mockCreated m ∈ T.events ↔ Event.mockCreated m ∈ tr.events
  kind : ∀ s st, s ≠ t → (T.kind (down t s) st ↔ tr.kind s st)
  dropped : ∀ s, s ≠ t → ((∃ ev, (Op.dropSequence (down t s), ev) ∈ T) ↔ ∃ ev, (Op.dropSequence s, ev) ∈ tr)

theorem Same.nil (t : Nat) : Same t ([] : Trace α) [] := by
  constructor <;> simp [Trace.decl, Trace.matched, Trace.events, Trace.kind]

theorem Same.snoc {t : Nat} {tr T : Trace α} (h : Same t tr T) {o o' : Op α} {ev : List Event} (ho : op t o = some o') :
    Same t (tr ++ [(o, ev)]) (T ++ [(o', ev.filterMap (event t))]) where
  decl n := by
    rw [decl_snoc, decl_snoc, h.decl n]
    have : declStep n o' (ev.filterMap (event t)) = (declStep n o ev).map (declaration t) := by
      cases o <;> simp only [op, Option.some.injEq] at ho
      case expect =>
        subst ho
        simp only [declStep, mem_plain (t := t) (x := .created n) rfl]
        split <;> rfl
      case dropSequence =>
        split at ho
        · cases ho
        · cases ho; rfl
      all_goals (subst ho; rfl)
    rw [this]
    cases tr.decl n <;> rfl
  matched n := by rw [matched_snoc, matched_snoc, h.matched n, count_plain rfl]
  gone n := by rw [events_snoc, events_snoc, List.mem_append, List.mem_append, h.gone n, mem_plain rfl]
  mocks m := by rw [events_snoc, events_snoc, List.mem_append, List.mem_append, h.mocks m, mem_plain rfl]
  kind s st hs := by
    have := h.kind s st hs
    unfold Trace.kind at this ⊢
    rw [events_snoc, events_snoc, List.mem_append, List.mem_append, this, mem_sequence hs]
  dropped s hs := by
    have := h.dropped s hs
    simp only [List.mem_append, exists_or, this, List.mem_singleton, Prod.mk.injEq]
    apply or_congr Iff.rfl
    cases o <;> simp only [op, Option.some.injEq] at ho
    case dropSequence k =>
      split at ho
      · cases ho
      · rename_i hk
        cases ho
        simp [down_inj hs hk]
    all_goals (subst ho; simp)

theorem Same.skip {t : Nat} {tr T : Trace α} (h : Same t tr T) {o : Op α} {ev : List Event} (h1 : ∀ n, declStep n o ev = none)
    (h2 : ∀ x ∈ ev, plain x = false) (h5 : ∀ s st, s ≠ t → Event.sequenceCreated s st ∉ ev) (h6 : ∀ s, s ≠ t → o ≠ .dropSequence s) :
    Same t (tr ++ [(o, ev)]) T where
  decl n := by rw [decl_snoc_none (h1 n), h.decl n]
  matched n := by
    rw [matched_snoc, h.matched n, List.count_eq_zero_of_not_mem (fun hc => by have := h2 _ hc; cases this), Nat.add_zero]
  gone n := by
    rw [events_snoc, List.mem_append, h.gone n]
    have : Event.destroyed n ∉ ev := fun hc => by have := h2 _ hc; cases this
    simp [this]
  mocks m := by
    rw [events_snoc, List.mem_append, h.mocks m]
    have : Event.mockCreated m ∉ ev := fun hc => by have := h2 _ hc; cases this
    simp [this]
  kind s st hs := by
    have := h.kind s st hs
    unfold Trace.kind at this ⊢
    rw [events_snoc, List.mem_append, this]
    simp [h5 s st hs]
  dropped s hs := by
    rw [h.dropped s hs]
    simp only [List.mem_append, exists_or, List.mem_singleton, Prod.mk.injEq]
    simp [Ne.symm (h6 s hs)]

/-! ## The words of the rules -/

section Words

variable {t : Nat} {tr T : Trace α} (h : Same t tr T)

include h

theorem Same.live (n : Nat) : T.live n ↔ tr.live n := by
  unfold Trace.live
  rw [h.decl n, h.gone n]
  cases tr.decl n <;> simp

theorem Same.attached (n : Nat) {s : Nat} (hs : s ≠ t) : T.attached n (down t s) ↔ tr.attached n s := by
  unfold Trace.attached
  rw [h.decl n]
  cases tr.decl n with
  | none => simp
  | some d => simp [declaration, mem_thin hs]

theorem Same.handle {s : Nat} (hs : s ≠ t) : T.handle (down t s) ↔ tr.handle s := by
  unfold Trace.handle
  have := h.dropped s hs
  simp only [fun st => h.kind s st hs]
  grind

theorem Same.tooFew (n : Nat) : T.tooFew n ↔ tr.tooFew n := by
  unfold Trace.tooFew
  rw [h.decl n, h.matched n]
  cases tr.decl n <;> simp [declaration]

theorem Same.accepts (m : Nat) (a : α) (n : Nat) : T.accepts m a n ↔ tr.accepts m a n := by
  unfold Trace.accepts
  rw [h.live n, h.decl n]
  cases tr.decl n <;> simp [declaration]

theorem Same.throws (m : Nat) (a : α) (n : Nat) : T.throws m a n ↔ tr.throws m a n := by
  unfold Trace.throws
  rw [h.live n, h.decl n]
  cases tr.decl n <;> simp [declaration]

theorem Same.dissatisfied (n : Nat) : dissatisfied T n ↔ dissatisfied tr n := by
  unfold Whole.dissatisfied
  rw [h.decl n]
  cases tr.decl n <;> simp [declaration]

theorem Same.turn (n : Nat) {s : Nat} (hs : s ≠ t) : T.turn n (down t s) ↔ tr.turn n s := by
  unfold Trace.turn
  simp only [fun k => h.attached k hs, h.tooFew, h.matched]

theorem Same.candidate (m : Nat) (a : α) (n : Nat) : T.candidate m a n ↔ candidateWithout tr t m a n := by
  unfold Trace.candidate Trace.applicable candidateWithout
  rw [h.accepts m a n, h.decl n, h.matched n]
  have h1 : (∃ d, (tr.decl n).map (declaration t) = some d ∧ (tr.matched n : Int) < d.max) ↔
      ∃ d, tr.decl n = some d ∧ (tr.matched n : Int) < d.max := by cases tr.decl n <;> simp [declaration]
  rw [h1]
  apply and_congr Iff.rfl
  apply and_congr Iff.rfl
  rw [forall_down (e := t)]
  constructor
  · exact fun h2 k hkt hk => (h.turn n hkt).1 (h2 k hkt ((h.attached n hkt).2 hk))
  · exact fun h2 k hkt hk => (h.turn n hkt).2 (h2 k hkt ((h.attached n hkt).1 hk))

theorem Same.kindCount (ss : List Nat) (st : Strategy) : T.kindCount (thin t ss) st = tr.kindCount (ss.filter (· ≠ t)) st := by
  unfold Trace.kindCount thin
  rw [List.countP_map]
  apply List.countP_congr
  intro s hs
  rw [List.mem_filter] at hs
  have := h.kind s st (by simpa using hs.2)
  unfold Trace.kind at this
  simp [this]

theorem Same.givesWay (x y : Nat) : T.givesWay x y ↔ givesWayWithout tr t x y := by
  unfold Trace.givesWay givesWayWithout
  rw [h.decl x]
  cases tr.decl x with
  | none => simp
  | some d =>
    simp only [Option.map_some, Option.some.injEq, exists_eq_left', declaration, h.kindCount]
    apply and_congr _ Iff.rfl
    rw [forall_down (e := t)]
    constructor
    · intro h1 s hs hst
      exact (h.attached y hst).1 (h1 s hst ((mem_thin hst d.seqs).2 hs))
    · intro h1 s hst hs
      exact (h.attached y hst).2 (h1 s ((mem_thin hst d.seqs).1 hs) hst)

theorem Same.chosen {x r : Nat} {ys : List Nat} : T.Chosen x ys r ↔ ChosenWithout tr t x ys r := by
  constructor
  · intro hc
    induction hc with
    | done x => exact .done _
    | move hg _ ih => exact .move ((h.givesWay _ _).1 hg) ih
    | stay hg _ ih => exact .stay (fun hw => hg ((h.givesWay _ _).2 hw)) ih
  · intro hc
    induction hc with
    | done x => exact .done _
    | move hg _ ih => exact .move ((h.givesWay _ _).2 hg) ih
    | stay hg _ ih => exact .stay (fun hw => hg ((h.givesWay _ _).1 hw)) ih

theorem Same.outcome {m : Nat} {a : α} {last : Event} (ho : Whole.Outcome tr m a last)
    (hw : ∀ x older r, YoungestFirst (candidateWithout tr t m a) (x :: older) → last = .fullMatch r → ChosenWithout tr t x older r)
    (hn : (∀ r, last ≠ .fullMatch r) → ∀ e, ¬ candidateWithout tr t m a e) :
    Whole.Outcome T m a last := by
  have hc : T.candidate m a = candidateWithout tr t m a := funext fun n => propext (h.candidate m a n)
  have hac : T.accepts m a = tr.accepts m a := funext fun n => propext (h.accepts m a n)
  cases ho with
  | @resolved x r older h1 h2 =>
    obtain ⟨ns, hns⟩ := list_candidates (tr := tr) t m a
    have hx : x ∈ ns := (hns.2 x).2 (candidate_without ((h1.2 x).1 (by simp)))
    cases ns with
    | nil => simp at hx
    | cons y ys => exact .resolved (by rw [hc]; exact hns) (h.chosen.2 (hw _ _ _ hns rfl))
  | inapplicable h1 h2 => exact .inapplicable (by rw [hc]; exact hn (by simp)) (by rw [hac]; exact h2)
  | noMatch h1 h2 =>
    refine .noMatch (by rw [hac]; exact h1) ⟨h2.1, fun n => ?_⟩
    rw [h2.2 n]
    dsimp only
    rw [h.live n, h.throws m a n, h.decl n]
    cases tr.decl n <;> simp [declaration]

theorem Same.endOf {s : Nat} (hs : s ≠ t) {ev : List Event} (he : EndOf tr s ev) : EndOf T (down t s) (ev.filterMap (event t)) := by
  cases he with
  | fine h1 =>
    have : [Event.sequenceDestroyed s].filterMap (event t) = [.sequenceDestroyed (down t s)] := by simp [event, hs]
    rw [this]
    exact .fine (fun n hn => by rw [h.tooFew]; exact h1 n ((h.attached n hs).1 hn))
  | @missing es k f h1 h2 h3 h4 =>
    have : [Event.sequenceError s k es.length, .sequenceDestroyed s].filterMap (event t) =
        [.sequenceError (down t s) k es.length, .sequenceDestroyed (down t s)] := by simp [event, hs]
    rw [this]
    refine .missing ⟨h1.1, fun n => ?_⟩ h2 ((h.tooFew f).2 h3) (fun j n hj hn => by rw [h.tooFew]; exact h4 j n hj hn)
    rw [h1.2 n]
    exact (h.attached n hs).symm

theorem Same.ends {kept kept' : Nat → Prop} {ss : List Nat} {evs : List Event} (he : Ends tr kept ss evs)
    (hk : ∀ s ∈ ss, s ≠ t → (kept' (down t s) ↔ kept s)) : Ends T kept' (thin t ss) (evs.filterMap (event t)) := by
  induction he with
  | nil => exact .nil
  | @keep s ss evs h1 _ ih =>
    have ih := ih (fun s hs => hk s (by simp [hs]))
    by_cases hs : s = t
    · subst hs; rw [thin_same]; exact ih
    · rw [thin_cons hs]
      exact .keep ((hk s (by simp) hs).2 h1) ih
  | @gone s ss ev evs h1 h2 _ ih =>
    have ih := ih (fun s hs => hk s (by simp [hs]))
    rw [List.filterMap_append]
    by_cases hs : s = t
    · subst hs
      have : ev.filterMap (event s) = [] := by
        rw [List.filterMap_eq_nil_iff]
        intro x hx
        rcases Bystander.EndOf.plain h2 x hx with ⟨k, n, rfl⟩ | rfl <;> simp [event]
      rw [thin_same, this]
      exact ih
    · rw [thin_cons hs]
      exact .gone (fun hk' => h1 ((hk s (by simp) hs).1 hk')) (h.endOf hs h2) ih

theorem Same.valid {o o' : Op α} (ho : op t o = some o') (hv : tr.valid o) : T.valid o' := by
  cases o <;> simp only [op, Option.some.injEq] at ho
  case dropSequence s =>
    split at ho
    · cases ho
    · rename_i hs
      cases ho
      exact (h.handle hs).2 hv
  all_goals subst ho
  case expect =>
    obtain ⟨h1, h2, h3⟩ := hv
    refine ⟨(h.mocks _).2 h1, ?_, h3⟩
    rw [forall_down (e := t)]
    intro s hs hm
    exact (h.handle hs).2 (h2 s ((mem_thin hs _).1 hm))
  case destroy => exact (h.live _).2 hv
  case call => exact (h.mocks _).2 hv
  all_goals trivial

end Words

theorem thin_nodup {t : Nat} {ss : List Nat} (h : ss.Nodup) : (thin t ss).Nodup :=
  Bystander.thin_pairwise (R := (· ≠ ·)) (fun n m hn hm hne heq => hne ((down_inj hn hm).1 heq)) h

theorem nodup_of_thin {t : Nat} {ss : List Nat} (hc : ss.count t ≤ 1) (h : (thin t ss).Nodup) : ss.Nodup := by
  induction ss with
  | nil => exact List.nodup_nil
  | cons s ss ih =>
    rw [List.nodup_cons]
    by_cases hs : s = t
    · subst hs
      rw [thin_same] at h
      rw [List.count_cons_self] at hc
      exact ⟨List.count_eq_zero.mp (by omega), ih (by omega) h⟩
    · rw [thin_cons hs, List.nodup_cons] at h
      refine ⟨fun hm => h.1 ((mem_thin hs ss).2 hm), ih ?_ h.2⟩
      rw [List.count_cons_of_ne hs] at hc
      exact hc

theorem Same.overflows {t : Nat} {tr T : Trace α} (h : Same t tr T) {o o' : Op α} (ho : op t o = some o')
    (hc : ∀ m min max ss ps, o = .expect m min max ss ps → ss.count t ≤ 1) (hn : ¬ tr.overflows o) : ¬ T.overflows o' := by
  cases o <;> simp only [op, Option.some.injEq] at ho
  case dropSequence s =>
    split at ho
    · cases ho
    · cases ho; exact id
  all_goals subst ho
  case expect m min max ss ps =>
    rintro ⟨h1, h2, s', hs', es, he, hl⟩
    have hne : ∃ s, s ≠ t ∧ down t s = s' := ⟨up t s', up_ne t s', down_up t s'⟩
    obtain ⟨s, hst, rfl⟩ := hne
    refine hn ⟨h1, nodup_of_thin (hc _ _ _ _ _ rfl) h2, s, (mem_thin hst _).1 hs', es, ⟨he.1, fun n => ?_⟩, hl⟩
    rw [he.2 n]
    exact h.attached n hst
  all_goals exact id

theorem decl_of_prefix {pre post : Trace α} {e : Nat} {d : Decl α} (h : pre.decl e = some d) : Trace.decl (pre ++ post) e = some d := by
  unfold Trace.decl at h ⊢
  rw [List.findSome?_append, h]
  rfl

theorem attached_of_prefix {pre post : Trace α} {e s : Nat} (h : pre.attached e s) : Trace.attached (pre ++ post) e s := by
  obtain ⟨d, h1, h2⟩ := h
  exact ⟨d, decl_of_prefix h1, h2⟩

/-- Expectations do not join sequences later. -/
theorem attached_before {pre post : Trace α} {e s u : Nat} (h : pre.attached e s) (hu : Trace.attached (pre ++ post) e u) : pre.attached e u := by
  obtain ⟨d, h1, -⟩ := h
  obtain ⟨d', h3, h4⟩ := hu
  rw [decl_of_prefix h1] at h3
  cases h3
  exact ⟨d, h1, h4⟩

theorem Repeats.of_prefix {pre post : Trace α} {t s : Nat} (h : Repeats (pre ++ post) t s) : Repeats pre t s :=
  ⟨h.1, fun e he => attached_before he (h.2 e (attached_of_prefix he))⟩

theorem Repeats.covered {tr : Trace α} {t s : Nat} (h : Repeats tr t s) : Covered tr t :=
  fun e e' _ he he' => ⟨s, h.1, h.2 e he, h.2 e' he'⟩

theorem Covered.of_prefix {pre post : Trace α} {t : Nat} (h : Covered (pre ++ post) t) : Covered pre t := by
  intro e e' hne he he'
  obtain ⟨s, hs, h1, h2⟩ := h e e' hne (attached_of_prefix he) (attached_of_prefix he')
  exact ⟨s, hs, attached_before he h1, attached_before he' h2⟩

theorem outcome_plain {tr : Trace α} {m : Nat} {a : α} {x : Event} (h : Whole.Outcome tr m a x) : plain x = true := by cases h <;> rfl

theorem main {tr : Trace α} {w : World α} (h : Reach tr w) {t : Nat} (hc : NamedOnce tr t) (hw : SameChoice tr t) :
    Lawful (without t tr) ∧ Same t tr (without t tr) := by
  induction h with
  | init => exact ⟨lawful_nil, Same.nil t⟩
  | @step tr w w' o ev hre hs ih =>
    obtain ⟨hv, hov, hpr⟩ := prescribed_step hre hs
    obtain ⟨hl, hsame⟩ := ih (fun m min max ss ps ev' hm => hc m min max ss ps ev' (by simp [hm]))
      (fun pre m a ev' post htr => hw pre m a ev' (post ++ [(o, ev)]) (by rw [htr]; simp))
    have hc0 : ∀ m min max ss ps, o = .expect m min max ss ps → ss.count t ≤ 1 := by
      rintro m min max ss ps rfl
      exact hc m min max ss ps ev (by simp)
    rw [without_snoc]
    -- an operation that stays
    have keep : ∀ {o' : Op α}, (∀ st, Event.sequenceCreated t st ∉ ev) → op t o = some o' →
        Prescribed (without t tr) o' (ev.filterMap (event t)) →
        Lawful (without t tr ++ (left t (o, ev)).toList) ∧ Same t (tr ++ [(o, ev)]) (without t tr ++ (left t (o, ev)).toList) := by
      intro o' h1 h2 h3
      have hleft : left t (o, ev) = some (o', ev.filterMap (event t)) := by simp [left, h1, h2]
      rw [hleft, Option.toList_some]
      exact ⟨lawful_snoc.mpr ⟨hl, hsame.valid h2 hv, hsame.overflows h2 hc0 hov, h3⟩, hsame.snoc h2⟩
    cases hpr with
    | @newSequence st n hn =>
      by_cases hnt : n = t
      · subst hnt
        have hleft : left n (Op.newSequence (α := α) st, [.sequenceCreated n st]) = none := by cases st <;> simp [left]
        rw [hleft, Option.toList_none, List.append_nil]
        refine ⟨hl, hsame.skip (fun _ => rfl) (by simp [plain]) ?_ (by simp)⟩
        intro k st' hk
        simp [hk]
      · refine keep (by simp [Ne.symm hnt]) rfl ?_
        have : [Event.sequenceCreated n st].filterMap (event t) = [.sequenceCreated (down t n) st] := by simp [event, hnt]
        rw [this]
        exact .newSequence (next_down hn hnt (fun k hk => by simp only [fun st => hsame.kind k st hk]))
    | @newMock n hn => exact keep (by simp) rfl (.newMock (fun k => by simp only [hsame.mocks]; exact hn k))
    | @created m min max ss ps n h1 h2 h3 hn =>
      refine keep (by simp) rfl (.created h1 h2 (thin_nodup h3) (fun k => ?_))
      have := hn k
      dsimp only at this ⊢
      rw [hsame.decl k, ← this]
      cases tr.decl k <;> simp
    | @rejected m min max ss ps h1 =>
      refine keep (by simp) rfl (.rejected fun hh => h1 ⟨hh.1, hh.2.1, nodup_of_thin (hc0 _ _ _ _ _ rfl) hh.2.2⟩)
    | @call m a us last h1 h2 =>
      have hp : ∀ x ∈ us.map Event.unhandled ++ [last], plain x = true := by
        intro x hx
        rcases List.mem_append.mp hx with hx | hx
        · obtain ⟨u, -, rfl⟩ := List.mem_map.mp hx
          rfl
        · rw [List.mem_singleton.mp hx]
          exact outcome_plain h2
      refine keep (fun st hh => by have := hp _ hh; cases this) rfl ?_
      rw [filterMap_plain hp]
      refine .call ⟨h1.1, fun n => ?_⟩ (hsame.outcome h2
        (fun x older r g1 g2 => (hw tr m a _ [] rfl).1 x older r g1 (by simp [g2]))
        (fun g => (hw tr m a _ [] rfl).2 (fun r hr => by
          rcases List.mem_append.mp hr with hr | hr
          · simp at hr
          · exact g r (List.mem_singleton.mp hr).symm)))
      rw [h1.2 n]
      exact (hsame.throws m a n).symm
    | @drop k _ h1 =>
      have hpl := Ends.plain h1
      have hnc : ∀ st, Event.sequenceCreated t st ∉ ev := fun st hc => by obtain ⟨_, ⟨_, _, h⟩ | h⟩ := hpl _ hc <;> cases h
      by_cases hk : k = t
      · subst hk
        have hleft : left k (Op.dropSequence (α := α) k, ev) = none := by simp [left, hnc, op]
        rw [hleft, Option.toList_none, List.append_nil]
        refine ⟨hl, hsame.skip (fun _ => rfl) ?_ ?_ ?_⟩
        · intro x hx
          obtain ⟨_, ⟨_, _, rfl⟩ | rfl⟩ := hpl _ hx <;> rfl
        · intro j st _ hc'
          obtain ⟨_, ⟨_, _, h⟩ | h⟩ := hpl _ hc' <;> cases h
        · intro j hj hh
          cases hh
          exact hj rfl
      · refine keep hnc (o' := .dropSequence (down t k)) (by simp [op, hk]) ?_
        have := hsame.ends h1 (kept' := fun s' => ∃ e, Trace.live (without t tr) e ∧ Trace.attached (without t tr) e s') (fun j _ hj => by
          simp only [hsame.live, fun n => hsame.attached n hj])
        rw [thin_cons hk] at this
        exact .drop this
    | @fulfilled n d evs h1 h2 h3 =>
      have hpl := Ends.plain h3
      refine keep (fun st => ?_) rfl ?_
      · simp only [List.mem_cons, reduceCtorEq, false_or]
        intro hc
        obtain ⟨_, ⟨_, _, h⟩ | h⟩ := hpl _ hc <;> cases h
      · rw [List.filterMap_cons_some (f := event t) (b := Event.destroyed n) rfl]
        refine .fulfilled (d := declaration t d) (by rw [hsame.decl n, h1]; rfl) (by rw [hsame.tooFew, hsame.dissatisfied]; exact h2) ?_
        exact hsame.ends h3 (fun j _ hj => by simp only [hsame.handle hj, hsame.live, fun n => hsame.attached n hj])
    | @unfulfilled n d evs h1 h2 h3 =>
      have hpl := Ends.plain h3
      refine keep (fun st => ?_) rfl ?_
      · simp only [List.mem_cons, reduceCtorEq, false_or]
        intro hc
        obtain ⟨_, ⟨_, _, h⟩ | h⟩ := hpl _ hc <;> cases h
      · rw [List.filterMap_cons_some (f := event t) (b := Event.destroyed n) rfl, List.filterMap_cons_some (f := event t) (b := Event.unfulfilled n) rfl]
        refine .unfulfilled (d := declaration t d) (by rw [hsame.decl n, h1]; rfl) (by rw [hsame.tooFew, hsame.dissatisfied]; exact h2) ?_
        exact hsame.ends h3 (fun j _ hj => by simp only [hsame.handle hj, hsame.live, fun n => hsame.attached n hj])

theorem resolved_chosen {tr : Trace α} {m : Nat} {a : α} {ev : List Event} (h : Prescribed tr (.call m a) ev) {r x : Nat} {older : List Nat}
    (hr : Event.fullMatch r ∈ ev) (hy : YoungestFirst (tr.candidate m a) (x :: older)) : tr.Chosen x older r := by
  cases h with
  | call _ h2 =>
    cases h2 with
    | resolved h3 h4 =>
      have := youngestFirst_unique h3 hy
      cases this
      simp at hr
      subst hr
      exact h4
    | inapplicable => simp at hr
    | noMatch => simp at hr

theorem unresolved {tr : Trace α} {m : Nat} {a : α} {ev : List Event} (h : Prescribed tr (.call m a) ev) (hn : ∀ r, Event.fullMatch r ∉ ev)
    (e : Nat) : ¬ tr.candidate m a e := by
  cases h with
  | call _ h2 =>
    cases h2 with
    | @resolved x r older h3 h4 => exact absurd (hn r) (by simp)
    | inapplicable h3 h4 => exact h3 e
    | noMatch h3 h4 => exact fun hc => h3 e hc.1

theorem SameWay.choice {tr : Trace α} {t : Nat} (hl : Lawful tr) (hv : Covered tr t) (hw : SameWay tr t) : SameChoice tr t := by
  intro pre m a ev post htr
  have hcand : candidateWithout pre t m a = pre.candidate m a := by
    rw [htr] at hv
    exact hv.of_prefix.candidate m a
  rw [hcand]
  refine ⟨?_, unresolved (hl pre _ ev post htr).2.2⟩
  intro x older r hy hr
  have hc := resolved_chosen (hl pre _ ev post htr).2.2 hr hy
  have hw := hw pre m a ev post htr
  have hall : ∀ z ∈ x :: older, pre.candidate m a z := fun z hz => (hy.2 z).1 hz
  have hp := hy.1
  clear hy hr htr
  induction hc with
  | done x => exact .done _
  | @move x y r ys hg _ ih =>
    have hxy : y < x := (List.pairwise_cons.mp hp).1 y (by simp)
    exact .move ((hw x y (hall x (by simp)) (hall y (by simp)) hxy).1 hg)
      (ih (fun z hz => hall z (List.mem_cons_of_mem _ hz)) (List.pairwise_cons.mp hp).2)
  | @stay x y r ys hg _ ih =>
    have hxy : y < x := (List.pairwise_cons.mp hp).1 y (by simp)
    have hp' : (x :: ys).Pairwise (· > ·) := by
      rw [List.pairwise_cons] at hp ⊢
      exact ⟨fun z hz => hp.1 z (by simp [hz]), (List.pairwise_cons.mp hp.2).2⟩
    exact .stay (fun h => hg ((hw x y (hall x (by simp)) (hall y (by simp)) hxy).2 h)) (ih (fun z hz => hall z (by grind)) hp')

theorem converse {tr : Trace α} {w : World α} (h : Reach tr w) {t : Nat} (hc : NamedOnce tr t)
    (hl : Lawful (without t tr)) : SameChoice tr t := by
  induction h with
  | init => intro pre m a ev post h; cases pre <;> simp at h
  | @step tr w w' o ev hre hs ih =>
    obtain ⟨hv, hov, hpr⟩ := prescribed_step hre hs
    rw [without_snoc] at hl
    have hc0 : NamedOnce tr t := fun m min max ss ps ev' hm => hc m min max ss ps ev' (by simp [hm])
    have ic := ih hc0 (lawful_prefix hl)
    obtain ⟨-, hsame⟩ := main hre hc0 ic
    intro pre m a ev' post htr
    rcases List.eq_nil_or_concat post with rfl | ⟨q, st, rfl⟩
    · have := List.append_inj' htr rfl
      simp only [List.cons.injEq, Prod.mk.injEq, and_true] at this
      obtain ⟨rfl, rfl, rfl⟩ := this
      have hp : ∀ y ∈ ev, plain y = true := by
        cases hpr with
        | call h1 h2 =>
          intro y hy'
          rcases List.mem_append.mp hy' with hy' | hy'
          · obtain ⟨u, -, rfl⟩ := List.mem_map.mp hy'
            rfl
          · rw [List.mem_singleton.mp hy']
            exact outcome_plain h2
      have hleft : left t (Op.call m a, ev) = some (Op.call m a, ev) := by
        have h1 : ∀ st, Event.sequenceCreated t st ∉ ev := fun st hh => by have := hp _ hh; cases this
        simp [left, h1, op, filterMap_plain hp]
      rw [hleft, Option.toList_some] at hl
      have hcand : Trace.candidate (without t tr) m a = candidateWithout tr t m a := funext fun n => propext (hsame.candidate m a n)
      rw [← hcand]
      have hp' := (lawful_snoc.mp hl).2.2.2
      exact ⟨fun x older r hy hfm => hsame.chosen.1 (resolved_chosen hp' hfm hy), unresolved hp'⟩
    · rw [List.concat_eq_append] at htr
      have : pre ++ (Op.call m a, ev') :: (q ++ [st]) = (pre ++ (Op.call m a, ev') :: q) ++ [st] := by simp
      rw [this] at htr
      exact ic pre m a ev' q (List.append_inj' htr rfl).1

end Mimic.Redundant
