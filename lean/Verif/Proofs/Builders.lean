import Verif.Spec.Builders
import Verif.Proofs.BuilderWorld
import Verif.Proofs.Whole

/-!
# Proofs: all rules for builders together
-/

set_option autoImplicit false

namespace Mimic.Builders

variable {α φ : Type}

/-! ### Builder objects and what is known about them -/

/-- The builder about which `n` is known. -/
def builder (n : Note α φ) : Builder α φ :=
  { coll := n.mock, returnsVoid := n.returnsVoid, timesConfigured := !(timesOf n.items).isEmpty,
    times := ⟨(limits n.items).1, (limits n.items).2⟩, seqs := sequencesOf n.items,
    finalizer := (finalizersOf n.items).head?, policies := n.args ++ policiesOf n.items }

def cell (n : Note α φ) : BCell α φ := ⟨if n.usable then some (builder n) else none, n.keeps, n.there⟩

theorem notes_snoc (btr : BTrace α φ) (st : BOp α φ × List Event) : notes (btr ++ [st]) = noteStep (notes btr) st := by
  simp [notes, List.foldl_append]

theorem kind_iff {tr : Trace α} {w : World α} (h : Reach tr w) (s : Nat) : (∃ st, tr.kind s st) ↔ s < w.seqs.length := by
  have hv := h.view.2
  have hl : (abs w).seqs.length = w.seqs.length := by simp [abs]
  rw [← hl]
  constructor
  · rintro ⟨st, hk⟩
    rcases Nat.lt_or_ge s (abs w).seqs.length with hlt | hge
    · exact hlt
    · exact absurd hk ((hv.freshSeq s hge).1 st)
  · intro hlt
    exact ⟨_, ((hv.seqs s _ (List.getElem?_eq_getElem hlt)).1 _).mpr rfl⟩

theorem mock_iff {tr : Trace α} {w : World α} (h : Reach tr w) (m : Nat) : Event.mockCreated m ∈ tr.events ↔ m < w.colls.length :=
  h.view.2.mocks m

theorem isInt_iff (x : Int) : isInt x = true ↔ -2147483648 ≤ x ∧ x ≤ 2147483647 := by
  simp only [isInt, Bool.and_eq_true, decide_eq_true_eq]
  exact Iff.rfl

/-- The history with builders, the history it stands for and the state belong together. -/
structure Sim (btr : BTrace α φ) (tr : Trace α) (bw : BWorld α φ) : Prop where
  reach : Reach tr bw.w
  inv : BInv bw
  objs : ∀ s, s < bw.objs.length → (bw.objs[s]? = some true ↔ ∀ ev, (BOp.dropObject s, ev) ∉ btr)
  fresh : ∀ s, bw.objs.length ≤ s → ∀ ev, (BOp.dropObject s, ev) ∉ btr
  cells : bw.builders = (notes btr).map cell

theorem Sim.init : Sim ([] : BTrace α φ) [] BWorld.init :=
  ⟨.init, .init, by simp [BWorld.init], by simp, rfl⟩

theorem Sim.object {btr : BTrace α φ} {tr : Trace α} {bw : BWorld α φ} (h : Sim btr tr bw) (s : Nat) :
    bw.object s = true ↔ Object btr tr s := by
  unfold Object BWorld.object
  rw [kind_iff h.reach, ← h.inv.objs, beq_iff_eq]
  by_cases hs : s < bw.objs.length
  · simp only [hs, true_and]; exact h.objs s hs
  · simp [hs]

/-- What is held, from the objects and the builders. -/
theorem held_iff {btr : BTrace α φ} {tr : Trace α} {bw : BWorld α φ} (ho : ∀ s, bw.object s = true ↔ Object btr tr s)
    (hc : bw.builders = (notes btr).map cell) (s : Nat) : Held btr tr s ↔ bw.clientRef s = true := by
  rw [clientRef_iff, ho, hc]
  unfold Held
  simp only [List.mem_map]
  constructor
  · rintro (h | ⟨n, h1, h2, h3⟩)
    · exact .inl h
    · exact .inr ⟨cell n, ⟨n, h1, rfl⟩, h2, h3⟩
  · rintro (h | ⟨_, ⟨n, h1, rfl⟩, h2, h3⟩)
    · exact .inl h
    · exact .inr ⟨n, h1, h2, h3⟩

theorem Sim.note {btr : BTrace α φ} {tr : Trace α} {bw : BWorld α φ} (h : Sim btr tr bw) {b : Nat} {n : Note α φ}
    (hn : (notes btr)[b]? = some n) : bw.builders[b]? = some (cell n) := by
  rw [h.cells, List.getElem?_map, hn]; rfl

theorem Sim.note_none {btr : BTrace α φ} {tr : Trace α} {bw : BWorld α φ} (h : Sim btr tr bw) {b : Nat}
    (hn : (notes btr)[b]? = none) : bw.builders[b]? = none := by
  rw [h.cells, List.getElem?_map, hn]; rfl

theorem Sim.keeps {btr : BTrace α φ} {tr : Trace α} {bw : BWorld α φ} (h : Sim btr tr bw) {b : Nat} {n : Note α φ}
    (hn : (notes btr)[b]? = some n) (hu : n.usable = true) : n.keeps = sequencesOf n.items ∧ n.mock < bw.w.colls.length ∧
      isInt (limits n.items).1 = true ∧ isInt (limits n.items).2 = true := by
  have := h.inv.cell (cell n) (List.mem_of_getElem? (h.note hn)) (builder n) (by simp [cell, hu])
  exact ⟨this.1, this.2.1, this.2.2.2⟩

/-! ### Adding an item -/

theorem fits_iff {btr : BTrace α φ} {tr : Trace α} {bw : BWorld α φ} (h : Sim btr tr bw) (n : Note α φ) (item : Item α φ) :
    ((builder n).accepts item && bw.usable item) = true ↔ Fits btr tr n item := by
  cases item with
  | policy p => simp [Builder.accepts, BWorld.usable, Fits]
  | finalizer f =>
    simp only [Builder.accepts, BWorld.usable, Fits, builder, Bool.and_true]
    cases finalizersOf n.items <;> simp
  | times a b =>
    simp only [Builder.accepts, BWorld.usable, Fits, builder, Bool.and_eq_true, isInt_iff, Bool.not_not, List.isEmpty_iff]
  | sequences ss =>
    simp only [Builder.accepts, BWorld.usable, Fits, Bool.true_and, List.all_eq_true, h.object]

/-- The item is refused by a builder. -/
def Bad (n : Note α φ) (item : Item α φ) : Prop :=
  (∃ min max, item = .times min max ∧ ¬ (0 ≤ min ∧ min ≤ max)) ∨ ∃ ss, item = .sequences ss ∧ ¬ (sequencesOf n.items ++ ss).Nodup

theorem and_bad {n : Note α φ} {item : Item α φ} (h : Bad n item) : (builder n).and item = none := by
  rcases h with ⟨a, b, rfl, hb⟩ | ⟨ss, rfl, hb⟩
  · simp only [Builder.and, timesMake_eq]
    rw [if_neg (fun hv : Spec.validTimes a b => hb hv)]
  · simp only [Builder.and, seqConfigConcat, seqConfig_eq]
    by_cases hss : ss.Nodup
    · have hb' : ¬ ((builder n).seqs ++ ss).Nodup := hb
      simp only [if_pos hss, if_neg hb']
    · simp only [if_neg hss]

theorem and_good {btr : BTrace α φ} {tr : Trace α} {n : Note α φ} {item : Item α φ} (hf : Fits btr tr n item) (h : ¬ Bad n item) :
    (builder n).and item = some (builder (n.with item)) := by
  cases item with
  | policy p => simp [Builder.and, builder, Note.with, timesOf, finalizersOf, sequencesOf, policiesOf, limits]
  | finalizer f =>
    simp only [Fits] at hf
    have : finalizersOf (n.items ++ [.finalizer f]) = [f] := by
      have e : finalizersOf (n.items ++ [.finalizer f]) = finalizersOf n.items ++ [f] := by simp [finalizersOf]
      rw [e, hf]; rfl
    simp only [Builder.and, builder, Note.with, this]
    simp [timesOf, sequencesOf, policiesOf, limits]
  | times a b =>
    simp only [Fits] at hf
    have hv : Spec.validTimes a b := by
      by_cases hv : 0 ≤ a ∧ a ≤ b
      · exact hv
      · exact absurd (Or.inl ⟨a, b, rfl, hv⟩) h
    have : timesOf (n.items ++ [.times a b]) = [(a, b)] := by
      have e : timesOf (n.items ++ [.times a b]) = timesOf n.items ++ [(a, b)] := by simp [timesOf]
      rw [e, hf.1]; rfl
    simp only [Builder.and, timesMake_eq, if_pos hv, builder, Note.with, limits, this]
    simp [finalizersOf, sequencesOf, policiesOf]
  | sequences ss =>
    have hv : (sequencesOf n.items ++ ss).Nodup := by
      by_cases hv : (sequencesOf n.items ++ ss).Nodup
      · exact hv
      · exact absurd (Or.inr ⟨ss, rfl, hv⟩) h
    have hss : ss.Nodup := (List.nodup_append.mp hv).2.1
    have e : sequencesOf (n.items ++ [.sequences ss]) = sequencesOf n.items ++ ss := by simp [sequencesOf]
    simp only [Builder.and, seqConfigConcat, seqConfig_eq, if_pos hss, builder, if_pos hv, Note.with, e]
    simp [timesOf, finalizersOf, policiesOf, limits]

/-! ### Giving up sequences -/

theorem release (ss : List Nat) : ∀ {tr : Trace α} {bw : BWorld α φ} {held : Nat → Prop}, Reach tr bw.w → ss.Nodup →
    (∀ s, bw.w.hasHandle s = (bw.clientRef s || decide (s ∈ ss))) → (∀ s, held s ↔ bw.clientRef s = true) →
    ∃ (w' : World α) (l : List Nat) (tr' : Trace α), Freed held ss l ∧ tr'.map (·.1) = l.map Op.dropSequence ∧
      bw.releaseRefs ss = .ok ({ bw with w := w' }, tr'.events) ∧ Reach (tr ++ tr') w' := by
  induction ss with
  | nil =>
    intro tr bw held hr _ _ _
    exact ⟨bw.w, [], [], .nil, rfl, rfl, by simpa using hr⟩
  | cons s ss ih =>
    intro tr bw held hr hn hh hheld
    rw [List.nodup_cons] at hn
    unfold BWorld.releaseRefs
    cases hc : bw.clientRef s with
    | true =>
      simp only [if_true]
      obtain ⟨w', l, tr', h1, h2, h3, h4⟩ := ih (held := held) hr hn.2 (by
        intro t
        rw [hh t]
        by_cases hts : t = s
        · subst hts; simp [hc]
        · simp [hts]) hheld
      exact ⟨w', l, tr', .keep ((hheld s).mpr hc) h1, h2, h3, h4⟩
    | false =>
      have hhs : bw.w.hasHandle s = true := by rw [hh s]; simp
      have hval : tr.valid (.dropSequence s) := by
        rw [Trace.valid, ← hr.view.2.hasHandle_iff, hasHandle_abs]; exact hhs
      obtain ⟨w', ev, hs⟩ := (C17_progress hr (.dropSequence s)).1 hval (by simp [Trace.overflows])
      obtain ⟨g1, g2, g3⟩ := handle_step hr hs
      simp only at g2 g3
      have hcr : ∀ t, ({ bw with w := w' } : BWorld α φ).clientRef t = bw.clientRef t := fun _ => rfl
      obtain ⟨w'', l, tr', e0, e1, e2, e3⟩ := ih (bw := { bw with w := w' }) (held := held) (hr.step hs) hn.2 (by
        intro t
        show w'.hasHandle t = _
        rw [g2 t, hcr]
        by_cases hts : s = t
        · subst hts; simp [hc, hn.1]
        · have : ¬ t = s := fun h => hts h.symm
          rw [if_neg hts, hh t]; simp [this]) (fun t => by rw [hcr]; exact hheld t)
      refine ⟨w'', s :: l, (.dropSequence s, ev) :: tr', .gone (fun h => by rw [(hheld s).mp h] at hc; cases hc) e0, by simp [e1], ?_,
        by simpa using e3⟩
      simp only [hs, e2, bind, Except.bind, pure, Except.pure]
      rfl

theorem freed_unique {held : Nat → Prop} {ss l l' : List Nat} (h : Freed held ss l) (h' : Freed held ss l') : l = l' := by
  induction h generalizing l' with
  | nil => cases h'; rfl
  | keep h1 _ ih =>
    cases h' with
    | keep _ h3 => exact ih h3
    | gone h2 _ => exact absurd h1 h2
  | gone h1 _ ih =>
    cases h' with
    | keep h2 _ => exact absurd h2 h1
    | gone _ h3 => rw [ih h3]

theorem means_unique {btr : BTrace α φ} {tr : Trace α} {op : BOp α φ} {ops ops' : List (Op α)} (h : Means btr tr op ops)
    (h' : Means btr tr op ops') : ops = ops' := by
  cases h with
  | finalize h1 => cases h' with | finalize h2 => rw [h1] at h2; injection h2 with h2; subst h2; rfl
  | dropObject h1 => cases h' with | dropObject h2 => rw [freed_unique h1 h2]
  | dropBuilder h1 h2 =>
    cases h' with
    | dropBuilder h3 h4 => rw [h1] at h3; injection h3 with h3; subst h3; rw [freed_unique h2 h4]
  | _ => cases h'; rfl

/-! ### One operation -/

/-- What one operation does. -/
structure Does (btr : BTrace α φ) (tr : Trace α) (bw : BWorld α φ) (op : BOp α φ) : Prop where
  no : ¬ Allowed btr tr op → ∃ why, bw.step op = .error (.client why)
  refused : Allowed btr tr op → Refused btr op →
    bw.step op = .ok (bw, [.rejected]) ∧ Sim (btr ++ [(op, [.rejected])]) tr bw ∧ ¬ Terminates btr tr op
  ends : ¬ Refused btr op → Terminates btr tr op → ∃ why, bw.step op = .error (.terminate why)
  done : Allowed btr tr op → ¬ Refused btr op → ¬ Terminates btr tr op →
    ∃ bw' l, bw.step op = .ok (bw', l.events) ∧ Means btr tr op (l.map (·.1)) ∧ Whole.Lawful (tr ++ l) ∧
      Sim (btr ++ [(op, l.events)]) (tr ++ l) bw'

theorem not_refused {btr : BTrace α φ} {op : BOp α φ} (h : ∀ b item, op ≠ .extend b item) : ¬ Refused btr op :=
  fun ⟨b, _, item, he, _⟩ => h b item he

theorem events_one (op : Op α) (ev : List Event) : Trace.events [(op, ev)] = ev := by simp [Trace.events]

/-- Operations that have nothing to do with builders. -/
theorem does_plain {btr : BTrace α φ} {tr : Trace α} {bw : BWorld α φ} (h : Sim btr tr bw) {op : BOp α φ} {o : Op α}
    (hstep : bw.step op = bw.plain o) (hm : Means btr tr op [o]) (ha : Allowed btr tr op ↔ tr.valid o) (hov : ¬ tr.overflows o)
    (hn : ∀ ev, noteStep (notes btr) (op, ev) = notes btr) (hd : ∀ s, op ≠ .dropObject s) (he : ∀ b item, op ≠ .extend b item) :
    Does btr tr bw op := by
  obtain ⟨h1, h2, h3⟩ := C17_progress h.reach o
  refine ⟨fun hna => ?_, fun _ hr => absurd hr (not_refused he), fun _ ⟨_, ops, hm', x, hx, hxo⟩ => ?_, fun hal _ _ => ?_⟩
  · obtain ⟨why, hy⟩ := h3 (fun hv => hna (ha.mpr hv))
    exact ⟨why, by simp [hstep, BWorld.plain, hy, bind, Except.bind]⟩
  · rw [means_unique hm' hm, List.mem_singleton] at hx
    subst hx; exact absurd hxo hov
  · obtain ⟨w', ev, hs⟩ := h1 (ha.mp hal) hov
    have hb : bw.step op = .ok ({ bw with w := w' }, ev) := by
      simp [hstep, BWorld.plain, hs, bind, Except.bind, pure, Except.pure]
    have hr := h.reach.step hs
    refine ⟨_, [(o, ev)], by rw [events_one]; exact hb, hm, Whole.reach_lawful hr, hr, (h.inv.step h.reach hb).1, ?_, ?_, ?_⟩
    · intro s hs'
      rw [h.objs s hs']
      simp only [List.mem_append, List.mem_singleton, Prod.mk.injEq, not_or]
      exact ⟨fun hx ev' => ⟨hx ev', fun hc => hd s hc.1.symm⟩, fun hx ev' => (hx ev').1⟩
    · intro s hs' ev'
      simp only [List.mem_append, List.mem_singleton, Prod.mk.injEq, not_or]
      exact ⟨h.fresh s hs' ev', fun hc => hd s hc.1.symm⟩
    · rw [notes_snoc, hn]; exact h.cells

theorem does_newSequence {btr : BTrace α φ} {tr : Trace α} {bw : BWorld α φ} (h : Sim btr tr bw) (st : Strategy) :
    Does btr tr bw (.newSequence st) := by
  refine ⟨fun hna => absurd trivial hna, fun _ hr => absurd hr (not_refused (by simp)), fun _ ⟨_, ops, hm', x, hx, hxo⟩ => ?_,
    fun _ _ _ => ?_⟩
  · cases hm'; rw [List.mem_singleton] at hx; subst hx; exact absurd hxo (by simp [Trace.overflows])
  · obtain ⟨w', ev, hs⟩ := (C17_progress h.reach (.newSequence st)).1 trivial (by simp [Trace.overflows])
    have hb : bw.step (.newSequence st) = .ok ({ bw with w := w', objs := bw.objs ++ [true] }, ev) := by
      simp [BWorld.step, hs, bind, Except.bind, pure, Except.pure]
    have hr := h.reach.step hs
    refine ⟨_, [(.newSequence st, ev)], by rw [events_one]; exact hb, .newSequence, Whole.reach_lawful hr, hr,
      (h.inv.step h.reach hb).1, ?_, ?_, ?_⟩
    · intro s hs'
      simp only [List.length_append, List.length_singleton] at hs'
      have hmem : ∀ ev', (BOp.dropObject s, ev') ∉ btr ++ [(.newSequence st, Trace.events [((Op.newSequence st : Op α), ev)])] ↔
          (BOp.dropObject s, ev') ∉ btr := by intro ev'; simp
      simp only [hmem]
      rcases Nat.lt_or_ge s bw.objs.length with hlt | hge
      · rw [List.getElem?_append_left hlt]; exact h.objs s hlt
      · have : s = bw.objs.length := by omega
        subst this
        simp only [List.getElem?_concat_length, true_iff]
        exact h.fresh _ (Nat.le_refl _)
    · intro s hs' ev'
      simp only [List.length_append, List.length_singleton] at hs'
      simp only [List.mem_append, List.mem_singleton, Prod.mk.injEq, reduceCtorEq, false_and, or_false]
      exact h.fresh s (by omega) ev'
    · rw [notes_snoc]; exact h.cells

theorem does_beginExpect {btr : BTrace α φ} {tr : Trace α} {bw : BWorld α φ} (h : Sim btr tr bw) (m : Nat) (rv : Bool)
    (args : List (Policy α)) : Does btr tr bw (.beginExpect m rv args) := by
  have hiff : Allowed btr tr (.beginExpect m rv args) ↔ m < bw.w.colls.length := mock_iff h.reach m
  refine ⟨fun hna => ?_, fun _ hr => absurd hr (not_refused (by simp)), fun _ ⟨_, ops, hm', x, hx, hxo⟩ => ?_, fun hal _ _ => ?_⟩
  · rw [hiff] at hna
    exact ⟨_, by simp only [BWorld.step, if_neg hna]; rfl⟩
  · cases hm'; cases hx
  · rw [hiff] at hal
    have hb : bw.step (.beginExpect m rv args) =
        .ok ({ bw with builders := bw.builders ++ [⟨some (.start m rv args), [], true⟩] }, []) := by
      simp only [BWorld.step, if_pos hal]
    refine ⟨_, [], hb, .beginExpect, by rw [List.append_nil]; exact Whole.reach_lawful h.reach, by rw [List.append_nil]; exact h.reach,
      (h.inv.step h.reach hb).1, ?_, ?_, ?_⟩
    · intro s hs'; rw [h.objs s hs']; simp
    · intro s hs' ev'; simpa using h.fresh s hs' ev'
    · rw [notes_snoc]
      simp only [noteStep, List.map_append, h.cells, List.map_cons, List.map_nil, cell]
      simp [builder, Builder.start, timesOf, finalizersOf, sequencesOf, policiesOf, limits]

theorem does_extend {btr : BTrace α φ} {tr : Trace α} {bw : BWorld α φ} (h : Sim btr tr bw) (b : Nat) (item : Item α φ) :
    Does btr tr bw (.extend b item) := by
  refine ⟨fun hna => ?_, fun hal hr => ?_, fun _ ⟨_, ops, hm', x, hx, hxo⟩ => ?_, fun hal hnr _ => ?_⟩
  · cases hn : (notes btr)[b]? with
    | none => exact ⟨_, by simp only [BWorld.step, h.note_none hn]; rfl⟩
    | some n =>
      have hb := h.note hn
      by_cases hu : n.usable = true
      · by_cases ht : n.there = true
        · simp only [cell, hu, ht, if_true] at hb
          have : ¬ ((builder n).accepts item && bw.usable item) = true := fun hf => hna ⟨n, hn, ht, hu, (fits_iff h n item).mp hf⟩
          exact ⟨_, by simp only [BWorld.step, hb, if_neg this]; rfl⟩
        · have ht : n.there = false := by simpa using ht
          simp only [cell, hu, ht, if_true] at hb
          exact ⟨_, by simp only [BWorld.step, hb]; rfl⟩
      · simp only [cell, hu] at hb
        exact ⟨_, by simp only [BWorld.step, hb]; rfl⟩
  · obtain ⟨n, hn, ht, hu, hf⟩ := hal
    obtain ⟨b', n', item', he, hn', hbad⟩ := hr
    injection he with he1 he2
    subst he1; subst he2
    rw [hn] at hn'; injection hn' with hn'; subst hn'
    have hb := h.note hn
    simp only [cell, hu, ht, if_true] at hb
    refine ⟨?_, ⟨h.reach, h.inv, ?_, ?_, ?_⟩, fun ⟨_, ops, hm', x, hx, hxo⟩ => by cases hm'; cases hx⟩
    · simp only [BWorld.step, hb, (fits_iff h n item).mpr hf, if_true, and_bad hbad]
    · intro s hs'; rw [h.objs s hs']; simp
    · intro s hs' ev'; simpa using h.fresh s hs' ev'
    · rw [notes_snoc]; exact h.cells
  · cases hm'; cases hx
  · obtain ⟨n, hn, ht, hu, hf⟩ := hal
    have hgood : ¬ Bad n item := fun hbad => hnr ⟨b, n, item, rfl, hn, hbad⟩
    have hb := h.note hn
    have hk := (h.keeps hn hu).1
    simp only [cell, hu, ht, if_true] at hb
    have hs : bw.step (.extend b item) =
        .ok ({ bw with builders := bw.builders.set b ⟨none, item.leftOver (builder n), true⟩ ++
          [⟨some (builder (n.with item)), sequencesOf (n.items ++ [item]), true⟩] }, []) := by
      simp only [BWorld.step, hb, (fits_iff h n item).mpr hf, if_true, and_good hf hgood]
      rfl
    refine ⟨_, [], hs, .extend, by rw [List.append_nil]; exact Whole.reach_lawful h.reach, by rw [List.append_nil]; exact h.reach,
      (h.inv.step h.reach hs).1, ?_, ?_, ?_⟩
    · intro s hs'; rw [h.objs s hs']; simp
    · intro s hs' ev'; simpa using h.fresh s hs' ev'
    · rw [notes_snoc]
      simp only [noteStep, Trace.events, List.flatMap_nil, hn, List.map_append, List.map_set, h.cells, List.map_cons, List.map_nil]
      have e1 : cell (n.after item) = ⟨none, item.leftOver (builder n), true⟩ := by
        cases item <;> simp [cell, Note.after, Item.leftOver, ht, builder, hk]
      have e2 : cell (n.with item) = ⟨some (builder (n.with item)), sequencesOf (n.items ++ [item]), true⟩ := by
        simp [cell, Note.with, hu, ht]
      rw [e1, e2]

theorem modify_of_getElem? {β γ : Type} {l : List β} {b : Nat} {x : β} (h : l[b]? = some x) (f : β → β) (g : β → γ) :
    (l.modify b f).map g = (l.map g).set b (g (f x)) := by
  apply List.ext_getElem?
  intro i
  rw [List.getElem?_map, List.getElem?_modify, List.getElem?_set, List.length_map, List.getElem?_map]
  by_cases hi : b = i
  · subst hi
    have hlt := (List.getElem?_eq_some_iff.mp h).1
    simp only [if_true, h, hlt, Option.map_eq_map, Option.map_some]
  · simp [hi]

theorem does_finalize {btr : BTrace α φ} {tr : Trace α} {bw : BWorld α φ} (h : Sim btr tr bw) (b : Nat) :
    Does btr tr bw (.finalize b) := by
  have hready : ∀ n, (notes btr)[b]? = some n → n.there = true → n.usable = true →
      tr.valid (.expect n.mock (limits n.items).1 (limits n.items).2 (sequencesOf n.items) (n.args ++ policiesOf n.items)) := by
    intro n hn ht hu
    obtain ⟨hk, h1, h2, h3⟩ := h.keeps hn hu
    refine ⟨(mock_iff h.reach _).mpr h1, ?_, (isInt_iff _).mp h2, (isInt_iff _).mp h3⟩
    intro s hs
    rw [← h.reach.view.2.hasHandle_iff, hasHandle_abs, h.inv.handle, clientRef_iff]
    exact Or.inr ⟨_, List.mem_of_getElem? (h.note hn), ht, by rw [← hk] at hs; exact hs⟩
  have hfin : ∀ n : Note α φ, ((builder n).returnsVoid || (builder n).finalizer.isSome) = true ↔
      n.returnsVoid = true ∨ finalizersOf n.items ≠ [] := by
    intro n
    simp only [builder, Bool.or_eq_true]
    cases finalizersOf n.items <;> simp
  refine ⟨fun hna => ?_, fun _ hr => absurd hr (not_refused (by simp)), fun _ ⟨hal, ops, hm', x, hx, hxo⟩ => ?_, fun hal _ hnt => ?_⟩
  · cases hn : (notes btr)[b]? with
    | none => exact ⟨_, by simp only [BWorld.step, h.note_none hn]; rfl⟩
    | some n =>
      have hb := h.note hn
      by_cases hu : n.usable = true
      · by_cases ht : n.there = true
        · simp only [cell, hu, ht, if_true] at hb
          have : ¬ ((builder n).returnsVoid || (builder n).finalizer.isSome) = true := fun hf => hna ⟨n, hn, ht, hu, (hfin n).mp hf⟩
          exact ⟨_, by simp only [BWorld.step, hb, if_neg this]; rfl⟩
        · have ht : n.there = false := by simpa using ht
          simp only [cell, hu, ht, if_true] at hb
          exact ⟨_, by simp only [BWorld.step, hb]; rfl⟩
      · simp only [cell, hu] at hb
        exact ⟨_, by simp only [BWorld.step, hb]; rfl⟩
  · obtain ⟨n, hn, ht, hu, hf⟩ := hal
    cases hm' with
    | finalize hn' =>
      rw [hn] at hn'; injection hn' with hn'; subst hn'
      rw [List.mem_singleton] at hx; subst hx
      obtain ⟨why, hy⟩ := (C17_progress h.reach _).2.1 (hready n hn ht hu) hxo
      have hb := h.note hn
      simp only [cell, hu, ht, if_true] at hb
      have hy' : bw.w.step (.expect (builder n).coll (builder n).times.min (builder n).times.max (builder n).seqs (builder n).policies) =
        .error (.terminate why) := hy
      exact ⟨why, by simp only [BWorld.step, hb, (hfin n).mpr hf, if_true, bind, Except.bind, hy']⟩
  · obtain ⟨n, hn, ht, hu, hf⟩ := id hal
    obtain ⟨w', ev, hs⟩ := (C17_progress h.reach _).1 (hready n hn ht hu)
      (fun ho => hnt ⟨hal, _, .finalize hn, _, List.mem_singleton.mpr rfl, ho⟩)
    have hb := h.note hn
    simp only [cell, hu, ht, if_true] at hb
    have hs' : bw.w.step (.expect (builder n).coll (builder n).times.min (builder n).times.max (builder n).seqs (builder n).policies) =
      .ok (w', ev) := hs
    have hstep : bw.step (.finalize b) = .ok ({ bw with w := w', builders := bw.builders.set b ⟨none, n.keeps, true⟩ }, ev) := by
      simp only [BWorld.step, hb, (hfin n).mpr hf, if_true, bind, Except.bind, hs', pure, Except.pure]
    have hr := h.reach.step hs
    refine ⟨_, [(_, ev)], by rw [events_one]; exact hstep, .finalize hn, Whole.reach_lawful hr, hr, (h.inv.step h.reach hstep).1, ?_, ?_, ?_⟩
    · intro s hs'; rw [h.objs s hs']; simp
    · intro s hs' ev'; simpa using h.fresh s hs' ev'
    · rw [notes_snoc]
      simp only [noteStep]
      rw [modify_of_getElem? hn, h.cells]
      simp [cell, ht]

theorem does_dropObject {btr : BTrace α φ} {tr : Trace α} {bw : BWorld α φ} (h : Sim btr tr bw) (s : Nat) :
    Does btr tr bw (.dropObject s) := by
  have hiff : Allowed btr tr (.dropObject s : BOp α φ) ↔ bw.object s = true := (h.object s).symm
  have hno : ∀ {ops : List (Op α)}, Means btr tr (.dropObject s : BOp α φ) ops → ∀ o ∈ ops, ¬ tr.overflows o := by
    intro ops hm o ho
    cases hm with
    | dropObject _ =>
      obtain ⟨x, _, rfl⟩ := List.mem_map.mp ho
      simp [Trace.overflows]
  refine ⟨fun hna => ?_, fun _ hr => absurd hr (not_refused (by simp)), fun _ ⟨_, ops, hm', x, hx, hxo⟩ => absurd hxo (hno hm' x hx),
    fun hal _ _ => ?_⟩
  · rw [hiff] at hna
    exact ⟨_, by simp only [BWorld.step, if_neg hna]; rfl⟩
  · rw [hiff] at hal
    have hobj : ∀ t, ({ bw with objs := bw.objs.set s false } : BWorld α φ).object t = (if s = t then false else bw.object t) := by
      intro t
      simp only [BWorld.object, List.getElem?_set]
      by_cases hst : s = t
      · subst hst
        by_cases hl : s < bw.objs.length <;> simp [hl]
      · simp [hst]
    have hheld : ∀ t, Held (btr ++ [(.dropObject s, [])]) tr t ↔
        ({ bw with objs := bw.objs.set s false } : BWorld α φ).clientRef t = true := by
      intro t
      refine held_iff (fun u => ?_) (by rw [notes_snoc]; exact h.cells) t
      rw [hobj]
      unfold Object
      by_cases hsu : s = u
      · subst hsu
        simp only [if_true, Bool.false_eq_true, false_iff]
        exact fun hc => hc.2 [] (by simp)
      · rw [if_neg hsu, h.object]
        have : ∀ ev, (BOp.dropObject u, ev) ∉ btr ++ [(.dropObject s, [])] ↔ (BOp.dropObject u, ev) ∉ btr := by
          intro ev
          simp [Ne.symm hsu]
        simp only [this]; exact Iff.rfl
    obtain ⟨w', l, tr', h1, h2, h3, h4⟩ := release [s] (bw := { bw with objs := bw.objs.set s false }) h.reach (by simp) (by
        intro t
        show bw.w.hasHandle t = _
        rw [h.inv.handle, Bool.eq_iff_iff, Bool.or_eq_true, clientRef_iff, clientRef_iff, hobj t]
        by_cases hst : s = t
        · subst hst; simp [hal]
        · have : ¬ t = s := fun h => hst h.symm
          simp [hst, this]) hheld
    have hstep : bw.step (.dropObject s) = .ok ({ bw with objs := bw.objs.set s false, w := w' }, tr'.events) := by
      simp only [BWorld.step, hal, if_true, h3]
    refine ⟨_, tr', hstep, by rw [h2]; exact .dropObject h1, Whole.reach_lawful h4, h4, (h.inv.step h.reach hstep).1, ?_, ?_, ?_⟩
    · intro t ht
      simp only [List.length_set] at ht
      show (bw.objs.set s false)[t]? = some true ↔ _
      rw [List.getElem?_set]
      by_cases hst : s = t
      · subst hst
        simp only [if_true, ht]
        constructor
        · intro hc; cases hc
        · intro hc; exact absurd (List.mem_append_right _ (List.mem_singleton.mpr rfl)) (hc tr'.events)
      · rw [if_neg hst, h.objs t ht]
        simp [Ne.symm hst]
    · intro t ht ev'
      simp only [List.length_set] at ht
      have hs' : s < bw.objs.length := by
        unfold BWorld.object at hal
        rw [beq_iff_eq] at hal
        exact (List.getElem?_eq_some_iff.mp hal).1
      have hne : t ≠ s := by omega
      simp only [List.mem_append, List.mem_singleton, Prod.mk.injEq, BOp.dropObject.injEq, hne, false_and, or_false]
      exact h.fresh t ht ev'
    · rw [notes_snoc]; exact h.cells

theorem does_dropBuilder {btr : BTrace α φ} {tr : Trace α} {bw : BWorld α φ} (h : Sim btr tr bw) (b : Nat) :
    Does btr tr bw (.dropBuilder b) := by
  have hno : ∀ {ops : List (Op α)}, Means btr tr (.dropBuilder b : BOp α φ) ops → ∀ o ∈ ops, ¬ tr.overflows o := by
    intro ops hm o ho
    cases hm with
    | dropBuilder _ _ =>
      obtain ⟨x, _, rfl⟩ := List.mem_map.mp ho
      simp [Trace.overflows]
  refine ⟨fun hna => ?_, fun _ hr => absurd hr (not_refused (by simp)), fun _ ⟨_, ops, hm', x, hx, hxo⟩ => absurd hxo (hno hm' x hx),
    fun hal _ _ => ?_⟩
  · cases hn : (notes btr)[b]? with
    | none => exact ⟨_, by simp only [BWorld.step, h.note_none hn]; rfl⟩
    | some n =>
      have hb := h.note hn
      have ht : n.there = false := by
        cases ht : n.there with
        | false => rfl
        | true => exact absurd ⟨n, hn, ht⟩ hna
      simp only [cell, ht] at hb
      exact ⟨_, by simp only [BWorld.step, hb]; rfl⟩
  · obtain ⟨n, hn, ht⟩ := hal
    have hb := h.note hn
    simp only [cell, ht] at hb
    generalize hx : (if n.usable = true then some (builder n) else none) = x at hb
    have hbm := List.mem_of_getElem? hb
    have hcells : ∀ ev, bw.builders.set b ⟨x, n.keeps, false⟩ = (notes (btr ++ [(.dropBuilder b, ev)])).map cell := by
      intro ev
      rw [notes_snoc]
      simp only [noteStep]
      rw [modify_of_getElem? hn, h.cells]
      simp [cell, hx, builder, limits] <;> rw [← hx] <;> rfl
    have hmem : ∀ u ev ev', (BOp.dropObject u, ev) ∉ btr ++ [(.dropBuilder b, ev')] ↔ (BOp.dropObject u, ev) ∉ btr := by
      intro u ev ev'; simp
    have hheld : ∀ t, Held (btr ++ [(.dropBuilder b, [])]) tr t ↔
        ({ bw with builders := bw.builders.set b ⟨x, n.keeps, false⟩ } : BWorld α φ).clientRef t = true := by
      intro t
      refine held_iff (fun u => ?_) (hcells []) t
      show bw.object u = true ↔ _
      rw [h.object]
      unfold Object
      simp only [hmem]
    obtain ⟨w', l, tr', h1, h2, h3, h4⟩ := release n.keeps (bw := { bw with builders := bw.builders.set b ⟨x, n.keeps, false⟩ })
        h.reach (h.inv.nodup _ hbm) (by
        intro t
        show bw.w.hasHandle t = _
        rw [h.inv.handle, Bool.eq_iff_iff, Bool.or_eq_true, clientRef_iff, clientRef_iff, decide_eq_true_eq, or_assoc]
        apply or_congr Iff.rfl
        constructor
        · rintro ⟨c, hc, hca, hcs⟩
          rcases mem_set_other (c' := ⟨x, n.keeps, false⟩) hb hc with rfl | hc
          · exact Or.inr hcs
          · exact Or.inl ⟨c, hc, hca, hcs⟩
        · rintro (⟨c, hc, hca, hcs⟩ | hcs)
          · rcases List.mem_or_eq_of_mem_set hc with hc | rfl
            · exact ⟨c, hc, hca, hcs⟩
            · simp at hca
          · exact ⟨_, hbm, rfl, hcs⟩) hheld
    have hstep : bw.step (.dropBuilder b) = .ok ({ bw with builders := bw.builders.set b ⟨x, n.keeps, false⟩, w := w' }, tr'.events) := by
      simp only [BWorld.step, hb, h3]
    refine ⟨_, tr', hstep, by rw [h2]; exact .dropBuilder hn h1, Whole.reach_lawful h4, h4, (h.inv.step h.reach hstep).1, ?_, ?_, hcells _⟩
    · intro t ht'; simp only [hmem]; exact h.objs t ht'
    · intro t ht' ev'; rw [hmem]; exact h.fresh t ht' ev'

theorem does_moveBuilder {btr : BTrace α φ} {tr : Trace α} {bw : BWorld α φ} (h : Sim btr tr bw) (b : Nat) :
    Does btr tr bw (.moveBuilder b) := by
  refine ⟨fun hna => ?_, fun _ hr => absurd hr (not_refused (by simp)), fun _ ⟨_, ops, hm', x, hx, hxo⟩ => (by cases hm'; cases hx),
    fun hal _ _ => ?_⟩
  · cases hn : (notes btr)[b]? with
    | none => exact ⟨_, by simp only [BWorld.step, h.note_none hn]; rfl⟩
    | some n =>
      have hb := h.note hn
      have ht : n.there = false := by
        cases ht : n.there with
        | false => rfl
        | true => exact absurd ⟨n, hn, ht⟩ hna
      simp only [cell, ht] at hb
      exact ⟨_, by simp only [BWorld.step, hb]; rfl⟩
  · obtain ⟨n, hn, ht⟩ := hal
    have hb := h.note hn
    have hc : cell n = ⟨if n.usable = true then some (builder n) else none, n.keeps, true⟩ := by simp [cell, ht]
    have hs : bw.step (.moveBuilder b) = .ok ({ bw with builders := bw.builders.set b ⟨none, [], true⟩ ++ [cell n] }, []) := by
      rw [hc] at hb ⊢
      simp only [BWorld.step, hb]
    refine ⟨_, [], hs, .moveBuilder, by rw [List.append_nil]; exact Whole.reach_lawful h.reach, by rw [List.append_nil]; exact h.reach,
      (h.inv.step h.reach hs).1, ?_, ?_, ?_⟩
    · intro s hs'; rw [h.objs s hs']; simp
    · intro s hs' ev'; simpa using h.fresh s hs' ev'
    · rw [notes_snoc]
      simp only [noteStep, hn, List.map_append, List.map_set, h.cells, List.map_cons, List.map_nil]
      have e1 : cell { n with usable := false, keeps := [] } = ⟨none, [], true⟩ := by simp [cell, ht]
      rw [e1]

theorem Sim.does {btr : BTrace α φ} {tr : Trace α} {bw : BWorld α φ} (h : Sim btr tr bw) (op : BOp α φ) : Does btr tr bw op := by
  cases op with
  | newSequence st => exact does_newSequence h st
  | dropObject s => exact does_dropObject h s
  | newMock => exact does_plain h rfl .newMock Iff.rfl (by simp [Trace.overflows]) (fun _ => rfl) (by simp) (by simp)
  | beginExpect m rv args => exact does_beginExpect h m rv args
  | extend b item => exact does_extend h b item
  | finalize b => exact does_finalize h b
  | dropBuilder b => exact does_dropBuilder h b
  | moveBuilder b => exact does_moveBuilder h b
  | call m a => exact does_plain h rfl .call Iff.rfl (by simp [Trace.overflows]) (fun _ => rfl) (by simp) (by simp)
  | destroy e => exact does_plain h rfl .destroy Iff.rfl (by simp [Trace.overflows]) (fun _ => rfl) (by simp) (by simp)

/-! ### All rules -/

theorem prescribed_unique {btr : BTrace α φ} {tr : Trace α} {op : BOp α φ} {ev ev' : List Event} {l l' : Trace α}
    (h : Prescribed btr tr op ev l) (h' : Prescribed btr tr op ev' l') : ev = ev' ∧ l = l' := by
  cases h with
  | refused h1 =>
    cases h' with
    | refused _ => exact ⟨rfl, rfl⟩
    | done h2 _ _ => exact absurd h1 h2
  | done h1 h2 h3 =>
    cases h' with
    | refused h4 => exact absurd h4 h1
    | done _ h5 h6 =>
      have := Whole.lawful_unique_aux _ h3 h6 (means_unique h2 h5)
      subst this; exact ⟨rfl, rfl⟩

/-- A prescribed operation does not terminate the program. -/
theorem not_terminates {btr : BTrace α φ} {tr : Trace α} {op : BOp α φ} {ev : List Event} {l : Trace α}
    (h : Prescribed btr tr op ev l) : ¬ Terminates btr tr op := by
  rintro ⟨ha, ops, hm, o, ho, hov⟩
  cases hm with
  | finalize hn =>
    rw [List.mem_singleton] at ho; subst ho
    cases h with
    | refused h1 => obtain ⟨_, _, _, he, _⟩ := h1; cases he
    | done _ h2 h3 =>
      have := means_unique h2 (.finalize hn)
      cases l with
      | nil => cases this
      | cons x l =>
        obtain ⟨o, e⟩ := x
        simp only [List.map_cons, List.cons.injEq] at this
        have := h3 tr o e l rfl
        rename_i heq
        rw [heq.1] at this
        exact this.2.1 hov
  | dropObject _ => obtain ⟨x, _, rfl⟩ := List.mem_map.mp ho; exact hov
  | dropBuilder _ _ => obtain ⟨x, _, rfl⟩ := List.mem_map.mp ho; exact hov
  | beginExpect => cases ho
  | extend => cases ho
  | moveBuilder => cases ho
  | newSequence => rw [List.mem_singleton] at ho; subst ho; exact hov
  | newMock => rw [List.mem_singleton] at ho; subst ho; exact hov
  | call => rw [List.mem_singleton] at ho; subst ho; exact hov
  | destroy => rw [List.mem_singleton] at ho; subst ho; exact hov

/-- What happens next, in both directions. -/
theorem Sim.step_iff {btr : BTrace α φ} {tr : Trace α} {bw : BWorld α φ} (h : Sim btr tr bw) (op : BOp α φ) (ev : List Event) :
    (∃ bw', bw.step op = .ok (bw', ev)) ↔ Allowed btr tr op ∧ ¬ Terminates btr tr op ∧ ∃ l, Prescribed btr tr op ev l := by
  have hd := h.does op
  constructor
  · rintro ⟨bw', hs⟩
    have ha : Allowed btr tr op := by
      apply Classical.byContradiction; intro hn
      obtain ⟨why, hy⟩ := hd.no hn
      rw [hy] at hs; cases hs
    by_cases hr : Refused btr op
    · obtain ⟨h1, _, h3⟩ := hd.refused ha hr
      rw [h1] at hs; injection hs with hs; injection hs with _ hs; subst hs
      exact ⟨ha, h3, [], .refused hr⟩
    · by_cases ht : Terminates btr tr op
      · obtain ⟨why, hy⟩ := hd.ends hr ht
        rw [hy] at hs; cases hs
      · obtain ⟨bw'', l, h1, h2, h3, _⟩ := hd.done ha hr ht
        rw [h1] at hs; injection hs with hs; injection hs with _ hs; subst hs
        exact ⟨ha, ht, l, .done hr h2 h3⟩
  · rintro ⟨ha, ht, l, hp⟩
    by_cases hr : Refused btr op
    · obtain ⟨h1, _, _⟩ := hd.refused ha hr
      rw [(prescribed_unique hp (.refused hr)).1]
      exact ⟨_, h1⟩
    · obtain ⟨bw'', l', h1, h2, h3, _⟩ := hd.done ha hr ht
      rw [(prescribed_unique hp (.done hr h2 h3)).1]
      exact ⟨_, h1⟩

/-- When nothing happens next. -/
theorem Sim.stops {btr : BTrace α φ} {tr : Trace α} {bw : BWorld α φ} (h : Sim btr tr bw) (op : BOp α φ) :
    ((∃ why, bw.step op = .error (.terminate why)) ↔ Terminates btr tr op) ∧
    ((∃ why, bw.step op = .error (.client why)) ↔ ¬ Allowed btr tr op) ∧ ∀ why, bw.step op ≠ .error (.ub why) := by
  have hd := h.does op
  by_cases ha : Allowed btr tr op
  · by_cases hr : Refused btr op
    · obtain ⟨h1, _, h3⟩ := hd.refused ha hr
      simp [h1, ha, h3]
    · by_cases ht : Terminates btr tr op
      · obtain ⟨why, hy⟩ := hd.ends hr ht
        simp [hy, ha, ht]
      · obtain ⟨bw'', l, h1, _⟩ := hd.done ha hr ht
        simp [h1, ha, ht]
  · obtain ⟨why, hy⟩ := hd.no ha
    have ht : ¬ Terminates btr tr op := fun ht => ha ht.1
    simp [hy, ha, ht]

theorem lawful_silent (l : Trace α) : ∀ {tr : Trace α}, Whole.Lawful (tr ++ l) →
    (∀ m min max ss ps, Op.expect m min max ss ps ∈ l.map (·.1) → Spec.validTimes min max ∧ ss.Nodup) →
    l.events.filter (fun e => decide (e ≠ .rejected)) = l.events := by
  induction l with
  | nil => intro _ _ _; rfl
  | cons x l ih =>
    intro tr hl hx
    obtain ⟨o, ev⟩ := x
    have he : tr ++ (o, ev) :: l = (tr ++ [(o, ev)]) ++ l := by simp
    obtain ⟨h1, h2, h3⟩ := hl tr o ev l rfl
    obtain ⟨w, hr⟩ := Whole.lawful_reach (Whole.lawful_prefix hl)
    obtain ⟨w', hs⟩ := Whole.step_prescribed hr h1 h2 h3
    have e1 := no_rejected hr hs (fun m min max ss ps heq => hx m min max ss ps (by rw [← heq]; simp))
    rw [he] at hl
    have e2 := ih hl (fun m min max ss ps hmem => hx m min max ss ps (List.mem_cons_of_mem _ hmem))
    have e3 : Trace.events ((o, ev) :: l) = ev ++ Trace.events l := rfl
    rw [e3, List.filter_append, e1, e2]

/-- Nothing is refused later, when the expectation is made. -/
theorem silent {btr : BTrace α φ} {tr l : Trace α} {bw : BWorld α φ} (h : Sim btr tr bw) {op : BOp α φ} (ha : Allowed btr tr op)
    (hm : Means btr tr op (l.map (·.1))) (hl : Whole.Lawful (tr ++ l)) :
    l.events.filter (fun e => decide (e ≠ .rejected)) = l.events := by
  refine lawful_silent l hl (fun m min max ss ps hmem => ?_)
  generalize l.map (·.1) = ops at hm hmem
  cases hm with
  | @finalize b n hn =>
    obtain ⟨n', hn', ht, hu, _⟩ := ha
    rw [hn] at hn'; injection hn' with hn'; subst hn'
    rw [List.mem_singleton] at hmem
    injection hmem with e1 e2 e3 e4 e5
    subst e2; subst e3; subst e4
    have hc := List.mem_of_getElem? (h.note hn)
    have := h.inv.cell _ hc (builder n) (by simp [cell, hu])
    refine ⟨this.2.2.1, ?_⟩
    rw [← (h.keeps hn hu).1]
    exact h.inv.nodup _ hc
  | dropObject _ => obtain ⟨x, _, hx⟩ := List.mem_map.mp hmem; cases hx
  | dropBuilder _ _ => obtain ⟨x, _, hx⟩ := List.mem_map.mp hmem; cases hx
  | _ => simp at hmem

theorem Sim.next {btr : BTrace α φ} {tr l : Trace α} {bw bw' : BWorld α φ} (h : Sim btr tr bw) {op : BOp α φ} {ev : List Event}
    (hs : bw.step op = .ok (bw', ev)) (hp : Prescribed btr tr op ev l) : Sim (btr ++ [(op, ev)]) (tr ++ l) bw' := by
  have hd := h.does op
  obtain ⟨ha, ht, _⟩ := (h.step_iff op ev).mp ⟨_, hs⟩
  by_cases hr : Refused btr op
  · obtain ⟨h1, h2, _⟩ := hd.refused ha hr
    obtain ⟨e1, e2⟩ := prescribed_unique hp (.refused hr)
    subst e1; subst e2
    rw [h1] at hs; injection hs with hs; injection hs with hs _; subst hs
    rw [List.append_nil]; exact h2
  · obtain ⟨bw'', l', h1, h2, h3, h4⟩ := hd.done ha hr ht
    obtain ⟨e1, e2⟩ := prescribed_unique hp (.done hr h2 h3)
    subst e1; subst e2
    rw [h1] at hs; injection hs with hs; injection hs with hs _; subst hs
    exact h4

theorem reach_sim {btr : BTrace α φ} {bw : BWorld α φ} (h : BReach btr bw) : ∃ tr, Lawful btr tr ∧ Sim btr tr bw := by
  induction h with
  | init => exact ⟨[], .nil, .init⟩
  | step _ hs ih =>
    obtain ⟨tr, hl, hsim⟩ := ih
    obtain ⟨ha, _, l, hp⟩ := (hsim.step_iff _ _).mp ⟨_, hs⟩
    exact ⟨tr ++ l, .step hl ha hp, hsim.next hs hp⟩

theorem lawful_sim {btr : BTrace α φ} {tr : Trace α} (h : Lawful btr tr) : ∃ bw, BReach btr bw ∧ Sim btr tr bw := by
  induction h with
  | nil => exact ⟨_, .init, .init⟩
  | step _ ha hp ih =>
    obtain ⟨bw, hr, hsim⟩ := ih
    obtain ⟨bw', hs⟩ := (hsim.step_iff _ _).mpr ⟨ha, not_terminates hp, _, hp⟩
    exact ⟨bw', hr.step hs, hsim.next hs hp⟩

theorem lawful_nil {tr : Trace α} (h : Lawful ([] : BTrace α φ) tr) : tr = [] := by
  generalize hb : ([] : BTrace α φ) = btr at h
  cases h with
  | nil => rfl
  | step _ _ _ => simp at hb

theorem lawful_snoc {btr : BTrace α φ} {op : BOp α φ} {ev : List Event} {tr' : Trace α} (h : Lawful (btr ++ [(op, ev)]) tr') :
    ∃ tr l, tr' = tr ++ l ∧ Lawful btr tr ∧ Allowed btr tr op ∧ Prescribed btr tr op ev l := by
  generalize hb : btr ++ [(op, ev)] = b at h
  cases h with
  | nil => simp at hb
  | step h1 h2 h3 =>
    obtain ⟨e1, e2⟩ := List.append_inj' hb rfl
    injection e2 with e2 _
    injection e2 with e2 e3
    subst e1; subst e2; subst e3
    exact ⟨_, _, rfl, h1, h2, h3⟩

theorem lawful_unique {btr : BTrace α φ} {tr : Trace α} (h : Lawful btr tr) : ∀ {btr' : BTrace α φ} {tr' : Trace α}, Lawful btr' tr' →
    btr.map (·.1) = btr'.map (·.1) → btr = btr' ∧ tr = tr' := by
  induction h with
  | nil =>
    intro btr' tr' h' he
    have : btr' = [] := by simpa using he.symm
    subst this
    exact ⟨rfl, (lawful_nil h').symm⟩
  | @step btr tr l op ev h1 h2 h3 ih =>
    intro btr' tr' h' he
    cases h' with
    | nil => simp at he
    | step g1 g2 g3 =>
      simp only [List.map_append, List.map_cons, List.map_nil] at he
      obtain ⟨e1, e2⟩ := List.append_inj' he rfl
      injection e2 with e2 _
      obtain ⟨e3, e4⟩ := ih g1 e1
      subst e2; subst e3; subst e4
      obtain ⟨e5, e6⟩ := prescribed_unique h3 g3
      subst e5; subst e6
      exact ⟨rfl, rfl⟩

theorem runs_lawful {σ : Type} {start : σ} {step : σ → BOp α φ → Option (σ × List Event)}
    (hdoes : ∀ btr tr q op, Runs step start btr q → Lawful btr tr → Allowed btr tr op → ¬ Terminates btr tr op →
      ∃ q' ev l, step q op = some (q', ev) ∧ Prescribed btr tr op ev l)
    (hnot : ∀ btr tr q op, Runs step start btr q → Lawful btr tr → ¬ (Allowed btr tr op ∧ ¬ Terminates btr tr op) → step q op = none)
    (btr : BTrace α φ) : (∃ q, Runs step start btr q) ↔ ∃ tr, Lawful btr tr := by
  constructor
  · rintro ⟨q, h⟩
    induction h with
    | init => exact ⟨[], .nil⟩
    | @step btr q q' op ev hr hs ih =>
      obtain ⟨tr, hl⟩ := ih
      by_cases hc : Allowed btr tr op ∧ ¬ Terminates btr tr op
      · obtain ⟨q'', ev', l, h1, h2⟩ := hdoes _ _ _ _ hr hl hc.1 hc.2
        rw [h1] at hs; injection hs with hs; injection hs with _ hs; subst hs
        exact ⟨_, .step hl hc.1 h2⟩
      · rw [hnot _ _ _ _ hr hl hc] at hs; cases hs
  · rintro ⟨tr, h⟩
    induction h with
    | nil => exact ⟨_, .init⟩
    | step hl ha hp ih =>
      obtain ⟨q, hr⟩ := ih
      obtain ⟨q', ev', l', h1, h2⟩ := hdoes _ _ _ _ hr hl ha (not_terminates hp)
      rw [(prescribed_unique hp h2).1]
      exact ⟨q', hr.step h1⟩

end Mimic.Builders
