import Verif.Proofs.BuilderWorld
import Verif.Props.SequenceEnd

/-!
# C19, C20: building expectations
-/

set_option autoImplicit false

namespace Mimic

variable {α φ : Type}

/-! ### C20 -/

/-- C20: what a builder expression `mock.expect_call(args...) && i₁ && i₂ && ...` does. It compiles iff there is at
most one times policy and at most one finalizer; it throws iff limits are illegal or a sequence is mentioned
twice; otherwise the builder holds exactly the ingredients, in the order they were written. -/
theorem C20_compose (coll : Nat) (rv : Bool) (args : List (Policy α)) (is : List (Item α φ)) :
    match (Builder.start coll rv args).build is with
    | .illFormed => 1 < (timesOf is).length ∨ 1 < (finalizersOf is).length
    | .threw => (timesOf is).length ≤ 1 ∧ (finalizersOf is).length ≤ 1 ∧
        ((∃ t ∈ timesOf is, ¬ (0 ≤ t.1 ∧ t.1 ≤ t.2)) ∨ ¬ (sequencesOf is).Nodup)
    | .ok b => (timesOf is).length ≤ 1 ∧ (finalizersOf is).length ≤ 1 ∧
        (∀ t ∈ timesOf is, 0 ≤ t.1 ∧ t.1 ≤ t.2) ∧ (sequencesOf is).Nodup ∧
        b.coll = coll ∧ b.policies = args ++ policiesOf is ∧ b.seqs = sequencesOf is ∧
        b.finalizer = (finalizersOf is).head? ∧
        (b.times.min, b.times.max) = (timesOf is).head?.getD (1, 1) := by
  unfold Builder.build
  have htc := typeChecks_iff is (Builder.start (φ := φ) coll rv args).timesConfigured
    (Builder.start (φ := φ) coll rv args).finalizer.isSome
  by_cases ht : typeChecks (Builder.start (φ := φ) coll rv args).timesConfigured
    (Builder.start (φ := φ) coll rv args).finalizer.isSome is = true
  · rw [if_pos ht]
    have hc := htc.mp ht
    simp only [Builder.start, Option.isSome_none, Bool.toNat_false, Nat.zero_add] at hc
    obtain ⟨h1, h2⟩ := eval_eq is (Builder.start coll rv args) ht (by simp [Builder.start])
    have hseqs : (Builder.start (φ := φ) coll rv args).seqs = [] := rfl
    rw [hseqs, List.nil_append] at h1 h2
    by_cases hv : (∀ t ∈ timesOf is, 0 ≤ t.1 ∧ t.1 ≤ t.2) ∧ (sequencesOf is).Nodup
    · obtain ⟨b', e0, e1, _, e3, e4, e5, e6⟩ := h1 hv
      rw [e0]
      refine ⟨hc.1, hc.2, hv.1, hv.2, e1, e3, e4, ?_, ?_⟩
      · rw [e5]; rfl
      · rw [e6]
        unfold finalTimes
        cases (timesOf is).head? <;> rfl
    · rw [h2 hv]
      refine ⟨hc.1, hc.2, ?_⟩
      by_cases hn : (sequencesOf is).Nodup
      · left
        apply Classical.byContradiction
        intro hne
        apply hv
        refine ⟨?_, hn⟩
        intro t ht
        apply Classical.byContradiction
        intro hnt
        exact hne ⟨t, ht, hnt⟩
      · exact Or.inr hn
  · rw [if_neg ht]
    rw [htc] at ht
    simp only [Builder.start, Option.isSome_none, Bool.toNat_false, Nat.zero_add] at ht
    simp only
    omega

/-- All three results occur. -/
example :
    (∃ b, (Builder.start 0 true [] : Builder Nat Unit).build
      [.times 2 3, .sequences [4], .policy (onlyArg 1), .finalizer (), .sequences [1, 2]] = .ok b) ∧
    (Builder.start 0 true [] : Builder Nat Unit).build [.sequences [4], .sequences [1, 4]] = .threw ∧
    (Builder.start 0 true [] : Builder Nat Unit).build [.times 1 1, .times 1 1] = .illFormed :=
  ⟨⟨_, rfl⟩, rfl, rfl⟩

/-- C20: the same step by step: a builder object made by the items `pre` can be extended by a further item iff the
whole expression so far compiles (and the item mentions only existing sequence objects and `int` limits). -/
theorem C20_stepwise {bw : BWorld α φ} {b coll : Nat} {rv : Bool} {args : List (Policy α)} {pre : List (Item α φ)}
    {x : Builder α φ} {refs : List Nat} (hb : bw.builders[b]? = some ⟨some x, refs, true⟩)
    (hx : (Builder.start coll rv args).build pre = .ok x) (i : Item α φ) :
    (∃ bw' ev, bw.step (.extend b i) = .ok (bw', ev)) ↔
      (timesOf (pre ++ [i])).length ≤ 1 ∧ (finalizersOf (pre ++ [i])).length ≤ 1 ∧ bw.usable i = true := by
  have hc := C20_compose coll rv args pre
  rw [hx] at hc
  obtain ⟨h1, h2, _, _, _, _, _, h5, _⟩ := hc
  have ht := build_timesConfigured hx
  have hacc : x.accepts i = true ↔ (timesOf (pre ++ [i])).length ≤ 1 ∧ (finalizersOf (pre ++ [i])).length ≤ 1 := by
    have hf : x.finalizer.isNone = true ↔ (finalizersOf pre).length = 0 := by
      rw [h5]
      cases finalizersOf pre <;> simp
    have e1 : timesOf (pre ++ [i]) = timesOf pre ++ timesOf [i] := by simp [timesOf, List.filterMap_append]
    have e2 : finalizersOf (pre ++ [i]) = finalizersOf pre ++ finalizersOf [i] := by
      simp [finalizersOf, List.filterMap_append]
    rw [e1, e2, List.length_append, List.length_append]
    cases i with
    | policy p => simpa [Builder.accepts, timesOf, finalizersOf] using ⟨h1, h2⟩
    | sequences ss => simpa [Builder.accepts, timesOf, finalizersOf] using ⟨h1, h2⟩
    | finalizer f =>
      have a1 : timesOf ([.finalizer f] : List (Item α φ)) = [] := rfl
      have a2 : finalizersOf ([.finalizer f] : List (Item α φ)) = [f] := rfl
      simp only [Builder.accepts, a1, a2, hf, List.length_nil, List.length_singleton]
      omega
    | times mn mx =>
      have a1 : timesOf ([.times mn mx] : List (Item α φ)) = [(mn, mx)] := rfl
      have a2 : finalizersOf ([.times mn mx] : List (Item α φ)) = [] := rfl
      simp only [Builder.accepts, a1, a2, List.length_nil, List.length_singleton, Bool.not_eq_true']
      cases hh : x.timesConfigured with
      | true => simp only [hh, true_iff] at ht; simp only [Bool.true_eq_false, false_iff]; omega
      | false =>
        simp only [hh, Bool.false_eq_true, false_iff] at ht
        simp only [true_iff]; omega
  rw [← and_assoc, ← hacc]
  simp only [BWorld.step, hb]
  by_cases h : (x.accepts i && bw.usable i) = true
  · rw [if_pos h]
    simp only [Bool.and_eq_true] at h
    refine ⟨fun _ => h, fun _ => ?_⟩
    cases x.and i with
    | none => exact ⟨_, _, rfl⟩
    | some x' => exact ⟨_, _, rfl⟩
  · rw [if_neg h]
    simp only [Bool.and_eq_true] at h
    simp [h]

/-- A builder with limits does not accept further limits, but a sequence. -/
example : ∃ (x : Builder Nat Unit) (bw : BWorld Nat Unit), (Builder.start 0 true []).build [.times 1 2] = .ok x ∧
    bw.builders[0]? = some ⟨some x, [], true⟩ ∧ bw.usable (.times 1 2) = true ∧ bw.usable (.sequences [0]) = true :=
  ⟨_, { w := World.init, objs := [true], builders := [⟨some _, [], true⟩] }, rfl, rfl, by decide, by decide⟩

/-- C20: builders have no effect: starting, extending (also unsuccessfully) and moving leaves all mocks, sequences and
expectations as they are and reports nothing but the rejection. -/
theorem C20_inert {bw bw' : BWorld α φ} {ev : List Event} :
    (∀ coll rv args, bw.step (.beginExpect coll rv args) = .ok (bw', ev) → bw'.w = bw.w ∧ ev = []) ∧
    (∀ b item, bw.step (.extend b item) = .ok (bw', ev) →
      bw'.w = bw.w ∧ (ev = [] ∨ ev = [.rejected] ∧ bw' = bw)) ∧
    (∀ b, bw.step (.moveBuilder b) = .ok (bw', ev) → bw'.w = bw.w ∧ ev = []) := by
  refine ⟨?_, ?_, ?_⟩
  · intro coll rv args hs
    simp only [BWorld.step] at hs
    split at hs
    · simp only [Except.ok.injEq, Prod.mk.injEq] at hs
      obtain ⟨rfl, rfl⟩ := hs
      exact ⟨rfl, rfl⟩
    · simp at hs
  · intro b item hs
    simp only [BWorld.step] at hs
    split at hs
    · split at hs
      · split at hs <;> simp only [Except.ok.injEq, Prod.mk.injEq] at hs <;> obtain ⟨rfl, rfl⟩ := hs
        · exact ⟨rfl, Or.inr ⟨rfl, rfl⟩⟩
        · exact ⟨rfl, Or.inl rfl⟩
      · simp at hs
    · simp at hs
  · intro b hs
    simp only [BWorld.step] at hs
    split at hs
    · simp only [Except.ok.injEq, Prod.mk.injEq] at hs
      obtain ⟨rfl, rfl⟩ := hs
      exact ⟨rfl, rfl⟩
    · simp at hs

/-- C20: whatever a client does with builders, what is observed (apart from rejections) is the history of a client
that creates each expectation in one go at the moment its builder is turned into a `ScopedExpectation`.
So all theorems about histories hold for clients with builders. -/
theorem C20_transparent {btr : BTrace α φ} {bw : BWorld α φ} (h : BReach btr bw) :
    ∃ tr, Reach tr bw.w ∧
      tr.events = (btr.flatMap (·.2)).filter (fun e => decide (e ≠ .rejected)) :=
  h.sim.2

/-- C20: a builder to which sequences were added is used up, but goes on sharing ownership of the sequences it had
before: none of them ends as long as the used-up builder object exists and is not moved. -/
theorem C20_keeps {btr : BTrace α φ} {bw bw1 bw2 : BWorld α φ} (h : BReach btr bw) {b : Nat} {x : Builder α φ}
    {refs ss : List Nat} (hb : bw.builders[b]? = some ⟨some x, refs, true⟩)
    (hs : bw.step (.extend b (.sequences ss)) = .ok (bw1, [])) {rest : BTrace α φ} (hrest : BSteps bw1 rest bw2)
    (hd : ∀ ev, (.dropBuilder b, ev) ∉ rest ∧ (.moveBuilder b, ev) ∉ rest) {s : Nat} (hsx : s ∈ x.seqs) :
    Event.sequenceDestroyed s ∉ (btr ++ (.extend b (.sequences ss), []) :: rest).flatMap (·.2) := by
  have h1 := h.step hs
  have hcell : ∃ refs', bw1.builders[b]? = some ⟨none, refs', true⟩ ∧ s ∈ refs' := by
    simp only [BWorld.step, hb] at hs
    split at hs
    · split at hs
      · simp at hs
      · simp only [Except.ok.injEq, Prod.mk.injEq] at hs
        refine ⟨x.seqs, ?_, hsx⟩
        have hlt := (List.getElem?_eq_some_iff.mp hb).1
        rw [← hs.1]
        simp only [Item.leftOver]
        rw [List.getElem?_append_left (by simpa using hlt), List.getElem?_set_self hlt]
    · simp at hs
  have key : ∀ {rest bw2}, BSteps bw1 rest bw2 → (∀ ev, (.dropBuilder b, ev) ∉ rest ∧ (.moveBuilder b, ev) ∉ rest) →
      BReach (btr ++ (.extend b (.sequences ss), []) :: rest) bw2 ∧
      ∃ refs', bw2.builders[b]? = some ⟨none, refs', true⟩ ∧ s ∈ refs' := by
    intro rest bw2 hr
    induction hr with
    | nil => intro _; exact ⟨h1, hcell⟩
    | @snoc l bwa bwb op ev hl hst ih =>
      intro hd
      obtain ⟨i1, refs', i2, i3⟩ := ih (fun ev => ⟨fun hm => (hd ev).1 (by simp [hm]), fun hm => (hd ev).2 (by simp [hm])⟩)
      refine ⟨by simpa using i1.step hst, ?_⟩
      have hne : op ≠ .dropBuilder b := by rintro rfl; exact (hd ev).1 (by simp)
      have hnm : op ≠ .moveBuilder b := by rintro rfl; exact (hd ev).2 (by simp)
      exact ⟨refs', builder_stays hst hne hnm i2, i3⟩
  obtain ⟨k1, refs', k2, k3⟩ := key hrest hd
  obtain ⟨hi, tr, hr, he⟩ := k1.sim
  intro hmem
  have hend : Event.sequenceDestroyed s ∈ tr.events := by
    rw [he]
    simp only [List.mem_filter]
    exact ⟨hmem, by simp⟩
  rw [C16_ended_iff hr] at hend
  apply hend.2
  rw [← hr.view.2.owned_iff]
  apply owned_of_handle
  rw [hasHandle_abs, hi.handle, clientRef_iff]
  exact Or.inr ⟨_, List.mem_of_getElem? k2, rfl, k3⟩

/-- The moved-from builder 1 is the last owner of sequence 0. -/
example : ∃ btr bw bw1 bw2, BReach (α := Nat) (φ := Unit) btr bw ∧ bw.step (.extend 1 (.sequences [1])) = .ok (bw1, []) ∧
    BSteps bw1 [(.dropBuilder 2, []), (.dropObject 0, [])] bw2 ∧
    ∃ bw3, bw2.step (.dropBuilder 1) = .ok (bw3, [.sequenceDestroyed 0]) :=
  ⟨_, _, _, _, .step (op := .extend 0 (.sequences [0])) (.step (op := .beginExpect 0 true []) (.step (op := .newMock)
    (.step (op := .newSequence .lazy) (.step (op := .newSequence .lazy) .init rfl) rfl) rfl) rfl) rfl,
    rfl, .snoc (l := [_]) (.snoc (l := []) .nil rfl) rfl, _, rfl⟩

/-- C20: turning a builder into a `ScopedExpectation` creates an expectation with exactly the builder's ingredients;
the only way it can fail is the capacity of a sequence. -/
theorem C20_finalize {btr : BTrace α φ} {bw : BWorld α φ} (h : BReach btr bw) {b : Nat} {x : Builder α φ}
    {refs : List Nat} (hb : bw.builders[b]? = some ⟨some x, refs, true⟩)
    (hf : x.returnsVoid = true ∨ x.finalizer ≠ none) {tr : Trace α} (hr : Reach tr bw.w) :
    (∃ bw' ev e, bw.step (.finalize b) = .ok (bw', ev) ∧ ev = [.created e] ∧ tr.decl e = none ∧
      ∃ tr', Reach tr' bw'.w ∧ tr' = tr ++ [(Op.expect x.coll x.times.min x.times.max x.seqs x.policies, ev)] ∧
      tr'.decl e = some ⟨x.coll, x.times.min, x.times.max, x.seqs, x.policies⟩) ∨
    ((∃ s ∈ x.seqs, tr.atCapacity s) ∧ ∃ why, bw.step (.finalize b) = .error (.terminate why)) := by
  have hi := h.sim.1
  have hbm := List.mem_of_getElem? hb
  obtain ⟨c1, c2, c3, c4, c5⟩ := hi.cell _ hbm x rfl
  simp only at c1
  subst c1
  have hnd : x.seqs.Nodup := hi.nodup _ hbm
  have hfin : (x.returnsVoid || x.finalizer.isSome) = true := by
    rcases hf with hf | hf
    · simp [hf]
    · cases hx : x.finalizer with
      | none => exact absurd hx hf
      | some _ => simp
  have hval : tr.valid (.expect x.coll x.times.min x.times.max x.seqs x.policies) := by
    refine ⟨(hr.view.2.mocks _).mpr c2, ?_, ?_, ?_⟩
    · intro s hs
      rw [← hr.view.2.hasHandle_iff, hasHandle_abs, hi.handle, clientRef_iff]
      exact Or.inr ⟨_, hbm, rfl, hs⟩
    · have := c4
      unfold isInt intMin intMax at this
      simpa using this
    · have := c5
      unfold isInt intMin intMax at this
      simpa using this
  have hstep : ∀ r, bw.w.step (.expect x.coll x.times.min x.times.max x.seqs x.policies) = r →
      bw.step (.finalize b) = match r with
        | .error e => .error e
        | .ok (w', ev) => .ok ({ bw with w := w', builders := bw.builders.set b ⟨none, x.seqs, true⟩ }, ev) := by
    intro r hr
    subst hr
    simp only [BWorld.step, hb, hfin, if_true, bind, Except.bind]
    cases bw.w.step (.expect x.coll x.times.min x.times.max x.seqs x.policies) <;> rfl
  by_cases hov : tr.overflows (.expect x.coll x.times.min x.times.max x.seqs x.policies)
  · right
    obtain ⟨why, hw⟩ := (C17_progress hr _).2.1 hval hov
    exact ⟨hov.2.2, why, by rw [hstep _ hw]⟩
  · left
    obtain ⟨w', ev, hw⟩ := (C17_progress hr _).1 hval hov
    have hspec := hr.spec_step hw
    simp only [Spec.State.step] at hspec
    split at hspec
    · rw [if_pos ⟨c3, hnd⟩] at hspec
      simp only [Option.some.injEq, Prod.mk.injEq] at hspec
      refine ⟨_, ev, _, hstep _ hw, hspec.2.symm, ?_, _, hr.step hw, rfl, ?_⟩
      · have := hr.view.2.exps (abs bw.w).exps.length
        rw [List.getElem?_eq_none (Nat.le_refl _)] at this
        cases hd : tr.decl (abs bw.w).exps.length with
        | none => rfl
        | some d => rw [hd] at this; simp at this
      · have hnone : tr.decl (abs bw.w).exps.length = none := by
          have := hr.view.2.exps (abs bw.w).exps.length
          rw [List.getElem?_eq_none (Nat.le_refl _)] at this
          cases hd : tr.decl (abs bw.w).exps.length with
          | none => rfl
          | some d => rw [hd] at this; simp at this
        rw [decl_snoc, hnone, ← hspec.2]
        simp [declStep]
    · simp at hspec

/-- C20: a client with builders never runs into undefined behaviour either. -/
theorem C20_no_ub {btr : BTrace α φ} {bw : BWorld α φ} (h : BReach btr bw) (op : BOp α φ) (why : String) :
    bw.step op ≠ .error (.ub why) := by
  obtain ⟨hi, tr, hr, _⟩ := h.sim
  have plain : ∀ o, bw.plain o ≠ .error (.ub why) := by
    intro o hc
    simp only [BWorld.plain, bind, Except.bind] at hc
    cases hw : bw.w.step o with
    | error x =>
      rw [hw] at hc
      simp only [Except.error.injEq] at hc
      rw [hc] at hw
      exact C17_no_ub hr o why hw
    | ok r => rw [hw] at hc; simp [pure, Except.pure] at hc
  cases op with
  | newMock => exact plain _
  | call m a => exact plain _
  | destroy e => exact plain _
  | newSequence st => intro hc; simp [BWorld.step, World.step, bind, Except.bind, pure, Except.pure] at hc
  | beginExpect m rv args =>
    intro hc
    simp only [BWorld.step] at hc
    split at hc <;> simp at hc
  | extend b item =>
    intro hc
    simp only [BWorld.step] at hc
    split at hc
    · split at hc
      · split at hc <;> simp at hc
      · simp at hc
    · simp at hc
  | finalize b =>
    intro hc
    simp only [BWorld.step] at hc
    split at hc
    · split at hc
      · simp only [bind, Except.bind] at hc
        rename_i x refs _ _
        cases hw : bw.w.step (.expect x.coll x.times.min x.times.max x.seqs x.policies) with
        | error y =>
          rw [hw] at hc
          simp only [Except.error.injEq] at hc
          rw [hc] at hw
          exact C17_no_ub hr _ why hw
        | ok r => rw [hw] at hc; simp [pure, Except.pure] at hc
      · simp at hc
    · simp at hc
  | dropObject s =>
    intro hc
    simp only [BWorld.step] at hc
    split at hc
    · rename_i ho
      obtain ⟨w', tr', e1, _⟩ := releaseRefs_ok [s]
        (bw := { bw with objs := bw.objs.set s false }) hr (by simp) (by
        intro t
        show bw.w.hasHandle t = _
        rw [hi.handle, Bool.eq_iff_iff, Bool.or_eq_true, clientRef_iff, clientRef_iff]
        have hobj : ({ bw with objs := bw.objs.set s false } : BWorld α φ).object t
            = (if s = t then false else bw.object t) := by
          simp only [BWorld.object, List.getElem?_set]
          by_cases hst : s = t
          · subst hst
            by_cases hl : s < bw.objs.length <;> simp [hl]
          · simp [hst]
        rw [hobj]
        by_cases hst : s = t
        · subst hst; simp [ho]
        · have : ¬ t = s := fun h => hst h.symm
          simp [hst, this])
      rw [e1] at hc; simp at hc
    · simp at hc
  | dropBuilder b =>
    intro hc
    simp only [BWorld.step] at hc
    split at hc
    · rename_i x refs hb
      have hbm := List.mem_of_getElem? hb
      obtain ⟨w', tr', e1, _⟩ := releaseRefs_ok refs
        (bw := { bw with builders := bw.builders.set b ⟨x, refs, false⟩ }) hr (hi.nodup _ hbm) (by
        intro t
        show bw.w.hasHandle t = _
        rw [hi.handle, Bool.eq_iff_iff, Bool.or_eq_true, clientRef_iff, clientRef_iff, decide_eq_true_eq, or_assoc]
        apply or_congr Iff.rfl
        constructor
        · rintro ⟨c, hc, hca, hcs⟩
          rcases mem_set_other (c' := ⟨x, refs, false⟩) hb hc with rfl | hc
          · exact Or.inr hcs
          · exact Or.inl ⟨c, hc, hca, hcs⟩
        · rintro (⟨c, hc, hca, hcs⟩ | hcs)
          · rcases List.mem_or_eq_of_mem_set hc with hc | rfl
            · exact ⟨c, hc, hca, hcs⟩
            · simp at hca
          · exact ⟨_, hbm, rfl, hcs⟩)
      rw [e1] at hc; simp at hc
    · simp at hc
  | moveBuilder b =>
    intro hc
    simp only [BWorld.step] at hc
    split at hc <;> simp at hc

/-- Runs a client program. -/
def BWorld.record (bw : BWorld α φ) : List (BOp α φ) → M (BWorld α φ × BTrace α φ)
  | [] => .ok (bw, [])
  | op :: ops => do
    let (bw', ev) ← bw.step op
    let (bw'', tr) ← bw'.record ops
    return (bw'', (op, ev) :: tr)

theorem brecord_reach (ops : List (BOp α φ)) : ∀ {tr tr' : BTrace α φ} {w w' : BWorld α φ}, BReach tr w →
    w.record ops = .ok (w', tr') → BReach (tr ++ tr') w' := by
  induction ops with
  | nil =>
    intro tr tr' w w' h hr
    simp [BWorld.record] at hr
    obtain ⟨rfl, rfl⟩ := hr
    simpa using h
  | cons op ops ih =>
    intro tr tr' w w' h hr
    simp only [BWorld.record, bind, Except.bind] at hr
    cases hs : w.step op with
    | error x => rw [hs] at hr; simp at hr
    | ok r =>
      rw [hs] at hr
      simp only at hr
      cases hs' : r.1.record ops with
      | error x => rw [hs'] at hr; simp at hr
      | ok r' =>
        rw [hs'] at hr
        simp only [pure, Except.pure, Except.ok.injEq, Prod.mk.injEq] at hr
        obtain ⟨rfl, rfl⟩ := hr
        have := ih (h.step hs) hs'
        simpa using this

/-- Two builders are started in one order and finalized in the other; the sequence object dies before; a further
attempt to add the sequence a second time is rejected. The sequence lives on in builders and expectations. -/
example : ∃ (btr : BTrace Nat Unit) (bw : BWorld Nat Unit), BReach btr bw ∧
    (btr.flatMap (·.2)) = [.mockCreated 0, .sequenceCreated 0 .lazy, .rejected, .created 0, .created 1,
      .fullMatch 0, .fullMatch 1, .destroyed 0, .destroyed 1, .sequenceDestroyed 0] := by
  have hr : ((BWorld.init : BWorld Nat Unit).record [.newMock, .newSequence .lazy, .beginExpect 0 true [],
    .beginExpect 0 true [], .extend 0 (.sequences [0]), .extend 1 (.sequences [0]),
    .extend 3 (.sequences [0]), .dropObject 0, .finalize 3, .finalize 2, .dropBuilder 0, .dropBuilder 1,
    .dropBuilder 2, .dropBuilder 3, .call 0 5, .call 0 5, .destroy 0, .destroy 1]).isOk = true := rfl
  cases hh : ((BWorld.init : BWorld Nat Unit).record [.newMock, .newSequence .lazy, .beginExpect 0 true [],
    .beginExpect 0 true [], .extend 0 (.sequences [0]), .extend 1 (.sequences [0]),
    .extend 3 (.sequences [0]), .dropObject 0, .finalize 3, .finalize 2, .dropBuilder 0, .dropBuilder 1,
    .dropBuilder 2, .dropBuilder 3, .call 0 5, .call 0 5, .destroy 0, .destroy 1]) with
  | error x => rw [hh] at hr; simp [Except.isOk, Except.toBool] at hr
  | ok r =>
    refine ⟨r.2, r.1, by simpa using brecord_reach _ BReach.init hh, ?_⟩
    have : (((BWorld.init : BWorld Nat Unit).record [.newMock, .newSequence .lazy, .beginExpect 0 true [],
      .beginExpect 0 true [], .extend 0 (.sequences [0]), .extend 1 (.sequences [0]),
      .extend 3 (.sequences [0]), .dropObject 0, .finalize 3, .finalize 2, .dropBuilder 0, .dropBuilder 1,
      .dropBuilder 2, .dropBuilder 3, .call 0 5, .call 0 5, .destroy 0, .destroy 1]).map
        (fun r => r.2.flatMap (·.2))) = .ok [.mockCreated 0, .sequenceCreated 0 .lazy, .rejected,
          .created 0, .created 1, .fullMatch 0, .fullMatch 1, .destroyed 0, .destroyed 1,
          .sequenceDestroyed 0] := rfl
    rw [hh] at this
    simpa [Except.map] using this

/-! ### C19 -/

/-- C19: however the sequences of one expectation are distributed over `in_sequence` / `in_sequences`, building
throws iff some sequence occurs twice among all of them. -/
theorem C19_duplicates (coll : Nat) (rv : Bool) (args : List (Policy α)) (groups : List (List Nat)) :
    (((Builder.start coll rv args).build (groups.map Item.sequences) : Built α φ) = .threw ↔
      ¬ groups.flatten.Nodup) ∧
    (groups.flatten.Nodup → ∃ b : Builder α φ,
      (Builder.start coll rv args).build (groups.map Item.sequences) = .ok b ∧ b.seqs = groups.flatten) := by
  have hc := C20_compose (φ := φ) coll rv args (groups.map Item.sequences)
  have h1 : timesOf (groups.map Item.sequences : List (Item α φ)) = [] := by
    simp [timesOf, List.filterMap_map, Function.comp_def]
  have h2 : finalizersOf (groups.map Item.sequences : List (Item α φ)) = [] := by
    simp [finalizersOf, List.filterMap_map, Function.comp_def]
  have h3 : sequencesOf (groups.map Item.sequences : List (Item α φ)) = groups.flatten := by
    simp only [sequencesOf, List.flatMap_map]
    simp [List.flatMap_id']
  rw [h1, h2, h3] at hc
  cases hb : (Builder.start coll rv args).build (groups.map Item.sequences : List (Item α φ)) with
  | illFormed => rw [hb] at hc; simp at hc
  | threw =>
    rw [hb] at hc
    simp at hc
    simp [hc]
  | ok b =>
    rw [hb] at hc
    simp at hc
    refine ⟨by simp [hc.1], fun _ => ⟨b, rfl, hc.2.2.2.1⟩⟩

example : [[1], [2, 3], ([] : List Nat), [4]].flatten.Nodup ∧ ¬ [[1], [2, 1]].flatten.Nodup := by decide

end Mimic
