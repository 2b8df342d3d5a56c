import Verif.Proofs.Fragile
import Verif.Props.Selection
import Verif.Props.SequenceEnd
import Verif.Props.Safety

/-!
# C55: failing to create an expectation
-/

set_option autoImplicit false

namespace Mimic.Fragile

variable {α φ : Type}

/-- C55: how an expression `ScopedExpectation e = mock.expect_call(...) && i₁ && ... && iₙ` ends, depending on which objects
throw when they are constructed anew. Let everything else be in order: mock and sequences exist, at most one `times` and at
most one finalizer, a finalizer if one is needed, legal limits, no sequence mentioned twice, and space in the sequences.
If all constructions succeed, an expectation is created. If the first one to fail is that of the expectation itself, the
exception comes out. If it is an earlier one, the program terminates. -/
theorem C55_outcome {ftr : FTrace α φ} {w : World α} (h : FReach ftr w) (coll : Nat) (rv : Bool)
    (items : List (Item α φ × Good))
    (hv : (asIf ftr).valid (.expect coll (wanted coll items).min (wanted coll items).max (wanted coll items).seqs []))
    (hint : ∀ t ∈ timesOf (items.map (·.1)), 0 ≤ t.1 ∧ t.1 ≤ t.2) (hnd : (sequencesOf (items.map (·.1))).Nodup)
    (ht : (timesOf (items.map (·.1))).length ≤ 1) (hf : (finalizersOf (items.map (·.1))).length ≤ 1)
    (hret : rv = true ∨ finalizersOf (items.map (·.1)) ≠ [])
    (hcap : ∀ s ∈ (wanted coll items).seqs, ¬ (asIf ftr).atCapacity s) :
    (Completes items ∧ ∃ w' e, step w (.create coll rv items) = .ok (w', .done [.created e])) ∨
    (Survives items ∧ ¬ Completes items ∧ ∃ w' e, step w (.create coll rv items) = .ok (w', .threw e)) ∨
    (¬ Survives items ∧ ∃ why, step w (.create coll rv items) = .error (.terminate why)) := by
  have hr := h.sim
  obtain ⟨v1, v2, v3, v4⟩ := hv
  have hcoll : coll < w.colls.length := (hr.view.2.mocks coll).mp v1
  have htc : typeChecks false false (items.map (·.1)) = true := by
    rw [typeChecks_iff]; simpa using ⟨ht, hf⟩
  have hu : items.all (fun i => usable w i.1) = true := by
    rw [List.all_eq_true]
    intro ig hig
    have hmem : ig.1 ∈ items.map (·.1) := List.mem_map.mpr ⟨ig, hig, rfl⟩
    cases hi : ig.1 with
    | times a b =>
      have hm : (a, b) ∈ timesOf (items.map (·.1)) := by
        rw [hi] at hmem
        exact List.mem_filterMap.mpr ⟨_, hmem, rfl⟩
      have hh : (timesOf (items.map (·.1))).head? = some (a, b) := by
        revert hm ht
        generalize timesOf (items.map (·.1)) = l
        intro ht hm
        match l, hm, ht with
        | [x], hm, _ => simp only [List.mem_singleton] at hm; rw [hm]; rfl
        | _ :: _ :: _, _, ht => simp at ht
      simp only [usable, wanted, hh, Option.map_some, Option.getD_some] at v3 v4 ⊢
      simp [isInt, intMin, intMax, v3, v4]
    | sequences ss =>
      simp only [usable, List.all_eq_true]
      intro s hs
      rw [← hasHandle_abs, hr.view.2.hasHandle_iff]
      apply v2
      rw [hi] at hmem
      exact List.mem_flatMap.mpr ⟨_, hmem, hs⟩
    | policy p => rfl
    | finalizer f => rfl
  obtain ⟨h1, _⟩ := Mimic.eval_eq (α := α) (φ := φ) (items.map (fun i => Prod.fst i)) (Builder.start coll rv []) htc
    (by simp [Builder.start])
  obtain ⟨b, hb, _, hbr, _, _, hbf, _⟩ := h1 ⟨hint, by simpa [Builder.start] using hnd⟩
  obtain ⟨b1, b2, b3, b4, b5, b6, b7⟩ := built htc hb
  obtain ⟨c1, c2⟩ := (eval_eq items (FBuilder.start (α := α) (φ := φ) coll rv) false htc (fun _ => rfl)).1 b hb
  have hok : ∀ n, Ok (FBuilder.start (α := α) (φ := φ) coll rv) n := by
    intro n; exact ⟨has_none n, by simp [FBuilder.start]⟩
  have hcond : (decide (coll < w.colls.length) && items.all (fun i => usable w i.1) &&
      typeChecks false false (items.map (·.1))) = true := by simp [hcoll, hu, htc]
  have hfin : (b.returnsVoid || b.finalizer.isSome) = true := by
    rw [hbr, hbf]
    rcases hret with hret | hret
    · simp [Builder.start, hret]
    · cases hl : finalizersOf (items.map (·.1)) with
      | nil => exact absurd hl hret
      | cons f l => simp [Builder.start]
  have hval : (asIf ftr).valid (.expect b.coll b.times.min b.times.max b.seqs b.policies) := by
    rw [b1, b2, b3, b4]; exact ⟨v1, v2, v3, v4⟩
  have hnov : ¬ (asIf ftr).overflows (.expect b.coll b.times.min b.times.max b.seqs b.policies) := by
    rintro ⟨_, _, s, hs, hc⟩
    exact hcap s (b4 ▸ hs) hc
  obtain ⟨w1, ev, hw1⟩ := (C17_progress hr _).1 hval hnov
  by_cases hs : Survives items
  · obtain ⟨x, hx, hxb, hcon⟩ := c1 ⟨hok _, hs⟩
    rw [and_iff_right (hok _)] at hcon
    by_cases hc : Completes items
    · left
      have hst : step w (.create coll rv items) = .ok (w1, .done ev) := by
        simp only [step, create, hcond, if_true, hx, hxb, hfin, hcon.mpr hc, bind, Except.bind]
        have : w.expect b.coll b.times.min b.times.max b.seqs b.policies = .ok (w1, ev) := hw1
        rw [this]; rfl
      rcases create_cases hr hst with ⟨he, _⟩ | ⟨_, he, _⟩ | ⟨_, hn, _⟩
      · have hspec := hr.spec_step hw1
        simp only [Out.done.injEq] at he
        simp only [Spec.State.step] at hspec
        split at hspec
        · rw [if_pos ⟨b7, b6⟩, he] at hspec; simp at hspec
        · simp at hspec
      · exact ⟨hc, _, _, he ▸ hst⟩
      · exact absurd hc hn
    · right; left
      refine ⟨hs, hc, ?_⟩
      have hnc : x.constructs = false := by
        cases hxc : x.constructs with
        | false => rfl
        | true => exact absurd (hcon.mp hxc) hc
      obtain ⟨q, hq⟩ : ∃ q, Control.make b.times b.seqs w.seqs = .ok q := by
        have htm : TimesConfig.make b.times.min b.times.max = some b.times := by
          unfold TimesConfig.make; rw [if_neg (by omega)]
        have hsc : seqConfig b.seqs = some b.seqs := by rw [seqConfig_eq, if_pos b6]
        simp only [World.step, World.expect, htm, hsc] at hw1
        split at hw1
        · simp at hw1
        · split at hw1
          · cases hm : Control.make b.times b.seqs w.seqs with
            | ok q => exact ⟨q, rfl⟩
            | error e => simp [hm, bind, Except.bind] at hw1
          · simp at hw1
      have hcs : (x.constructs = true) = False := by rw [hnc]; simp
      exact ⟨_, _, by
        simp only [step, create, hcond, if_true, hx, hxb, hfin, hcs, if_false, bind, Except.bind, finalizeThrows, hq]
        rfl⟩
  · right; right
    refine ⟨hs, noexceptMsg, ?_⟩
    simp only [step, create, hcond, if_true, bind, Except.bind, c2 (fun h' => hs h'.2)]

/-- A policy that can be moved three times, in an expression of three items: an expectation comes about only if the policy
is not the first item. -/
example :
    (∃ w' e, step (α := Nat) (φ := Unit) ⟨[], [], [[]]⟩
      (.create 0 true [(.times 1 2, none), (.policy (onlyArg 7), some 3), (.finalizer (), none)]) =
        .ok (w', .done [.created e])) ∧
    (∃ w' e, step (α := Nat) (φ := Unit) ⟨[], [], [[]]⟩
      (.create 0 true [(.policy (onlyArg 7), some 3), (.times 1 2, none), (.finalizer (), none)]) = .ok (w', .threw e)) ∧
    (∃ why, step (α := Nat) (φ := Unit) ⟨[], [], [[]]⟩
      (.create 0 true [(.policy (onlyArg 7), some 2), (.times 1 2, none), (.finalizer (), none)]) =
        .error (.terminate why)) :=
  ⟨⟨_, _, rfl⟩, ⟨_, _, rfl⟩, ⟨_, rfl⟩⟩

/-- C55: what a failed creation leaves behind, exactly: from then on everything goes on as if the expectation had been
created and destroyed at once, without any report. (So all theorems about histories apply.) -/
theorem C55_as_if {ftr : FTrace α φ} {w : World α} (h : FReach ftr w) : Reach (asIf ftr) w := h.sim

/-- C55 fails: if the attempt asked for at least one call and for a sequence, no expectation that is attached to this
sequence later can ever resolve a call. -/
theorem C55_blocks {ftr : FTrace α φ} {w : World α} (h : FReach ftr w) {e0 e s : Nat} {d0 : Decl α}
    (hf : failedOf ftr e0 = some d0) (hmin : 1 ≤ d0.min) (hs : s ∈ d0.seqs) (he : attached ftr e s) (hlt : e0 < e) :
    matched ftr e = 0 := by
  have hc := h.corr
  have hr := h.sim
  have hd0 : (asIf ftr).decl e0 = some d0 := (hc.decl_iff e0 d0).mpr (Or.inr hf)
  have hm0 : (asIf ftr).matched e0 = 0 := by rw [hc.matched]; exact hc.dead e0 (by simp [hf])
  obtain ⟨d, hd, hsd⟩ := he
  have hda : (asIf ftr).attached e s := ⟨d, (hc.decl_iff e d).mpr (Or.inl hd), hsd⟩
  rw [← hc.matched]
  apply Classical.byContradiction
  intro hne
  have hmem : Event.fullMatch e ∈ (asIf ftr).events := List.count_pos_iff.mp (Nat.pos_of_ne_zero hne)
  obtain ⟨st, hst, hin⟩ := List.mem_flatMap.mp hmem
  obtain ⟨pre, post, hsplit⟩ := List.append_of_mem hst
  rw [hsplit] at hr
  obtain ⟨h1, h2, _⟩ := C05_order (op := st.1) (ev := st.2) hr hin hlt
    (by rw [← hsplit]; exact ⟨d0, hd0, hs⟩) (by rw [← hsplit]; exact hda)
  obtain ⟨dd, hdd, _⟩ := h1
  apply h2
  have hdd' : Trace.decl (asIf ftr) e0 = some dd := by rw [hsplit]; exact decl_mono hdd
  rw [hd0, Option.some.injEq] at hdd'
  subst hdd'
  refine ⟨d0, hdd, ?_⟩
  have hle : Trace.matched pre e0 ≤ (asIf ftr).matched e0 := by
    rw [hsplit]
    unfold Trace.matched Trace.events
    rw [List.flatMap_append, List.count_append]
    omega
  omega

/-- C55 fails: and whenever that sequence ends, an unfulfilled expectation is reported that never existed. -/
theorem C55_sequence_error {ftr : FTrace α φ} {w w' : World α} (h : FReach ftr w) {e0 s : Nat} {d0 : Decl α}
    (hf : failedOf ftr e0 = some d0) (hmin : 1 ≤ d0.min) (hs : s ∈ d0.seqs) {op : Op α} {ev : List Event}
    (hst : step w (.op op : FOp α φ) = .ok (w', .done ev)) (hd : Event.sequenceDestroyed s ∈ ev) :
    ∃ k n, Event.sequenceError s k n ∈ ev := by
  have hr := h.sim
  have hst' : w.step op = .ok (w', ev) := by
    simp only [step, bind, Except.bind] at hst
    cases he : w.step op with
    | error e => simp [he] at hst
    | ok r =>
      simp only [he, pure, Except.pure, Except.ok.injEq, Prod.mk.injEq, Out.done.injEq] at hst
      rw [← hst.1, ← hst.2]
  rw [C14_error_iff hr hst' hd]
  have hc := (h.step hst).corr
  have hf' : failedOf (ftr ++ [(.op op, .done ev)]) e0 = some d0 := by rw [failedOf_snoc, hf]; rfl
  have hsn : asIf (ftr ++ [(.op op, .done ev)]) = asIf ftr ++ [(op, ev)] := by rw [asIf_snoc]; rfl
  have hd0 := (hc.decl_iff e0 d0).mpr (Or.inr hf')
  have hm0 : Trace.matched (asIf (ftr ++ [(.op op, .done ev)])) e0 = 0 := by
    rw [hc.matched]; exact hc.dead e0 (by simp [hf'])
  rw [hsn] at hd0 hm0
  exact ⟨e0, ⟨d0, hd0, hs⟩, d0, hd0, by rw [hm0]; simp; omega⟩

/-- C55, the part that holds: as long as every failed attempt asked for no sequence or for no call, each call goes to
a candidate according to the rules applied to the expectations that were really created, if there is one. -/
theorem C55_harmless_partial {ftr : FTrace α φ} {w w' : World α} (h : FReach ftr w)
    (hh : ∀ e d, failedOf ftr e = some d → Harmless d) {m : Nat} {a : α} {ev : List Event}
    (hs : step w (.op (.call m a) : FOp α φ) = .ok (w', .done ev)) :
    (∀ e, ¬ candidate ftr m a e) ∧ (∀ e, Event.fullMatch e ∉ ev) ∨
    ∃ x older e, YoungestFirst (candidate ftr m a) (x :: older) ∧ (asIf ftr).Chosen x older e ∧
      ∀ e', Event.fullMatch e' ∈ ev ↔ e' = e := by
  have hr := h.sim
  have hc := h.corr
  have hst' : w.step (.call m a) = .ok (w', ev) := by
    simp only [step, bind, Except.bind] at hs
    cases he : w.step (.call m a) with
    | error e => simp [he] at hs
    | ok r =>
      simp only [he, pure, Except.pure, Except.ok.injEq, Prod.mk.injEq, Out.done.injEq] at hs
      rw [← hs.1, ← hs.2]
  have hcand : (asIf ftr).candidate m a = candidate ftr m a := by
    funext e
    apply propext
    unfold Trace.candidate candidate
    rw [hc.accepts_iff]
    refine and_congr_right fun hac => ?_
    obtain ⟨_, d, hd, _⟩ := hac
    exact hc.applicable_iff hh hd
  have := C08_selection hr hst'
  rw [hcand] at this
  exact this

/-- C55, the part that holds: under the same condition, the end of a sequence reports an error iff an expectation that was
really created and attached to it has resolved too few calls. -/
theorem C55_end_partial {ftr : FTrace α φ} {w w' : World α} (h : FReach ftr w)
    (hh : ∀ e d, failedOf ftr e = some d → Harmless d) {op : Op α} {ev : List Event}
    (hst : step w (.op op : FOp α φ) = .ok (w', .done ev)) {s : Nat} (hd : Event.sequenceDestroyed s ∈ ev) :
    (∃ k n, Event.sequenceError s k n ∈ ev) ↔
      ∃ e d, declOf (ftr ++ [(.op op, .done ev)]) e = some d ∧ s ∈ d.seqs ∧
        (matched (ftr ++ [(.op op, .done ev)]) e : Int) < d.min := by
  have hr := h.sim
  have hst' : w.step op = .ok (w', ev) := by
    simp only [step, bind, Except.bind] at hst
    cases he : w.step op with
    | error e => simp [he] at hst
    | ok r =>
      simp only [he, pure, Except.pure, Except.ok.injEq, Prod.mk.injEq, Out.done.injEq] at hst
      rw [← hst.1, ← hst.2]
  have hc := (h.step hst).corr
  have hsn : asIf (ftr ++ [(.op op, .done ev)]) = asIf ftr ++ [(op, ev)] := by rw [asIf_snoc]; rfl
  have hff : ∀ e, failedOf (ftr ++ [(.op op, .done ev)]) e = failedOf ftr e := by
    intro e; rw [failedOf_snoc]; simp [failStepF]
  rw [C14_error_iff hr hst' hd, ← hsn]
  constructor
  · rintro ⟨e, ⟨d, h1, h2⟩, d2, h3, h4⟩
    rw [h1, Option.some.injEq] at h3
    subst h3
    rcases (hc.decl_iff e d).mp h1 with h5 | h5
    · exact ⟨e, d, h5, h2, by rw [← hc.matched]; exact h4⟩
    · exfalso
      have h0 := hc.dead e (by simp [h5])
      rw [← hc.matched] at h0
      rcases hh e d (by rw [← hff]; exact h5) with h6 | h6
      · simp [h6] at h2
      · rw [h0, h6] at h4; simp at h4
  · rintro ⟨e, d, h1, h2, h3⟩
    have hdd := (hc.decl_iff e d).mpr (Or.inl h1)
    exact ⟨e, ⟨d, hdd, h2⟩, d, hdd, by rw [hc.matched]; exact h3⟩

/-- The history of the counterexample: a sequence, a creation that fails, and then one that succeeds. -/
def lost : FTrace Nat Unit :=
  [(.op .newMock, .done [.mockCreated 0]), (.op (.newSequence .lazy), .done [.sequenceCreated 0 .lazy]),
   (.create 0 true [(.policy (onlyArg 7), some 2), (.sequences [0], none)], .threw 0),
   (.create 0 true [(.policy (onlyArg 7), none), (.sequences [0], none)], .done [.created 1])]

/-- C55 fails, concretely: the creation of an expectation fails, the client tries again with an object that does not
throw, and succeeds. The expectation accepts the call 7, is below its upper limit and nothing has been attached to its
sequence before; still the call is not resolved. -/
theorem C55_counterexample : ∃ w w' ev, FReach lost w ∧ candidate lost 0 7 1 ∧
    step w (.op (.call 0 7) : FOp Nat Unit) = .ok (w', .done ev) ∧ ∀ e, Event.fullMatch e ∉ ev := by
  refine ⟨_, _, [.inapplicable [1]], .step (.step (.step (.step .init rfl) rfl) rfl) rfl, ?_, rfl, by simp⟩
  have hd : declOf lost 1 = some ⟨0, 1, 1, [0], [onlyArg 7]⟩ := rfl
  have hd' : ∀ e, e ≠ 1 → declOf lost e = none := by
    intro e he
    simp [declOf, lost, he]
  refine ⟨⟨⟨⟨_, hd⟩, by decide⟩, _, hd, rfl, ?_⟩, ?_⟩
  · intro p hp
    simp only [List.mem_singleton] at hp
    rw [hp]; rfl
  · refine ⟨⟨_, hd, by decide⟩, ?_⟩
    intro s _
    refine ⟨fun e' d hlt hde _ => ?_, fun e' hlt => ?_⟩
    · rw [hd' e' (by omega)] at hde; simp at hde
    · rintro ⟨d, hde, _⟩
      rw [hd' e' (by omega)] at hde; simp at hde

/-- The hypotheses of the theorems about blocked sequences are met by this history. -/
example : ∃ w w' ev, FReach lost w ∧ (∃ d, failedOf lost 0 = some d ∧ 1 ≤ d.min ∧ 0 ∈ d.seqs) ∧ attached lost 1 0 ∧
    FReach (lost ++ [(.op (.dropSequence 0), .done [])]) w' ∧
    step w' (.op (.destroy 1) : FOp Nat Unit) = .ok ev ∧
    ev.2 = .done [.destroyed 1, .unfulfilled 1, .sequenceError 0 0 2, .sequenceDestroyed 0] :=
  ⟨_, _, _, .step (.step (.step (.step .init rfl) rfl) rfl) rfl, ⟨_, rfl, by decide, by decide⟩, ⟨_, rfl, by decide⟩,
    .step (.step (.step (.step (.step .init rfl) rfl) rfl) rfl) rfl, rfl, rfl⟩

/-- Harmless failures: without a sequence, and with a sequence but without a required call. -/
example : ∃ ftr w w', FReach (α := Nat) (φ := Unit) ftr w ∧ failedOf ftr 0 ≠ none ∧ failedOf ftr 1 ≠ none ∧
    (∀ e d, failedOf ftr e = some d → Harmless d) ∧
    step w (.op (.call 0 7) : FOp Nat Unit) = .ok (w', .done [.fullMatch 2]) := by
  refine ⟨[(.op .newMock, .done [.mockCreated 0]), (.op (.newSequence .lazy), .done [.sequenceCreated 0 .lazy]),
    (.create 0 true [(.policy (onlyArg 7), some 1)], .threw 0),
    (.create 0 true [(.times 0 1, none), (.policy (onlyArg 7), some 2), (.sequences [0], none)], .threw 1),
    (.create 0 true [(.policy (onlyArg 7), none), (.sequences [0], none)], .done [.created 2])], _, _,
    .step (.step (.step (.step (.step .init rfl) rfl) rfl) rfl) rfl, by decide, by decide, ?_, rfl⟩
  intro e d h
  match e with
  | 0 => simp [failedOf, wanted, sequencesOf] at h; left; rw [← h]
  | 1 => simp [failedOf, wanted, timesOf] at h; right; rw [← h]
  | e + 2 => simp [failedOf] at h

end Mimic.Fragile
