import Verif.Spec.Several
import Verif.Props.Exchange
import Verif.Props.SequenceReport
import Verif.Props.Limits
import Verif.Props.Order
import Verif.Proofs.Language

/-! # What histories ask for: lemmas -/

set_option autoImplicit false

namespace Mimic.Several

variable {α : Type}

/-- Calls are the only source of these reports. -/
theorem call_failure {tr : Trace α} {w w' : World α} (h : Reach tr w) {op : Op α} {ev : List Event} (hs : w.step op = .ok (w', ev))
    {es : List Nat} (he : Event.noMatch es ∈ ev ∨ Event.inapplicable es ∈ ev) : ∃ m a, op = .call m a := by
  have hsp := h.spec_step hs
  have hrel : ∀ (S : Spec.State α) (ss : List Nat), ¬ (Event.noMatch es ∈ S.release ss ∨ Event.inapplicable es ∈ S.release ss) := by
    intro S ss hm
    simp only [Spec.State.release, List.mem_flatMap] at hm
    rcases hm with ⟨s, -, hm⟩ | ⟨s, -, hm⟩ <;>
    · split at hm
      · cases hm
      · simp only [Spec.State.sequenceEnd] at hm
        split at hm <;> simp at hm
  cases op with
  | call m a => exact ⟨m, a, rfl⟩
  | newSequence st =>
    simp only [Spec.State.step, Option.some.injEq, Prod.mk.injEq] at hsp
    rw [← hsp.2] at he; simp at he
  | newMock =>
    simp only [Spec.State.step, Option.some.injEq, Prod.mk.injEq] at hsp
    rw [← hsp.2] at he; simp at he
  | dropSequence s =>
    simp only [Spec.State.step] at hsp
    split at hsp
    · simp only [Option.some.injEq, Prod.mk.injEq] at hsp
      rw [← hsp.2] at he
      exact absurd he (hrel _ _)
    · cases hsp
  | expect m min max tags ps =>
    simp only [Spec.State.step] at hsp
    split at hsp
    · split at hsp <;>
      · simp only [Option.some.injEq, Prod.mk.injEq] at hsp
        rw [← hsp.2] at he; simp at he
    · cases hsp
  | destroy e =>
    simp only [Spec.State.step] at hsp
    split at hsp
    · cases hsp
    · simp only [Option.some.injEq, Prod.mk.injEq] at hsp
      rw [← hsp.2] at he
      have := hrel ((abs w).withdraw e)
      grind

theorem split_at {β : Type} {l : List β} {k : Nat} (h : k < l.length) : l = l.take k ++ l[k] :: l.drop (k + 1) := by
  rw [← List.drop_eq_getElem_cons h, List.take_append_drop]

/-- Only its end tells that an expectation has ended. -/
theorem destroyed_source {tr : Trace α} {w w' : World α} (h : Reach tr w) {op : Op α} {ev : List Event}
    (hs : w.step op = .ok (w', ev)) {e : Nat} (he : Event.destroyed e ∈ ev) : op = .destroy e := by
  have hsp := h.spec_step hs
  have hrel : ∀ (S : Spec.State α) (ss : List Nat), ¬ Event.destroyed e ∈ S.release ss := by
    intro S ss hm
    simp only [Spec.State.release, List.mem_flatMap] at hm
    obtain ⟨s, -, hm⟩ := hm
    split at hm
    · cases hm
    · simp only [Spec.State.sequenceEnd] at hm
      split at hm <;> simp at hm
  cases op with
  | call m a =>
    obtain ⟨us, last, hev, -, hcase⟩ := C10_outcome h hs
    rw [hev] at he
    rcases List.mem_append.mp he with he | he
    · simp at he
    · have he := List.mem_singleton.mp he
      rcases hcase with ⟨e0, -, hl'⟩ | ⟨-, -, es, hl', -⟩ | ⟨-, es, hl', -⟩ <;> rw [hl'] at he <;> cases he
  | newSequence st =>
    simp only [Spec.State.step, Option.some.injEq, Prod.mk.injEq] at hsp
    rw [← hsp.2] at he; simp at he
  | newMock =>
    simp only [Spec.State.step, Option.some.injEq, Prod.mk.injEq] at hsp
    rw [← hsp.2] at he; simp at he
  | dropSequence s =>
    simp only [Spec.State.step] at hsp
    split at hsp
    · simp only [Option.some.injEq, Prod.mk.injEq] at hsp
      rw [← hsp.2] at he
      exact absurd he (hrel _ _)
    · cases hsp
  | expect m min max tags ps =>
    simp only [Spec.State.step] at hsp
    split at hsp
    · split at hsp <;>
      · simp only [Option.some.injEq, Prod.mk.injEq] at hsp
        rw [← hsp.2] at he; simp at he
    · cases hsp
  | destroy e' =>
    simp only [Spec.State.step] at hsp
    split at hsp
    · cases hsp
    · simp only [Option.some.injEq, Prod.mk.injEq] at hsp
      rw [← hsp.2] at he
      have := hrel ((abs w).withdraw e')
      grind

open Classical in
/-- How many of the first `k` steps fit expectation `e`. -/
noncomputable def fitting (tr : Trace α) (e k : Nat) : Nat := (List.range k).countP (fun i => decide (Fits tr i e))

open Classical in
theorem fitting_succ (tr : Trace α) (e k : Nat) :
    fitting tr e (k + 1) = fitting tr e k + if Fits tr k e then 1 else 0 := by
  unfold fitting
  rw [List.range_succ, List.countP_append, List.countP_singleton]
  simp

theorem fitting_mono (tr : Trace α) (e : Nat) {j k : Nat} (h : j ≤ k) : fitting tr e j ≤ fitting tr e k := by
  induction h with
  | refl => exact Nat.le_refl _
  | step _ ih => rw [fitting_succ]; omega

/-- If there are more later, there is one later. -/
theorem fitting_later (tr : Trace α) (e : Nat) {j k : Nat} (h : fitting tr e j < fitting tr e k) : ∃ i, j ≤ i ∧ i < k ∧ Fits tr i e := by
  induction k with
  | zero => simp [fitting] at h
  | succ k ih =>
    rw [fitting_succ] at h
    by_cases hk : Fits tr k e
    · by_cases hj : j ≤ k
      · exact ⟨k, hj, by omega, hk⟩
      · have := fitting_mono tr e (j := k + 1) (k := j) (by omega)
        rw [fitting_succ] at this
        omega
    · rw [if_neg hk] at h
      obtain ⟨i, h1, h2, h3⟩ := ih (by omega)
      exact ⟨i, h1, by omega, h3⟩

open Classical in
theorem fitting_steps (tr : Trace α) (e : Nat) :
    ∃ steps, OldestFirst (fun i => Fits tr i e) steps ∧ steps.length = fitting tr e tr.length := by
  refine ⟨(List.range tr.length).filter (fun i => decide (Fits tr i e)), ⟨?_, ?_⟩, ?_⟩
  · exact (List.pairwise_lt_range (n := tr.length)).filter _
  · intro i
    simp only [List.mem_filter, List.mem_range, decide_eq_true_eq]
    refine ⟨fun h => h.2, fun h => ⟨?_, h⟩⟩
    obtain ⟨m, a, ev, h1, -⟩ := h
    exact (List.getElem?_eq_some_iff.mp h1).1
  · rw [fitting, List.countP_eq_length_filter]

theorem steps_length {tr : Trace α} {e : Nat} {steps : List Nat} (h : OldestFirst (fun i => Fits tr i e) steps) :
    steps.length = fitting tr e tr.length := by
  obtain ⟨l, h1, h2⟩ := fitting_steps tr e
  have : steps = l := by
    refine List.Perm.eq_of_pairwise (le := (· < ·)) (fun a b _ _ h1 h2 => by omega) h.1 h1.1 ?_
    refine (List.perm_ext_iff_of_nodup (h.1.imp fun h => Nat.ne_of_lt h) (h1.1.imp fun h => Nat.ne_of_lt h)).mpr ?_
    intro a
    rw [h.2, h1.2]
  rw [this, h2]

/-- No report about a call that was not resolved. -/
def Clean (evs : List Event) : Prop := ∀ es, Event.noMatch es ∉ evs ∧ Event.inapplicable es ∉ evs

variable {tr : Trace α}

/-- In each step: the call goes where it fits. -/
theorem matched_fitting {w : World α} (hr : Reach tr w) (hu : ∀ i e e', Fits tr i e → Fits tr i e' → e = e')
    (e : Nat) (k : Nat) (hk : k ≤ tr.length) (hc : Clean (Trace.events (tr.take k))) :
    Trace.matched (tr.take k) e = fitting tr e k := by
  induction k with
  | zero => simp [fitting, Trace.matched, Trace.events]
  | succ k ih =>
    have hlt : k < tr.length := hk
    have htk : tr.take (k + 1) = tr.take k ++ [tr[k]] := by rw [List.take_succ_eq_append_getElem hlt]
    have hst : tr = tr.take k ++ tr[k] :: tr.drop (k + 1) := split_at hlt
    generalize hx : tr[k] = st at htk hst
    obtain ⟨op, ev⟩ := st
    have hget : tr[k]? = some (op, ev) := by rw [List.getElem?_eq_getElem hlt, hx]
    obtain ⟨w0, w1, h0, hs⟩ := (hst ▸ hr : Reach (tr.take k ++ (op, ev) :: tr.drop (k + 1)) w).split
    rw [htk] at hc ⊢
    rw [events_snoc] at hc
    have hck : Clean (Trace.events (tr.take k)) := fun es => ⟨fun h => (hc es).1 (by simp [h]), fun h => (hc es).2 (by simp [h])⟩
    rw [matched_snoc, ih (by omega) hck, fitting_succ]
    congr 1
    by_cases hcall : ∃ m a, op = .call m a
    · obtain ⟨m, a, rfl⟩ := hcall
      obtain ⟨us, last, hev, -, hcase⟩ := C10_outcome h0 hs
      rcases hcase with ⟨e0, hcand, hl⟩ | ⟨-, -, es, hl, -⟩ | ⟨-, es, hl, -⟩
      · have hfit : Fits tr k e0 := ⟨m, a, ev, hget, hcand.1⟩
        have hun : (us.map Event.unhandled).count (.fullMatch e) = 0 := List.count_eq_zero.mpr (by simp)
        rw [hev, hl, List.count_append, hun, Nat.zero_add]
        by_cases he : e0 = e
        · subst he; rw [if_pos hfit]; simp
        · rw [if_neg (fun hf => he (hu k _ _ hfit hf))]
          exact List.count_eq_zero.mpr (by simpa using fun h => he h.symm)
      · exact absurd (by rw [hev, hl]; simp) (hc es).2
      · exact absurd (by rw [hev, hl]; simp) (hc es).1
    · rw [if_neg, List.count_eq_zero]
      · intro hm
        obtain ⟨m, a, h1, -⟩ := fullMatch_source h0 hs hm
        exact hcall ⟨m, a, h1⟩
      · rintro ⟨m, a, ev', h1, -⟩
        rw [hget] at h1
        simp only [Option.some.injEq, Prod.mk.injEq] at h1
        exact hcall ⟨m, a, h1.1⟩

theorem clean_of_passes {evs : List Event} (h : Language.passes evs) : Clean evs := by
  intro es
  exact ⟨fun hm => by have := h _ hm; simp [Language.failure] at this, fun hm => by have := h _ hm; simp [Language.failure] at this⟩

/-- A passing history is as wanted. -/
theorem wanted_of_passes {w : World α} (hr : Reach tr w) (hu : ∀ i e e', Fits tr i e → Fits tr i e' → e = e')
    (hend : ∀ e d, tr.decl e = some d → Event.destroyed e ∈ tr.events) (hp : Language.passes tr.events) : AsWanted tr := by
  have hm : ∀ e, tr.matched e = fitting tr e tr.length := by
    intro e
    have := matched_fitting hr hu e tr.length (Nat.le_refl _) (by rw [List.take_length]; exact clean_of_passes hp)
    rwa [List.take_length] at this
  -- each call has its expectation
  have hcall : ∀ (i m : Nat) (a : α) (ev : List Event), tr[i]? = some (Op.call m a, ev) →
      ∃ e, Trace.candidate (tr.take i) m a e ∧ Event.fullMatch e ∈ ev := by
    intro i m a ev hi
    obtain ⟨hlt, hx⟩ := List.getElem?_eq_some_iff.mp hi
    have hst : tr = tr.take i ++ (Op.call m a, ev) :: tr.drop (i + 1) := by
      rw [← hx]; exact split_at hlt
    obtain ⟨w0, w1, h0, hs⟩ := (hst ▸ hr : Reach (tr.take i ++ (Op.call m a, ev) :: tr.drop (i + 1)) w).split
    have hin : ∀ x ∈ ev, x ∈ tr.events := by
      intro x hx'
      exact List.mem_flatMap.mpr ⟨_, List.mem_of_getElem? hi, hx'⟩
    obtain ⟨us, last, hev, -, hcase⟩ := C10_outcome h0 hs
    rcases hcase with ⟨e0, hcand, hl⟩ | ⟨-, -, es, hl, -⟩ | ⟨-, es, hl, -⟩
    · exact ⟨e0, hcand, by rw [hev, hl]; simp⟩
    · exact absurd (hin _ (by rw [hev, hl]; simp)) (clean_of_passes hp es).2
    · exact absurd (hin _ (by rw [hev, hl]; simp)) (clean_of_passes hp es).1
  have hfit : ∀ (i e : Nat), Fits tr i e → ∃ op ev, tr[i]? = some (op, ev) ∧ Event.fullMatch e ∈ ev := by
    rintro i e ⟨m, a, ev, h1, h2⟩
    obtain ⟨e0, h3, h4⟩ := hcall i m a ev h1
    rw [hu i e e0 ⟨m, a, ev, h1, h2⟩ ⟨m, a, ev, h1, h3.1⟩]
    exact ⟨_, ev, h1, h4⟩
  refine ⟨?_, ?_, ?_⟩
  · intro i m a ev hi
    obtain ⟨e, h1, -⟩ := hcall i m a ev hi
    exact ⟨e, m, a, ev, hi, h1.1⟩
  · intro e d hd
    obtain ⟨steps, h1, h2⟩ := fitting_steps tr e
    refine ⟨steps, h1, ?_, ?_⟩
    · rw [h2, ← hm]
      apply Classical.byContradiction
      intro hlt
      -- the step in which it ended
      obtain ⟨⟨op, ev⟩, hst, hev⟩ := List.mem_flatMap.mp (hend e d hd)
      obtain ⟨pre, post, hsplit⟩ := List.append_of_mem hst
      obtain ⟨w0, w1, h0, hs⟩ := (hsplit ▸ hr : Reach (pre ++ (op, ev) :: post) w).split
      have hop := destroyed_source h0 hs hev
      subst hop
      obtain ⟨d', hd', hiff⟩ := C03_unfulfilled_iff h0 hs
      have hdd : d' = d := by
        have := decl_mono (tr' := (Op.destroy e, ev) :: post) hd'
        rw [← hsplit, hd] at this
        exact (Option.some.inj this).symm
      subst hdd
      have hmm : tr.matched e = Trace.matched pre e := by
        have h5 : Event.destroyed e ∈ Trace.events (pre ++ [(Op.destroy e, ev)]) := by
          rw [events_snoc]; simp [hev]
        have h6 := Exchange.destroyed_matched (tr := pre ++ [(Op.destroy e, ev)]) post (w := w) (by simpa using hsplit ▸ hr) h5
        have h7 : pre ++ [(Op.destroy e, ev)] ++ post = tr := by rw [hsplit]; simp
        rw [h7, matched_snoc] at h6
        rw [h6, List.count_eq_zero.mpr, Nat.add_zero]
        intro hfm
        obtain ⟨m, a, h8, -⟩ := fullMatch_source h0 hs hfm
        cases h8
      have hunf : Event.unfulfilled e ∈ ev := hiff.mpr (Or.inl (by rw [← hmm]; omega))
      have := hp _ (List.mem_flatMap.mpr ⟨_, hst, hunf⟩)
      simp [Language.failure] at this
    · rw [h2, ← hm]
      exact C02_upper_limit hr hd
  · intro e e' s hlt ha ha' i j hi hj
    obtain ⟨op, ev, h1, h2⟩ := hfit i e hi
    obtain ⟨op', ev', h3, h4⟩ := hfit j e' hj
    apply Classical.byContradiction
    intro hle
    obtain ⟨hjl, hx⟩ := List.getElem?_eq_some_iff.mp h3
    have hst : tr = tr.take j ++ (op', ev') :: tr.drop (j + 1) := by
      rw [← hx]; exact split_at hjl
    have ho := C05_order (hst ▸ hr : Reach (tr.take j ++ (op', ev') :: tr.drop (j + 1)) w) h4 hlt (hst ▸ ha) (hst ▸ ha')
    by_cases hij : i = j
    · subst hij
      have := hu i e e' hi hj
      omega
    · refine ho.2.2 (op, ev) ?_ h2
      refine List.mem_iff_getElem?.mpr ⟨i - (j + 1), ?_⟩
      rw [List.getElem?_drop, show j + 1 + (i - (j + 1)) = i by omega]
      exact h1

/-- A history that is as wanted passes. -/
theorem passes_of_wanted {w : World α} (hr : Reach tr w) (hu : ∀ i e e', Fits tr i e → Fits tr i e' → e = e')
    (hcon : ∀ e d, tr.decl e = some d → ∀ p ∈ d.policies, p.isSatisfied = true) (hw : AsWanted tr) : Language.passes tr.events := by
  have hcount : ∀ e d, tr.decl e = some d → d.min ≤ (fitting tr e tr.length : Int) ∧ (fitting tr e tr.length : Int) ≤ d.max := by
    intro e d hd
    obtain ⟨steps, h1, h2⟩ := hw.counts e d hd
    rw [← steps_length h1]; exact h2
  suffices h : ∀ k, k ≤ tr.length → Language.passes (Trace.events (tr.take k)) by
    have := h tr.length (Nat.le_refl _)
    rwa [List.take_length] at this
  intro k
  induction k with
  | zero => intro _; simp [Language.passes, Trace.events]
  | succ k ih =>
    intro hk
    have hlt : k < tr.length := hk
    have hpk := ih (by omega)
    have htk : tr.take (k + 1) = tr.take k ++ [tr[k]] := by rw [List.take_succ_eq_append_getElem hlt]
    have hst : tr = tr.take k ++ tr[k] :: tr.drop (k + 1) := by
      exact split_at hlt
    generalize hx : tr[k] = st at htk hst
    obtain ⟨op, ev⟩ := st
    have hget : tr[k]? = some (op, ev) := by rw [List.getElem?_eq_getElem hlt, hx]
    have hr' : Reach (tr.take k ++ (op, ev) :: tr.drop (k + 1)) w := hst ▸ hr
    obtain ⟨w0, w1, h0, hs⟩ := hr'.split
    have hmk : ∀ e, Trace.matched (tr.take k) e = fitting tr e k := fun e =>
      matched_fitting hr hu e k (by omega) (clean_of_passes hpk)
    have hdecl : ∀ e d, Trace.decl (tr.take k) e = some d → tr.decl e = some d := by
      intro e d hd
      have := decl_mono (tr' := (op, ev) :: tr.drop (k + 1)) hd
      rwa [← hst] at this
    -- nothing fits an expectation after its end
    have hdead : ∀ e j, Event.destroyed e ∈ Trace.events (tr.take j) → ∀ i, j ≤ i → ¬ Fits tr i e := by
      rintro e j hd i hji ⟨m, a, ev', -, h2⟩
      refine h2.1.2 ?_
      obtain ⟨x, hx1, hx2⟩ := List.mem_flatMap.mp hd
      refine List.mem_flatMap.mpr ⟨x, ?_, hx2⟩
      have : tr.take j = (tr.take i).take j := by rw [List.take_take, Nat.min_eq_left hji]
      rw [this] at hx1
      exact List.mem_of_mem_take hx1
    rw [htk, events_snoc, Language.passes_append]
    refine ⟨hpk, ?_⟩
    intro x hxev
    apply Classical.byContradiction
    intro hf
    cases x with
    | noMatch es =>
      obtain ⟨m, a, rfl⟩ := call_failure h0 hs (Or.inl hxev)
      obtain ⟨e, m', a', ev', h1, h2⟩ := hw.expected k m a ev hget
      rw [hget] at h1
      simp only [Option.some.injEq, Prod.mk.injEq, Op.call.injEq] at h1
      obtain ⟨⟨rfl, rfl⟩, rfl⟩ := h1
      obtain ⟨us, last, hev, -, hcase⟩ := C10_outcome h0 hs
      have hl : last = .noMatch es := by
        rw [hev] at hxev
        rcases List.mem_append.mp hxev with h | h
        · simp at h
        · exact (List.mem_singleton.mp h).symm
      rcases hcase with ⟨e0, -, hl'⟩ | ⟨-, -, es, hl', -⟩ | ⟨hno, -⟩
      · rw [hl] at hl'; cases hl'
      · rw [hl] at hl'; cases hl'
      · exact hno e h2
    | inapplicable es =>
      obtain ⟨m, a, rfl⟩ := call_failure h0 hs (Or.inr hxev)
      obtain ⟨us, last, hev, -, hcase⟩ := C10_outcome h0 hs
      have hl : last = .inapplicable es := by
        rw [hev] at hxev
        rcases List.mem_append.mp hxev with h | h
        · simp at h
        · exact (List.mem_singleton.mp h).symm
      rcases hcase with ⟨e0, -, hl'⟩ | ⟨hno, ⟨e, hacc⟩, -⟩ | ⟨-, es, hl', -⟩
      · rw [hl] at hl'; cases hl'
      · refine hno e ⟨hacc, ?_⟩
        have hfit : Fits tr k e := ⟨m, a, ev, hget, hacc⟩
        obtain ⟨-, d, hd, -⟩ := hacc
        have hd' := hdecl e d hd
        refine ⟨⟨d, hd, ?_⟩, ?_⟩
        · rw [hmk]
          have h1 := (hcount e d hd').2
          have h2 := fitting_mono tr e (j := k + 1) (k := tr.length) hk
          rw [fitting_succ, if_pos hfit] at h2
          omega
        · intro s hs'
          have hs'' : tr.attached e s := by
            obtain ⟨d1, h1, h2⟩ := hs'
            exact ⟨d1, hdecl _ _ h1, h2⟩
          refine ⟨?_, ?_⟩
          · rintro e' hlt' ⟨d1, h1, h2⟩ ⟨d2, h3, h4⟩
            rw [h1] at h3
            obtain rfl := Option.some.inj h3
            rw [hmk] at h4
            have h5 := (hcount e' d1 (hdecl _ _ h1)).1
            obtain ⟨i, h6, h7, h8⟩ := fitting_later tr e' (j := k) (k := tr.length) (by omega)
            have := hw.order e' e s hlt' ⟨d1, hdecl _ _ h1, h2⟩ hs'' i k h8 hfit
            omega
          · rintro e' hlt' ⟨d1, h1, h2⟩
            rw [hmk]
            apply Classical.byContradiction
            intro hne
            obtain ⟨i, h6, h7, h8⟩ := fitting_later tr e' (j := 0) (k := k) (by simp [fitting]; simp [fitting] at hne; omega)
            have := hw.order e e' s hlt' hs'' ⟨d1, hdecl _ _ h1, h2⟩ k i hfit h8
            omega
      · rw [hl] at hl'; cases hl'
    | unfulfilled e =>
      obtain ⟨hop, hde, -⟩ := (unfulfilled_source h0 hs e).2 hxev
      subst hop
      obtain ⟨d, hd, hiff⟩ := C03_unfulfilled_iff h0 hs
      rcases hiff.mp hxev with h1 | ⟨p, hp, hps⟩
      · rw [hmk] at h1
        have h2 := (hcount e d (hdecl _ _ hd)).1
        obtain ⟨i, h6, h7, h8⟩ := fitting_later tr e (j := k) (k := tr.length) (by omega)
        by_cases hik : i = k
        · subst hik
          obtain ⟨m, a, ev', h9, -⟩ := h8
          rw [hget] at h9
          simp at h9
        · exact hdead e (k + 1) (by rw [htk, events_snoc]; simp [hde]) i (by omega) h8
      · rw [hcon e d (hdecl _ _ hd) p hp] at hps
        cases hps
    | sequenceError s j n =>
      obtain ⟨hsd, es, e, hold, -, hj, htf, -⟩ := (C14_sequence_error h0 hs s j n).mp hxev
      have hr1 := h0.step hs
      have hatt : Trace.attached (tr.take k ++ [(op, ev)]) e s := (hold.2 e).mp (List.mem_of_getElem? hj)
      have hnr := ((C16_ended_iff hr1 s).mp (by rw [events_snoc]; simp [hsd])).2
      have hdecl1 : ∀ e d, Trace.decl (tr.take k ++ [(op, ev)]) e = some d → tr.decl e = some d := by
        intro e d hd
        have := decl_mono (tr' := tr.drop (k + 1)) hd
        have h2 : tr.take k ++ [(op, ev)] ++ tr.drop (k + 1) = tr := by rw [List.append_assoc]; exact hst.symm
        rwa [h2] at this
      obtain ⟨d, hd, hmin⟩ := htf
      have hdes : Event.destroyed e ∈ Trace.events (tr.take (k + 1)) := by
        apply Classical.byContradiction
        intro hnd
        rw [htk] at hnd
        exact hnr (Or.inr ⟨e, ⟨⟨d, hd⟩, hnd⟩, hatt⟩)
      have hclean : Clean (Trace.events (tr.take (k + 1))) := by
        rw [htk, events_snoc]
        intro es'
        have hc := clean_of_passes hpk es'
        have hno : ¬ ∃ m a, op = .call m a := by
          rintro ⟨m, a, rfl⟩
          obtain ⟨us, last, hev, -, hcase⟩ := C10_outcome h0 hs
          rw [hev] at hxev
          rcases List.mem_append.mp hxev with h | h
          · simp at h
          · have h := List.mem_singleton.mp h
            rcases hcase with ⟨e0, -, hl'⟩ | ⟨-, -, es, hl', -⟩ | ⟨-, es, hl', -⟩ <;> rw [hl'] at h <;> cases h
        constructor
        · intro hm
          rcases List.mem_append.mp hm with hm | hm
          · exact hc.1 hm
          · exact hno (call_failure h0 hs (Or.inl hm))
        · intro hm
          rcases List.mem_append.mp hm with hm | hm
          · exact hc.2 hm
          · exact hno (call_failure h0 hs (Or.inr hm))
      have hm1 := matched_fitting hr hu e (k + 1) hk hclean
      rw [htk] at hm1
      rw [hm1] at hmin
      have h2 := (hcount e d (hdecl1 _ _ hd)).1
      obtain ⟨i, h6, h7, h8⟩ := fitting_later tr e (j := k + 1) (k := tr.length) (by omega)
      exact hdead e (k + 1) hdes i h6 h8
    | _ => simp [Language.failure] at hf

end Mimic.Several
