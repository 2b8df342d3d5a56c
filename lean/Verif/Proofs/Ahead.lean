import Verif.Spec.Ahead
import Verif.Proofs.SeveralHistory
import Verif.Proofs.Several
import Verif.Proofs.Scoped
import Verif.Props.Outcome
import Verif.Props.Safety

/-! # What is still to be done: lemmas -/

set_option autoImplicit false

namespace Mimic.Ahead

open Language (passes passes_append)
open Several (destroyed_source call_failure)

variable {α : Type}

theorem matched_mono (tr tr' : Trace α) (e : Nat) : tr.matched e ≤ Trace.matched (tr ++ tr') e := by
  simp [Trace.matched, events_append, List.count_append]

theorem call_decl (tr : Trace α) (m : Nat) (a : α) (ev : List Event) (e : Nat) : Trace.decl (tr ++ [(.call m a, ev)]) e = tr.decl e :=
  decl_snoc_none rfl

theorem end_decl (tr : Trace α) {op : Op α} (h : isEnd op = true) (ev : List Event) (e : Nat) : Trace.decl (tr ++ [(op, ev)]) e = tr.decl e := by
  apply decl_snoc_none
  cases op <;> simp_all [isEnd, declStep]

/-- If nothing failed, an expectation that has ended had enough calls. -/
theorem enough_at_end {tr : Trace α} {w : World α} (h : Reach tr w) (hp : passes tr.events) {e : Nat} (hd : Event.destroyed e ∈ tr.events) :
    ¬ tr.tooFew e := by
  rintro ⟨d, h1, h2⟩
  obtain ⟨⟨op, ev⟩, hst, hev⟩ := List.mem_flatMap.mp hd
  obtain ⟨pre, post, rfl⟩ := List.append_of_mem hst
  obtain ⟨w0, w1, h0, hs⟩ := h.split
  have hop := destroyed_source h0 hs hev
  subst hop
  obtain ⟨d', hd', hiff⟩ := C03_unfulfilled_iff h0 hs
  have hdd := decl_mono (tr' := (Op.destroy e, ev) :: post) hd'
  rw [h1] at hdd
  obtain rfl := Option.some.inj hdd
  have hm := matched_mono pre ((Op.destroy e, ev) :: post) e
  have hu : Event.unfulfilled e ∈ ev := hiff.mpr (Or.inl (by omega))
  have := hp _ (List.mem_flatMap.mpr ⟨_, hst, hu⟩)
  simp [Language.failure] at this

/-- The oldest expectation that wants calls is in turn in all its sequences. -/
theorem ready {tr : Trace α} {w : World α} (h : Reach tr w) (hp : passes tr.events) {e : Nat} (he : Wants tr e)
    (hmin : ∀ e', e' < e → ¬ Wants tr e') : tr.applicable e := by
  obtain ⟨hl, d, hd, hlt⟩ := he
  refine ⟨⟨d, hd, ?_⟩, ?_⟩
  · have hok := h.view.1.ok _ (h.view.2.mem hd)
    have := hok.min_le_max
    simp only [viewExp] at this
    omega
  · intro s hs
    refine ⟨?_, ?_⟩
    · intro e' hlt' ha htf
      by_cases hde : Event.destroyed e' ∈ tr.events
      · exact enough_at_end h hp hde htf
      · obtain ⟨d', hd', -⟩ := ha
        exact hmin e' hlt' ⟨⟨⟨d', hd'⟩, hde⟩, htf⟩
    · intro e' hlt' ha
      apply Classical.byContradiction
      intro hne
      have hin : Event.fullMatch e' ∈ tr.events := by
        apply List.count_pos_iff.mp
        unfold Trace.matched at hne
        omega
      obtain ⟨⟨op, ev⟩, hst, hev⟩ := List.mem_flatMap.mp hin
      obtain ⟨pre, post, rfl⟩ := List.append_of_mem hst
      obtain ⟨⟨d1, h1, -⟩, h2, -⟩ := C05_order h hev hlt' hs ha
      refine h2 ⟨d1, h1, ?_⟩
      have hdd := decl_mono (tr' := (op, ev) :: post) h1
      rw [hd] at hdd
      obtain rfl := Option.some.inj hdd
      have := matched_mono pre ((op, ev) :: post) e
      omega

/-- A call for which there is a candidate succeeds: one of the candidates resolves it. -/
theorem resolved {tr : Trace α} {w : World α} (h : Reach tr w) {m : Nat} {a : α} {e : Nat} (hc : tr.candidate m a e) :
    ∃ w' ev e', w.step (.call m a) = .ok (w', ev) ∧ tr.candidate m a e' ∧ passes ev ∧
      ∀ x, ev.count (.fullMatch x) = if x = e' then 1 else 0 := by
  have hm : Event.mockCreated m ∈ tr.events := by
    obtain ⟨⟨-, d, hd, rfl, -⟩, -⟩ := hc
    have := h.view.1.coll_lt _ (h.view.2.mem hd)
    rw [h.view.2.mocks]
    exact this
  obtain ⟨w', ev, hs⟩ := C10_total h a hm
  obtain ⟨us, last, rfl, -, hcase⟩ := C10_outcome h hs
  rcases hcase with ⟨e', hcand, rfl⟩ | ⟨hno, -⟩ | ⟨hno, -⟩
  · refine ⟨w', _, e', hs, hcand, Several.passes_call.mpr rfl, ?_⟩
    intro x
    rw [List.count_append, List.count_eq_zero_of_not_mem (by simp), List.count_singleton, Nat.zero_add]
    by_cases hx : x = e'
    · simp [hx]
    · have : ¬ e' = x := fun h => hx h.symm
      simp [hx, this]
  · exact absurd hc (hno e)
  · exact absurd hc.1 (hno e)

theorem least {P : Nat → Prop} (h : ∃ n, P n) : ∃ n, P n ∧ ∀ k, k < n → ¬ P k := by
  obtain ⟨n, hn⟩ := h
  induction n using Nat.strongRecOn with
  | ind n ih =>
    by_cases hk : ∃ k, k < n ∧ P k
    · obtain ⟨k, h1, h2⟩ := hk
      exact ih k h1 h2
    · exact ⟨n, hn, fun k h1 h2 => hk ⟨k, h1, h2⟩⟩

theorem le_sum {l : List Nat} {x : Nat} (h : x ∈ l) : x ≤ l.sum := by
  induction l with
  | nil => cases h
  | cons y l ih =>
    rw [List.sum_cons]
    rcases List.mem_cons.mp h with rfl | h
    · omega
    · have := ih h
      omega

theorem sum_zero {l : List Nat} (h : ∀ x ∈ l, x = 0) : l.sum = 0 := by
  induction l with
  | nil => rfl
  | cons y l ih => rw [List.sum_cons, h y (by simp), ih (fun x hx => h x (by simp [hx]))]

theorem sum_step {f g : Nat → Nat} {l : List Nat} (hn : l.Nodup) (e c : Nat) (hf : ∀ x ∈ l, g x ≤ f x + if x = e then c else 0) :
    (l.map g).sum ≤ (l.map f).sum + c := by
  induction l with
  | nil => simp
  | cons y l ih =>
    rw [List.nodup_cons] at hn
    simp only [List.map_cons, List.sum_cons]
    have h1 := hf y (by simp)
    have h2 := ih hn.2 (fun x hx => hf x (by simp [hx]))
    by_cases hy : y = e
    · subst hy
      have h3 : ∀ l' : List Nat, y ∉ l' → (∀ x ∈ l', g x ≤ f x + if x = y then c else 0) → (l'.map g).sum ≤ (l'.map f).sum := by
        intro l' hl' hx
        induction l' with
        | nil => simp
        | cons z l' ih' =>
          simp only [List.map_cons, List.sum_cons]
          have h4 := hx z (by simp)
          rw [if_neg (by rintro rfl; simp at hl')] at h4
          have := ih' (by simp_all) (fun x hx' => hx x (by simp [hx']))
          omega
      have := h3 l hn.1 (fun x hx => hf x (by simp [hx]))
      rw [if_pos rfl] at h1
      omega
    · rw [if_neg hy] at h1
      omega

theorem sum_drop {f g : Nat → Nat} {l : List Nat} (hn : l.Nodup) {e : Nat} (he : e ∈ l) (ho : ∀ x, x ≠ e → f x = g x)
    (hf : f e < g e) : (l.map f).sum < (l.map g).sum ∧ (f e + 1 = g e → (l.map f).sum + 1 = (l.map g).sum) := by
  induction l with
  | nil => cases he
  | cons y l ih =>
    rw [List.nodup_cons] at hn
    simp only [List.map_cons, List.sum_cons]
    rcases List.mem_cons.mp he with rfl | he'
    · have : l.map f = l.map g := List.map_congr_left (fun x hx => ho x (fun h => hn.1 (h ▸ hx)))
      rw [this]
      omega
    · have hy : f y = g y := ho y (fun h => hn.1 (h ▸ he'))
      have := ih hn.2 he'
      omega

theorem call_live {tr : Trace α} {w w' : World α} (h : Reach tr w) {m : Nat} {a : α} {ev : List Event}
    (hs : w.step (.call m a) = .ok (w', ev)) (e : Nat) : Trace.live (tr ++ [(.call m a, ev)]) e ↔ tr.live e :=
  live_neutral h (by simp [neutral]) hs e

/-- One more call for the oldest expectation that wants one: something changes for the better. -/
theorem onward {tr : Trace α} {w : World α} (h : Reach tr w) (hp : passes tr.events) {e m : Nat} {a : α} (he : Wants tr e)
    (hmin : ∀ e', e' < e → ¬ Wants tr e') (ha : tr.accepts m a e) :
    ∃ w' ev e', Reach (tr ++ [(.call m a, ev)]) w' ∧ tr.candidate m a e' ∧ passes (Trace.events (tr ++ [(.call m a, ev)])) ∧
      (∀ x, Trace.matched (tr ++ [(.call m a, ev)]) x = tr.matched x + if x = e' then 1 else 0) ∧
      (∀ x, Trace.live (tr ++ [(.call m a, ev)]) x ↔ tr.live x) ∧ ∀ x, Trace.decl (tr ++ [(.call m a, ev)]) x = tr.decl x := by
  obtain ⟨w', ev, e', hs, hc, hpe, hm⟩ := resolved h ⟨ha, ready h hp he hmin⟩
  refine ⟨w', ev, e', h.step hs, hc, ?_, ?_, call_live h hs, call_decl tr m a ev⟩
  · rw [events_snoc, passes_append]
    exact ⟨hp, hpe⟩
  · intro x
    rw [matched_snoc, hm]

/-- How many more calls expectation `e` could take. -/
def room (tr : Trace α) (e : Nat) : Nat :=
  match tr.decl e with
  | some d => (d.max - tr.matched e).toNat
  | none => 0

theorem wants_mono {tr tr' : Trace α} {e : Nat} (hl : Trace.live tr' e → Trace.live tr e) (hd : Trace.decl tr' e = Trace.decl tr e)
    (hm : Trace.matched tr e ≤ Trace.matched tr' e) (h : Wants tr' e) : Wants tr e := by
  obtain ⟨h1, d, h2, h3⟩ := h
  exact ⟨hl h1, d, hd ▸ h2, by omega⟩

theorem satisfiable (N n : Nat) : ∀ {tr : Trace α} {w : World α}, Reach tr w → passes tr.events → (∀ e, Wants tr e → Possible tr e) →
    (∀ e d, tr.decl e = some d → e < N) → ((List.range N).map (room tr)).sum ≤ n →
    ∃ calls w', (∀ st ∈ calls, isCall st.1 = true) ∧ Reach (tr ++ calls) w' ∧ passes (Trace.events (tr ++ calls)) ∧
      ∀ e, ¬ Wants (tr ++ calls) e := by
  induction n with
  | zero =>
    intro tr w h hp hc hN hr
    refine ⟨[], w, by simp, by simpa using h, by simpa using hp, ?_⟩
    rintro e he
    rw [List.append_nil] at he
    obtain ⟨⟨⟨d, hd⟩, -⟩, d', hd', hlt⟩ := he
    rw [hd] at hd'
    obtain rfl := Option.some.inj hd'
    have h1 := (h.view.1.ok _ (h.view.2.mem hd)).min_le_max
    simp only [viewExp] at h1
    have h2 : room tr e ∈ (List.range N).map (room tr) := List.mem_map.mpr ⟨e, by simpa using hN e d hd, rfl⟩
    have h3 := le_sum h2
    have h4 : room tr e = (d.max - tr.matched e).toNat := by simp only [room, hd]
    omega
  | succ n ih =>
    intro tr w h hp hc hN hr
    by_cases hw : ∃ e, Wants tr e
    · obtain ⟨e, he, hmin⟩ := least hw
      obtain ⟨d, a, hd, hpa⟩ := hc e he
      obtain ⟨w', ev, e', h1, h2, h3, h4, h5, h6⟩ := onward h hp he hmin ⟨he.1, d, hd, rfl, hpa⟩
      have hdrop : ((List.range N).map (room (tr ++ [(.call d.mock a, ev)]))).sum < ((List.range N).map (room tr)).sum := by
        obtain ⟨-, ⟨d', hd', hlt⟩, -⟩ := h2
        refine (sum_drop List.nodup_range (e := e') (by simpa using hN e' d' hd') ?_ ?_).1
        · intro x hx
          simp only [room, h6, h4, if_neg hx, Nat.add_zero]
        · simp only [room, h6, h4, if_true, hd']
          omega
      obtain ⟨calls, w'', k1, k2, k3, k4⟩ := ih h1 h3 (fun x hx => by
          obtain ⟨d1, a1, g1, g2⟩ := hc x (wants_mono (h5 x).mp (h6 x) (by rw [h4]; omega) hx)
          exact ⟨d1, a1, by rw [h6]; exact g1, g2⟩) (fun x d1 hx => hN x d1 (by rw [← h6]; exact hx)) (by omega)
      refine ⟨(.call d.mock a, ev) :: calls, w'', ?_, by simpa using k2, by simpa using k3, by simpa using k4⟩
      intro st hst
      rcases List.mem_cons.mp hst with rfl | hst
      · rfl
      · exact k1 st hst
    · exact ⟨[], w, by simp, by simpa using h, by simpa using hp, fun e he => hw ⟨e, by simpa using he⟩⟩

theorem exactly (es : List Nat) (n : Nat) : ∀ {tr : Trace α} {w : World α}, Reach tr w → passes tr.events → (∀ e, Wants tr e → Own tr e) →
    YoungestFirst tr.live es → (es.map (missing tr)).sum = n →
    ∃ calls w', (∀ st ∈ calls, isCall st.1 = true) ∧ Reach (tr ++ calls) w' ∧ passes (Trace.events (tr ++ calls)) ∧
      (∀ e, ¬ Wants (tr ++ calls) e) ∧ calls.length = n := by
  induction n with
  | zero =>
    intro tr w h hp hc hN hr
    refine ⟨[], w, by simp, by simpa using h, by simpa using hp, ?_, rfl⟩
    rintro e he
    rw [List.append_nil] at he
    obtain ⟨hl, d, hd, hlt⟩ := he
    have h2 : missing tr e ∈ es.map (missing tr) := List.mem_map.mpr ⟨e, (hN.2 e).mpr hl, rfl⟩
    have h3 := le_sum h2
    have h4 : missing tr e = (d.min - tr.matched e).toNat := by simp only [missing, hd]
    omega
  | succ n ih =>
    intro tr w h hp hc hN hr
    by_cases hw : ∃ e, Wants tr e
    · obtain ⟨e, he, hmin⟩ := least hw
      obtain ⟨m, a, hacc, honly⟩ := hc e he
      obtain ⟨w', ev, e', h1, h2, h3, h4, h5, h6⟩ := onward h hp he hmin hacc
      obtain rfl := honly e' h2.1
      have hdrop : ((es.map (missing (tr ++ [(.call m a, ev)]))).sum) + 1 = (es.map (missing tr)).sum := by
        obtain ⟨hl, d, hd, hlt⟩ := he
        have hm1 : missing (tr ++ [(.call m a, ev)]) e' + 1 = missing tr e' := by
          simp only [missing, h6, h4, if_true, hd]
          omega
        refine (sum_drop (hN.1.imp (fun h => by omega)) (e := e') ((hN.2 e').mpr hl) ?_ (by omega)).2 hm1
        intro x hx
        simp only [missing, h6, h4, if_neg hx, Nat.add_zero]
      obtain ⟨calls, w'', k1, k2, k3, k4, k5⟩ := ih h1 h3 (fun x hx => by
          obtain ⟨m1, a1, g1, g2⟩ := hc x (wants_mono (h5 x).mp (h6 x) (by rw [h4]; omega) hx)
          refine ⟨m1, a1, ?_, ?_⟩
          · simpa only [Trace.accepts, h5, h6] using g1
          · intro y hy
            exact g2 y (by simpa only [Trace.accepts, h5, h6] using hy))
          ⟨hN.1, fun x => by rw [hN.2, h5]⟩ (by omega)
      refine ⟨(.call m a, ev) :: calls, w'', ?_, by simpa using k2, by simpa using k3, by simpa using k4, by simp [k5]⟩
      intro st hst
      rcases List.mem_cons.mp hst with rfl | hst
      · rfl
      · exact k1 st hst
    · exfalso
      have : (es.map (missing tr)).sum = 0 := by
        apply sum_zero
        intro k hk
        obtain ⟨e, he, rfl⟩ := List.mem_map.mp hk
        have hl := (hN.2 e).mp he
        obtain ⟨d, hd⟩ := hl.1
        have h4 : missing tr e = (d.min - tr.matched e).toNat := by simp only [missing, hd]
        have h5 : ¬ ((tr.matched e : Int) < d.min) := fun hlt => hw ⟨e, hl, d, hd, hlt⟩
        omega
      omega

/-- Calls neither create nor end expectations. -/
theorem kept_aux {tr : Trace α} (n : Nat) : ∀ {calls : Trace α} {w : World α}, calls.length = n → (∀ st ∈ calls, isCall st.1 = true) →
    Reach (tr ++ calls) w → ∀ e, (Trace.live (tr ++ calls) e ↔ tr.live e) ∧ Trace.decl (tr ++ calls) e = tr.decl e := by
  induction n with
  | zero =>
    intro calls w hl _ _ e
    rw [List.eq_nil_of_length_eq_zero hl, List.append_nil]
    exact ⟨Iff.rfl, rfl⟩
  | succ n ih =>
    intro calls w hl hc h e
    rcases List.eq_nil_or_concat calls with rfl | ⟨init, ⟨op, ev⟩, rfl⟩
    · simp at hl
    rw [List.concat_eq_append] at *
    rw [← List.append_assoc] at h ⊢
    obtain ⟨w0, h0, hs⟩ := h.snoc_inv
    have i := ih (by simpa using hl) (fun st hst => hc st (by simp [hst])) h0 e
    have hop : isCall op = true := hc (op, ev) (by simp)
    cases op with
    | call m a => rw [call_live h0 hs, call_decl]; exact i
    | _ => simp [isCall] at hop

theorem kept {tr calls : Trace α} {w w' : World α} (_ : Reach tr w) (hc : ∀ st ∈ calls, isCall st.1 = true) (h : Reach (tr ++ calls) w') (e : Nat) :
    (Trace.live (tr ++ calls) e ↔ tr.live e) ∧ Trace.decl (tr ++ calls) e = tr.decl e :=
  kept_aux _ rfl hc h e

/-! ## Ends -/

theorem no_match {tr : Trace α} {w w' : World α} (h : Reach tr w) {op : Op α} {ev : List Event} (hs : w.step op = .ok (w', ev))
    (hop : isCall op = false) (e : Nat) : ev.count (.fullMatch e) = 0 := by
  apply List.count_eq_zero_of_not_mem
  intro hm
  obtain ⟨m, a, rfl, -⟩ := fullMatch_source h hs hm
  simp [isCall] at hop

theorem end_not_call {op : Op α} (h : isEnd op = true) : isCall op = false := by
  cases op <;> simp_all [isEnd, isCall]

/-- If no expectation lacks calls, nothing fails at the ends of expectations and sequences. -/
theorem ends_pass {tr : Trace α} (hp : passes tr.events) (hno : ∀ e, ¬ tr.tooFew e)
    (hsat : ∀ e d, tr.live e → tr.decl e = some d → ∀ p ∈ d.policies, p.isSatisfied = true) (n : Nat) :
    ∀ {ends : Trace α} {w : World α}, ends.length = n → (∀ st ∈ ends, isEnd st.1 = true) → Reach (tr ++ ends) w →
      passes (Trace.events (tr ++ ends)) ∧ (∀ e, Trace.decl (tr ++ ends) e = tr.decl e) ∧ ∀ e, Trace.matched (tr ++ ends) e = tr.matched e := by
  induction n with
  | zero =>
    intro ends w hl he h
    rw [List.eq_nil_of_length_eq_zero hl, List.append_nil]
    exact ⟨hp, fun _ => rfl, fun _ => rfl⟩
  | succ n ih =>
    intro ends w hl he h
    rcases List.eq_nil_or_concat ends with rfl | ⟨init, st, rfl⟩
    · simp at hl
    obtain ⟨op, ev⟩ := st
    rw [List.concat_eq_append] at *
    rw [← List.append_assoc] at h ⊢
    obtain ⟨w0, h0, hs⟩ := h.snoc_inv
    obtain ⟨i1, i2, i3⟩ := ih (by simpa using hl) (fun st hst => he st (by simp [hst])) h0
    have hend : isEnd op = true := he (op, ev) (by simp)
    have hd : ∀ e, Trace.decl (tr ++ init ++ [(op, ev)]) e = tr.decl e := fun e => by rw [end_decl _ hend, i2]
    have hm : ∀ e, Trace.matched (tr ++ init ++ [(op, ev)]) e = tr.matched e := fun e => by
      rw [matched_snoc, no_match h0 hs (end_not_call hend), i3, Nat.add_zero]
    refine ⟨?_, hd, hm⟩
    rw [events_snoc, passes_append]
    refine ⟨i1, ?_⟩
    intro x hx
    apply Classical.byContradiction
    intro hf
    cases x with
    | noMatch es =>
      obtain ⟨m, a, rfl⟩ := call_failure h0 hs (Or.inl hx)
      simp [isEnd] at hend
    | inapplicable es =>
      obtain ⟨m, a, rfl⟩ := call_failure h0 hs (Or.inr hx)
      simp [isEnd] at hend
    | unfulfilled e =>
      obtain ⟨hop, -, hlive⟩ := (unfulfilled_source h0 hs e).2 hx
      subst hop
      obtain ⟨d, hd1, hiff⟩ := C03_unfulfilled_iff h0 hs
      rw [i2] at hd1
      rcases hiff.mp hx with h1 | ⟨p, hp1, hp2⟩
      · exact hno e ⟨d, hd1, by rw [i3] at h1; exact h1⟩
      · have hl1 : tr.live e := ⟨⟨d, hd1⟩, fun hc => hlive.2 (by rw [events_append]; simp [hc])⟩
        rw [hsat e d hl1 hd1 p hp1] at hp2
        cases hp2
    | sequenceError s j k =>
      obtain ⟨-, es, e, -, -, -, ⟨d, hd1, hlt⟩, -⟩ := (C14_sequence_error h0 hs s j k).mp hx
      rw [hd] at hd1
      rw [hm] at hlt
      exact hno e ⟨d, hd1, hlt⟩
    | _ => simp [Language.failure] at hf

/-- All expectations and sequences can be ended. -/
theorem ends_exist {tr : Trace α} {w : World α} (h : Reach tr w) :
    ∃ ends w', (∀ st ∈ ends, isEnd st.1 = true) ∧ Reach (tr ++ ends) w' ∧ (∀ e, ¬ Trace.live (tr ++ ends) e) ∧
      ∀ s, ¬ Trace.handle (tr ++ ends) s := by
  have key1 : ∀ n, ∃ ends w', (∀ st ∈ ends, isEnd st.1 = true) ∧ Reach (tr ++ ends) w' ∧ (∀ e, e < n → ¬ Trace.live (tr ++ ends) e) ∧
      ∀ e, Trace.decl (tr ++ ends) e = tr.decl e := by
    intro n
    induction n with
    | zero => exact ⟨[], w, by simp, by simpa using h, by omega, by simp⟩
    | succ n ih =>
      obtain ⟨ends, w', h1, h2, h3, h4⟩ := ih
      by_cases hl : Trace.live (tr ++ ends) n
      · obtain ⟨w'', ev, hs⟩ := (C17_progress h2 (.destroy n)).1 hl (by simp [Trace.overflows])
        refine ⟨ends ++ [(.destroy n, ev)], w'', ?_, by rw [← List.append_assoc]; exact h2.step hs, ?_, ?_⟩
        · intro st hst
          rcases List.mem_append.mp hst with hst | hst
          · exact h1 st hst
          · rw [List.mem_singleton.mp hst]; rfl
        · intro e he
          rw [← List.append_assoc, live_destroy hs]
          rintro ⟨g1, g2⟩
          exact h3 e (by omega) g1
        · intro e
          rw [← List.append_assoc, end_decl _ rfl, h4]
      · refine ⟨ends, w', h1, h2, ?_, h4⟩
        intro e he
        by_cases hen : e = n
        · subst hen; exact hl
        · exact h3 e (by omega)
  obtain ⟨ends, w', h1, h2, h3, h4⟩ := key1 (abs w).exps.length
  have hdead : ∀ e, ¬ Trace.live (tr ++ ends) e := by
    intro e hl
    by_cases he : e < (abs w).exps.length
    · exact h3 e he hl
    · obtain ⟨⟨d, hd⟩, -⟩ := hl
      rw [h4] at hd
      have := h.view.2.exps e
      rw [hd, List.getElem?_eq_none (by omega)] at this
      simp at this
  have key2 : ∀ n, ∃ ends' w'', (∀ st ∈ ends', isEnd st.1 = true) ∧ Reach (tr ++ ends ++ ends') w'' ∧
      (∀ e, ¬ Trace.live (tr ++ ends ++ ends') e) ∧ (∀ s, s < n → ¬ Trace.handle (tr ++ ends ++ ends') s) ∧
      ∀ s st, Trace.kind (tr ++ ends ++ ends') s st → Trace.kind (tr ++ ends) s st := by
    intro n
    induction n with
    | zero => exact ⟨[], w', by simp, by simpa using h2, by simpa using hdead, by omega, by simp⟩
    | succ n ih =>
      obtain ⟨ends', w'', i1, i2, i3, i4, i5⟩ := ih
      by_cases hl : Trace.handle (tr ++ ends ++ ends') n
      · obtain ⟨w3, ev, hs⟩ := (C17_progress i2 (.dropSequence n)).1 hl (by simp [Trace.overflows])
        have hk : ∀ s st, Event.sequenceCreated s st ∉ ev := by
          intro s st hc
          have hsp := i2.spec_step hs
          simp only [Spec.State.step] at hsp
          split at hsp
          · simp only [Option.some.injEq, Prod.mk.injEq] at hsp
            rw [← hsp.2] at hc
            simp only [Spec.State.release, List.mem_flatMap] at hc
            obtain ⟨s', -, hm⟩ := hc
            split at hm
            · cases hm
            · simp only [Spec.State.sequenceEnd] at hm
              split at hm <;> simp at hm
          · cases hsp
        refine ⟨ends' ++ [(.dropSequence n, ev)], w3, ?_, by rw [← List.append_assoc]; exact i2.step hs, ?_, ?_, ?_⟩
        · intro st hst
          rcases List.mem_append.mp hst with hst | hst
          · exact i1 st hst
          · rw [List.mem_singleton.mp hst]; rfl
        · intro e
          rw [← List.append_assoc, live_neutral i2 (by simp [neutral]) hs]
          exact i3 e
        · intro s he
          rw [← List.append_assoc]
          rintro ⟨⟨st, g1⟩, g2⟩
          by_cases hsn : s = n
          · subst hsn
            exact g2 ev (by simp)
          · refine i4 s (by omega) ⟨⟨st, ?_⟩, fun ev1 hm => g2 ev1 (List.mem_append.mpr (Or.inl hm))⟩
            unfold Trace.kind at g1 ⊢
            rw [events_snoc] at g1
            rcases List.mem_append.mp g1 with g1 | g1
            · exact g1
            · exact absurd g1 (hk s st)
        · intro s st hks
          rw [← List.append_assoc] at hks
          unfold Trace.kind at hks i5 ⊢
          rw [events_snoc] at hks
          rcases List.mem_append.mp hks with g1 | g1
          · exact i5 s st g1
          · exact absurd g1 (hk s st)
      · refine ⟨ends', w'', i1, i2, i3, ?_, i5⟩
        intro s he
        by_cases hsn : s = n
        · subst hsn; exact hl
        · exact i4 s (by omega)
  obtain ⟨ends', w'', i1, i2, i3, i4, i5⟩ := key2 (abs w').seqs.length
  refine ⟨ends ++ ends', w'', ?_, by rw [← List.append_assoc]; exact i2, by rw [← List.append_assoc]; exact i3, ?_⟩
  · intro st hst
    rcases List.mem_append.mp hst with hst | hst
    · exact h1 st hst
    · exact i1 st hst
  · intro s
    rw [← List.append_assoc]
    intro hh
    by_cases hs : s < (abs w').seqs.length
    · exact i4 s hs hh
    · obtain ⟨⟨st, hk⟩, -⟩ := hh
      exact (h2.view.2.freshSeq s (by omega)).1 st (i5 s st hk)

/-! ## How many calls are needed -/

theorem one_match {tr : Trace α} {w w' : World α} (h : Reach tr w) {op : Op α} {ev : List Event} (hs : w.step op = .ok (w', ev)) :
    ∃ e, ∀ x, ev.count (.fullMatch x) ≤ if x = e then (if isCall op then 1 else 0) else 0 := by
  cases op with
  | call m a =>
    obtain ⟨us, last, rfl, -, -⟩ := C10_outcome h hs
    have hz : ∀ x, (us.map Event.unhandled ++ [last]).count (.fullMatch x) = [last].count (.fullMatch x) := by
      intro x
      rw [List.count_append, List.count_eq_zero_of_not_mem (by simp), Nat.zero_add]
    by_cases hl : ∃ e, last = .fullMatch e
    · obtain ⟨e, rfl⟩ := hl
      refine ⟨e, fun x => ?_⟩
      rw [hz, List.count_singleton]
      by_cases hx : x = e
      · subst hx; simp [isCall]
      · have : ¬ e = x := fun h => hx h.symm
        simp [this]
    · refine ⟨0, fun x => ?_⟩
      rw [hz, List.count_eq_zero_of_not_mem]
      · omega
      · intro hc
        exact hl ⟨x, (List.mem_singleton.mp hc).symm⟩
  | _ => exact ⟨0, fun x => by rw [no_match h hs rfl]; omega⟩

theorem at_least {tr : Trace α} {es : List Nat} (hes : es.Nodup) (hd : ∀ e ∈ es, ∃ d, tr.decl e = some d) (n : Nat) :
    ∀ {rest : Trace α} {w : World α}, rest.length = n → Reach (tr ++ rest) w →
      (es.map (missing tr)).sum ≤ (es.map (missing (tr ++ rest))).sum + rest.countP (fun st => isCall st.1) := by
  induction n with
  | zero =>
    intro rest w hl h
    rw [List.eq_nil_of_length_eq_zero hl]
    simp
  | succ n ih =>
    intro rest w hl h
    rcases List.eq_nil_or_concat rest with rfl | ⟨init, st, rfl⟩
    · simp at hl
    obtain ⟨op, ev⟩ := st
    rw [List.concat_eq_append] at *
    rw [← List.append_assoc] at h ⊢
    obtain ⟨w0, h0, hs⟩ := h.snoc_inv
    have i1 := ih (by simpa using hl) h0
    obtain ⟨e, he⟩ := one_match h0 hs
    have : (es.map (missing (tr ++ init))).sum ≤ (es.map (missing (tr ++ init ++ [(op, ev)]))).sum + (if isCall op then 1 else 0) := by
      apply sum_step hes e
      intro x hx
      obtain ⟨d, hdx⟩ := hd x hx
      have h1 : Trace.decl (tr ++ init) x = some d := decl_mono hdx
      have h2 : Trace.decl (tr ++ init ++ [(op, ev)]) x = some d := decl_mono h1
      have h3 : ev.count (.fullMatch x) ≤ if x = e then (if isCall op then 1 else 0) else 0 := he x
      simp only [missing, h1, h2, matched_snoc]
      omega
    rw [List.countP_append]
    simp only [List.countP_cons, List.countP_nil, Nat.zero_add]
    omega

end Mimic.Ahead
