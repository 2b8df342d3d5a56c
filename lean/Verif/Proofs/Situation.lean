import Verif.Spec.Situation
import Verif.Proofs.Kinds
import Verif.Proofs.SpecRun
import Verif.Props.Outcome

/-! # What of the past matters: lemmas -/

set_option autoImplicit false

namespace Mimic.Situation

variable {α : Type}

/-- The situation determines the state of the reference semantics. -/
theorem Same.state {tr tr' : Trace α} (h : Same tr tr') {S S' : Spec.State α} (v : View tr S) (v' : View tr' S') : S = S' := by
  have hx : S.exps = S'.exps := by
    apply List.ext_getElem?
    intro e
    rw [v.exps, v'.exps, h.declared]
    cases hd : tr'.decl e with
    | none => rfl
    | some d =>
      simp only [Option.map_some, viewExp, h.counts]
      have h1 := h.inForce e
      unfold Trace.live at h1
      rw [h.declared, hd] at h1
      simp at h1
      simp [h1]
  have hq : S.seqs = S'.seqs := by
    apply List.ext_getElem?
    intro s
    cases h1 : S.seqs[s]? with
    | none =>
      cases h2 : S'.seqs[s]? with
      | none => rfl
      | some q' =>
        exfalso
        have h3 := ((v'.seqs s q' h2).1 q'.strategy).mpr rfl
        exact (v.freshSeq s (List.getElem?_eq_none_iff.mp h1)).1 _ ((h.kinds s _).mpr h3)
    | some q =>
      have h3 := ((v.seqs s q h1).1 q.strategy).mpr rfl
      cases h2 : S'.seqs[s]? with
      | none =>
        exfalso
        exact (v'.freshSeq s (List.getElem?_eq_none_iff.mp h2)).1 _ ((h.kinds s _).mp h3)
      | some q' =>
        have h4 := ((v'.seqs s q' h2).1 q.strategy).mp ((h.kinds s _).mp h3)
        have h5 : q.handle = true ↔ q'.handle = true := by
          have h6 := h.handles s
          rw [(v.seqs s q h1).2, (v'.seqs s q' h2).2]
          unfold Trace.handle at h6
          constructor
          · intro g
            exact (h6.mp ⟨⟨_, h3⟩, g⟩).2
          · intro g
            exact (h6.mpr ⟨⟨_, (h.kinds s _).mp h3⟩, g⟩).2
        obtain ⟨a, b⟩ := q
        obtain ⟨c, d⟩ := q'
        simp only at h4 h5
        rw [h4, Bool.eq_iff_iff.mpr h5]
  have hm : S.mocks = S'.mocks := by
    have h1 : ∀ m, m < S.mocks ↔ m < S'.mocks := fun m => by rw [← v.mocks, ← v'.mocks, h.mocks]
    have h2 := h1 S.mocks
    have h3 := h1 S'.mocks
    omega
  obtain ⟨a, b, c⟩ := S
  obtain ⟨a', b', c'⟩ := S'
  simp only at hx hq hm
  rw [hx, hq, hm]

/-- The state of the reference semantics determines the situation. -/
theorem Same.of_state {tr tr' : Trace α} {S : Spec.State α} (v : View tr S) (v' : View tr' S) : Same tr tr' := by
  have hd : ∀ e, (tr.decl e).map (viewExp tr e) = (tr'.decl e).map (viewExp tr' e) := fun e => by rw [← v.exps, ← v'.exps]
  have hd1 : ∀ e, tr.decl e = tr'.decl e := by
    intro e
    have := hd e
    cases h1 : tr.decl e <;> cases h2 : tr'.decl e <;> rw [h1, h2] at this <;> simp [viewExp] at this ⊢
    rename_i d d'
    obtain ⟨a, b, c, f, g⟩ := d
    obtain ⟨a', b', c', f', g'⟩ := d'
    simp_all
  constructor
  · exact hd1
  · intro e
    unfold Trace.live
    rw [hd1]
    have := hd e
    rw [hd1] at this
    cases h2 : tr'.decl e with
    | none => simp
    | some d =>
      rw [h2] at this
      simp [viewExp] at this ⊢
      exact not_congr this.2
  · intro e
    have := hd e
    rw [hd1] at this
    cases h2 : tr'.decl e with
    | none =>
      have h3 : S.exps.length ≤ e := by
        have := v'.exps e
        rw [h2] at this
        exact List.getElem?_eq_none_iff.mp this
      unfold Trace.matched
      rw [List.count_eq_zero_of_not_mem (v.fresh e h3).2.1, List.count_eq_zero_of_not_mem (v'.fresh e h3).2.1]
    | some d =>
      rw [h2] at this
      simp [viewExp] at this
      exact this.1
  · intro m
    rw [v.mocks, v'.mocks]
  · intro s st
    cases h1 : S.seqs[s]? with
    | none =>
      have h2 := List.getElem?_eq_none_iff.mp h1
      exact ⟨fun h => absurd h ((v.freshSeq s h2).1 st), fun h => absurd h ((v'.freshSeq s h2).1 st)⟩
    | some q => rw [(v.seqs s q h1).1, (v'.seqs s q h1).1]
  · intro s
    unfold Trace.handle
    cases h1 : S.seqs[s]? with
    | none =>
      have h2 := List.getElem?_eq_none_iff.mp h1
      constructor
      · rintro ⟨⟨st, h⟩, -⟩; exact absurd h ((v.freshSeq s h2).1 st)
      · rintro ⟨⟨st, h⟩, -⟩; exact absurd h ((v'.freshSeq s h2).1 st)
    | some q =>
      have h2 := ((v.seqs s q h1).1 q.strategy).mpr rfl
      have h3 := ((v'.seqs s q h1).1 q.strategy).mpr rfl
      rw [← (v.seqs s q h1).2, ← (v'.seqs s q h1).2]
      exact ⟨fun g => ⟨⟨_, h3⟩, g.2⟩, fun g => ⟨⟨_, h2⟩, g.2⟩⟩

/-- A call that no expectation resolves changes nothing. -/
theorem ineffective {tr : Trace α} {w w' : World α} (h : Reach tr w) {op : Op α} {ev : List Event} (hs : w.step op = .ok (w', ev))
    (he : effective (op, ev) = false) : abs w' = abs w := by
  cases op with
  | call m a =>
    have hsp := h.spec_step hs
    simp only [Spec.State.step] at hsp
    split at hsp
    · simp only [Option.some.injEq, Prod.mk.injEq] at hsp
      obtain ⟨h1, h2⟩ := hsp
      obtain ⟨us, last, h3, -, h4⟩ := call_events (abs w) m a
      rw [h3] at h2
      rcases h4 with ⟨x, older, -, h5, -⟩ | ⟨-, -, -, h5⟩ | ⟨-, -, -, h5⟩
      · rw [h5] at h2
        rw [← h2] at he
        simp [effective] at he
      · rw [← h1, h5]
      · rw [← h1, h5]
    · cases hsp
  | _ => simp [effective] at he

end Mimic.Situation
