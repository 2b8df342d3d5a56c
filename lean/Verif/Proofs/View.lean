import Verif.Proofs.Refine
import Verif.Spec.Trace

/-!
# The state of the reference semantics is a function of the observable history
-/

set_option autoImplicit false

namespace Mimic

variable {α : Type}

/-! ### Extending a history by one operation -/

theorem events_snoc (tr : Trace α) (op : Op α) (ev : List Event) :
    Trace.events (tr ++ [(op, ev)]) = tr.events ++ ev := by
  simp [Trace.events]

theorem matched_snoc (tr : Trace α) (op : Op α) (ev : List Event) (e : Nat) :
    Trace.matched (tr ++ [(op, ev)]) e = tr.matched e + ev.count (.fullMatch e) := by
  simp [Trace.matched, events_snoc, List.count_append]

/-- What one step declares for expectation `e`. -/
def declStep (e : Nat) (op : Op α) (ev : List Event) : Option (Decl α) :=
  match op with
  | .expect mock min max seqs policies =>
    if Event.created e ∈ ev then some { mock, min, max, seqs, policies } else none
  | _ => none

theorem decl_snoc (tr : Trace α) (op : Op α) (ev : List Event) (e : Nat) :
    Trace.decl (tr ++ [(op, ev)]) e = (tr.decl e).or (declStep e op ev) := by
  unfold Trace.decl
  rw [List.findSome?_append]
  congr 1
  cases op <;> simp only [List.findSome?, declStep]
  split <;> simp_all

theorem decl_snoc_none {tr : Trace α} {op : Op α} {ev : List Event} {e : Nat}
    (h : declStep e op ev = none) : Trace.decl (tr ++ [(op, ev)]) e = tr.decl e := by
  rw [decl_snoc, h, Option.or_none]

/-! ### The correspondence -/

/-- The expectation `e` as the history shows it. -/
def viewExp (tr : Trace α) (e : Nat) (d : Decl α) : Spec.Exp α :=
  { id := e, mock := d.mock, min := d.min, max := d.max, seqs := d.seqs, policies := d.policies,
    count := tr.matched e, alive := decide (Event.destroyed e ∉ tr.events) }

structure View (tr : Trace α) (S : Spec.State α) : Prop where
  exps : ∀ e, S.exps[e]? = (tr.decl e).map (viewExp tr e)
  fresh : ∀ e, S.exps.length ≤ e →
    Event.created e ∉ tr.events ∧ Event.fullMatch e ∉ tr.events ∧ Event.destroyed e ∉ tr.events
  seqs : ∀ s q, S.seqs[s]? = some q → (∀ st, tr.kind s st ↔ st = q.strategy) ∧
    (q.handle = true ↔ ∀ ev, (Op.dropSequence s, ev) ∉ tr)
  freshSeq : ∀ s, S.seqs.length ≤ s → (∀ st, ¬ tr.kind s st) ∧ ∀ ev, (Op.dropSequence s, ev) ∉ tr
  mocks : ∀ m, Event.mockCreated m ∈ tr.events ↔ m < S.mocks

theorem View.init : View ([] : Trace α) Spec.State.init := by
  constructor <;> simp [Spec.State.init, Trace.decl, Trace.events, Trace.kind]

/-- If a step neither declares, matches, ends nor defines anything, the correspondence is kept. -/
theorem View.frame {tr : Trace α} {S : Spec.State α} (h : View tr S) {op : Op α} {ev : List Event}
    (hd : ∀ e, declStep e op ev = none) (h1 : ∀ e, Event.fullMatch e ∉ ev)
    (h2 : ∀ e, Event.destroyed e ∉ ev) (h3 : ∀ e, Event.created e ∉ ev)
    (h4 : ∀ s st, Event.sequenceCreated s st ∉ ev) (h5 : ∀ m, Event.mockCreated m ∉ ev)
    (h6 : ∀ s, op ≠ .dropSequence s) :
    View (tr ++ [(op, ev)]) S := by
  constructor
  · intro e
    rw [h.exps e, decl_snoc_none (hd e)]
    cases tr.decl e with
    | none => rfl
    | some d =>
      simp only [Option.map_some, viewExp, matched_snoc, events_snoc, List.count_eq_zero_of_not_mem (h1 e),
        List.mem_append, h2 e, or_false, Nat.add_zero]
  · intro e he
    obtain ⟨g1, g2, g3⟩ := h.fresh e he
    simp only [events_snoc, List.mem_append, not_or]
    exact ⟨⟨g1, h3 e⟩, ⟨g2, h1 e⟩, ⟨g3, h2 e⟩⟩
  · intro s q hq
    obtain ⟨g1, g2⟩ := h.seqs s q hq
    refine ⟨fun st => ?_, ?_⟩
    · rw [← g1 st]
      simp [Trace.kind, events_snoc, h4 s st]
    · rw [g2]
      have := h6 s
      simp only [List.mem_append, List.mem_singleton, not_or, Prod.mk.injEq, not_and]
      exact ⟨fun hh ev' => ⟨hh ev', fun he => absurd he.symm this⟩, fun hh ev' => (hh ev').1⟩
  · intro s hs
    obtain ⟨g1, g2⟩ := h.freshSeq s hs
    have := h6 s
    refine ⟨fun st => ?_, fun ev' => ?_⟩
    · simpa [Trace.kind, events_snoc, h4 s st] using g1 st
    · simp only [List.mem_append, List.mem_singleton, not_or, Prod.mk.injEq, not_and]
      exact ⟨g2 ev', fun he => absurd he.symm this⟩
  · intro m
    simp [events_snoc, h5 m, h.mocks m]

theorem View.id {tr : Trace α} {S : Spec.State α} (h : View tr S) {n : Nat} {x : Spec.Exp α}
    (hx : S.exps[n]? = some x) : x.id = n := by
  rw [h.exps n] at hx
  cases hd : tr.decl n with
  | none => rw [hd] at hx; simp at hx
  | some d => rw [hd] at hx; simp at hx; rw [← hx]; rfl

theorem View.get {tr : Trace α} {S : Spec.State α} (h : View tr S) {x : Spec.Exp α}
    (hx : x ∈ S.exps) : ∃ d, tr.decl x.id = some d ∧ x = viewExp tr x.id d := by
  obtain ⟨n, hn⟩ := List.mem_iff_getElem?.mp hx
  have hid := h.id hn
  rw [h.exps n] at hn
  cases hd : tr.decl n with
  | none => rw [hd] at hn; simp at hn
  | some d =>
    rw [hd] at hn; simp at hn
    rw [hid]
    exact ⟨d, hd, hn.symm⟩

theorem View.mem {tr : Trace α} {S : Spec.State α} (h : View tr S) {e : Nat} {d : Decl α}
    (hd : tr.decl e = some d) : viewExp tr e d ∈ S.exps := by
  have := h.exps e
  rw [hd] at this
  exact List.mem_of_getElem? this

theorem View.decl_lt {tr : Trace α} {S : Spec.State α} (h : View tr S) {e : Nat} :
    (∃ d, tr.decl e = some d) ↔ e < S.exps.length := by
  have := h.exps e
  constructor
  · rintro ⟨d, hd⟩
    rw [hd] at this
    exact getElem?_lt this
  · intro hlt
    rw [List.getElem?_eq_getElem hlt] at this
    cases hd : tr.decl e with
    | none => rw [hd] at this; simp at this
    | some d => exact ⟨d, rfl⟩

/-! ### Observations of each operation -/

theorem sequenceEnd_mem {S : Spec.State α} {s : Nat} {ev : Event} (h : ev ∈ S.sequenceEnd s) :
    ev = .sequenceDestroyed s ∨ ∃ k n, ev = .sequenceError s k n := by
  unfold Spec.State.sequenceEnd at h
  rw [List.mem_append] at h
  rcases h with h | h
  · split at h
    · simp at h; exact Or.inr ⟨_, _, h⟩
    · simp at h
  · simp at h; exact Or.inl h

theorem release_mem {S : Spec.State α} {ss : List Nat} {ev : Event} (h : ev ∈ S.release ss) :
    ∃ s ∈ ss, S.owned s = false ∧ (ev = .sequenceDestroyed s ∨ ∃ k n, ev = .sequenceError s k n) := by
  unfold Spec.State.release at h
  rw [List.mem_flatMap] at h
  obtain ⟨s, hs, hev⟩ := h
  split at hev
  · simp at hev
  · rename_i ho
    exact ⟨s, hs, by simpa using ho, sequenceEnd_mem hev⟩

theorem call_events (S : Spec.State α) (m : Nat) (a : α) :
    ∃ us last, (S.call m a).2.1 = us.map Event.unhandled ++ [last] ∧
      us = (((S.candidates m).filter (·.throws a)).map (·.id)) ∧
      ((∃ x older, ((S.candidates m).filter (·.accepts a)).filter S.applicable = x :: older ∧
          last = .fullMatch (S.select x older).id ∧ (S.call m a).1 = S.countMatch (S.select x older).id) ∨
       (((S.candidates m).filter (·.accepts a)).filter S.applicable = [] ∧
          (S.candidates m).filter (·.accepts a) = [] ∧
          last = .noMatch (((S.candidates m).filter (fun x => !x.throws a)).map (·.id)) ∧
          (S.call m a).1 = S) ∨
       (((S.candidates m).filter (·.accepts a)).filter S.applicable = [] ∧
          (S.candidates m).filter (·.accepts a) ≠ [] ∧
          last = .inapplicable (((S.candidates m).filter (·.accepts a)).map (·.id)) ∧
          (S.call m a).1 = S)) := by
  cases hc : ((S.candidates m).filter (·.accepts a)).filter S.applicable with
  | cons x older =>
    refine ⟨_, .fullMatch (S.select x older).id, ?_, rfl, Or.inl ⟨x, older, rfl, rfl, ?_⟩⟩
    · simp [Spec.State.call, hc]
    · simp [Spec.State.call, hc]
  | nil =>
    by_cases he : (S.candidates m).filter (·.accepts a) = []
    · refine ⟨_, _, ?_, rfl, Or.inr (Or.inl ⟨rfl, he, rfl, ?_⟩)⟩
      · simp [Spec.State.call, he]
      · simp [Spec.State.call, he]
    · have he' : ((S.candidates m).filter (·.accepts a)).isEmpty = false := by
        rw [Bool.eq_false_iff]; simpa [List.isEmpty_iff] using he
      refine ⟨_, _, ?_, rfl, Or.inr (Or.inr ⟨rfl, he, rfl, ?_⟩)⟩
      · simp [Spec.State.call, hc, he']
      · simp [Spec.State.call, hc, he']

theorem countMatch_get (S : Spec.State α) (b n : Nat) :
    (S.countMatch b).exps[n]? = (S.exps[n]?).map (bumpExp b) := by
  simp only [Spec.State.countMatch, List.getElem?_map]
  rfl

theorem withdraw_get (S : Spec.State α) (b n : Nat) :
    (S.withdraw b).exps[n]? = (S.exps[n]?).map (killExp b) := by
  rw [withdraw_exps, List.getElem?_map]

/-- `select` returns one of the candidates. -/
theorem select_mem' (S : Spec.State α) (x : Spec.Exp α) (l : List (Spec.Exp α)) :
    S.select x l ∈ x :: l := by
  induction l generalizing x with
  | nil => simp [Spec.State.select]
  | cons y l ih =>
    unfold Spec.State.select
    split
    · have := ih y
      simp only [List.mem_cons] at this ⊢
      exact Or.inr this
    · have := ih x
      simp only [List.mem_cons] at this ⊢
      exact this.elim Or.inl (fun h => Or.inr (Or.inr h))

theorem candidates_mem {S : Spec.State α} {m : Nat} {x : Spec.Exp α} :
    x ∈ S.candidates m ↔ x ∈ S.exps ∧ x.alive = true ∧ x.mock = m := by
  simp [Spec.State.candidates]

theorem View.call {tr : Trace α} {S : Spec.State α} (h : View tr S) (m : Nat) (a : α) :
    View (tr ++ [(.call m a, (S.call m a).2.1)]) (S.call m a).1 := by
  obtain ⟨us, last, hev, -, hcase⟩ := call_events S m a
  rcases hcase with ⟨x, older, hc, hl, hS⟩ | ⟨_, _, hl, hS⟩ | ⟨_, _, hl, hS⟩
  · rw [hev, hS, hl]
    let b := (S.select x older).id
    have hb : b < S.exps.length := by
      have hm := select_mem' S x older
      rw [← hc] at hm
      have := (candidates_mem.mp (List.mem_filter.mp (List.mem_filter.mp hm).1).1).1
      obtain ⟨d, hd, _⟩ := h.get this
      exact h.decl_lt.mp ⟨d, hd⟩
    have hlen : (S.countMatch b).exps.length = S.exps.length := by simp [Spec.State.countMatch]
    constructor
    · intro e
      rw [countMatch_get, h.exps e, decl_snoc_none rfl]
      cases tr.decl e with
      | none => rfl
      | some d =>
        simp only [Option.map_some, viewExp, matched_snoc, events_snoc]
        by_cases hbe : e = (S.select x older).id
        · have hcnt : (List.map Event.unhandled us ++ [Event.fullMatch (S.select x older).id]).count
              (Event.fullMatch e) = 1 := by
            rw [List.count_append, List.count_eq_zero_of_not_mem (by simp), hbe]; simp
          simp only [bumpExp, hbe, if_true] at hcnt ⊢
          rw [hcnt]
          simp
        · have hcnt : (List.map Event.unhandled us ++ [Event.fullMatch (S.select x older).id]).count
              (Event.fullMatch e) = 0 := by
            apply List.count_eq_zero_of_not_mem; simp [hbe]
          simp only [bumpExp, hbe, if_false]
          rw [hcnt]
          simp
    · intro e he
      rw [hlen] at he
      obtain ⟨g1, g2, g3⟩ := h.fresh e he
      have hbe : ¬ e = (S.select x older).id := by
        intro hh
        have : e = b := hh
        omega
      simp [events_snoc, g1, g2, g3, hbe]
    · intro s q hq
      obtain ⟨g1, g2⟩ := h.seqs s q hq
      refine ⟨fun st => ?_, ?_⟩
      · rw [← g1 st]; simp [Trace.kind, events_snoc]
      · rw [g2]; simp
    · intro s hs
      obtain ⟨g1, g2⟩ := h.freshSeq s hs
      refine ⟨fun st => ?_, fun ev' => ?_⟩
      · simpa [Trace.kind, events_snoc] using g1 st
      · simpa using g2 ev'
    · intro k
      simp [events_snoc, h.mocks k, Spec.State.countMatch]
  · rw [hev, hS, hl]
    exact h.frame (fun _ => rfl) (by simp) (by simp) (by simp) (by simp) (by simp) (by simp)
  · rw [hev, hS, hl]
    exact h.frame (fun _ => rfl) (by simp) (by simp) (by simp) (by simp) (by simp) (by simp)

/-- The correspondence is kept by every operation. -/
theorem View.step {tr : Trace α} {S S' : Spec.State α} (h : View tr S) {op : Op α} {ev : List Event}
    (hs : S.step op = some (S', ev)) : View (tr ++ [(op, ev)]) S' := by
  cases op with
  | newSequence st =>
    simp only [Spec.State.step, Option.some.injEq, Prod.mk.injEq] at hs
    obtain ⟨rfl, rfl⟩ := hs
    constructor
    · intro e
      rw [decl_snoc_none rfl]
      have := h.exps e
      simp only [this]
      cases tr.decl e with
      | none => rfl
      | some d => simp [viewExp, matched_snoc, events_snoc]
    · intro e he
      obtain ⟨g1, g2, g3⟩ := h.fresh e he
      simp [events_snoc, g1, g2, g3]
    · intro s q hq
      simp only [List.getElem?_append] at hq
      split at hq
      · rename_i hlt
        obtain ⟨g1, g2⟩ := h.seqs s q hq
        refine ⟨fun st' => ?_, ?_⟩
        · rw [← g1 st']
          have : ¬ s = S.seqs.length := by omega
          simp [Trace.kind, events_snoc, this]
        · rw [g2]; simp
      · rename_i hge
        have hlt := getElem?_lt hq
        have hse : s = S.seqs.length := by simp at hlt; omega
        subst hse
        simp at hq
        subst hq
        obtain ⟨g1, g2⟩ := h.freshSeq S.seqs.length (Nat.le_refl _)
        refine ⟨fun st' => ?_, ?_⟩
        · have := g1 st'
          unfold Trace.kind at this ⊢
          simp [events_snoc, this]
        · simpa using g2
    · intro s hs
      simp at hs
      obtain ⟨g1, g2⟩ := h.freshSeq s (by omega)
      refine ⟨fun st' => ?_, fun ev' => ?_⟩
      · have := g1 st'
        unfold Trace.kind at this ⊢
        have : ¬ s = S.seqs.length := by omega
        simp [events_snoc, *]
      · simpa using g2 ev'
    · intro m
      simp [events_snoc, h.mocks m]
  | newMock =>
    simp only [Spec.State.step, Option.some.injEq, Prod.mk.injEq] at hs
    obtain ⟨rfl, rfl⟩ := hs
    constructor
    · intro e
      rw [decl_snoc_none rfl]
      have := h.exps e
      simp only [this]
      cases tr.decl e with
      | none => rfl
      | some d => simp [viewExp, matched_snoc, events_snoc]
    · intro e he
      obtain ⟨g1, g2, g3⟩ := h.fresh e he
      simp [events_snoc, g1, g2, g3]
    · intro s q hq
      obtain ⟨g1, g2⟩ := h.seqs s q hq
      refine ⟨fun st' => ?_, ?_⟩
      · rw [← g1 st']; simp [Trace.kind, events_snoc]
      · rw [g2]; simp
    · intro s hs
      obtain ⟨g1, g2⟩ := h.freshSeq s hs
      refine ⟨fun st' => ?_, fun ev' => ?_⟩
      · simpa [Trace.kind, events_snoc] using g1 st'
      · simpa using g2 ev'
    · intro m
      simp only [events_snoc, List.mem_append, h.mocks m, List.mem_singleton, Event.mockCreated.injEq]
      omega
  | dropSequence s =>
    simp only [Spec.State.step] at hs
    split at hs
    · rename_i hh
      simp only [Option.some.injEq, Prod.mk.injEq] at hs
      obtain ⟨rfl, rfl⟩ := hs
      generalize hrel : Spec.State.release { S with seqs := S.seqs.modify s fun q => { q with handle := false } } [s] = ev
      have hev : ∀ x ∈ ev, x = .sequenceDestroyed s ∨ ∃ k n, x = .sequenceError s k n := by
        intro x hx
        rw [← hrel] at hx
        obtain ⟨t, ht, _, hx⟩ := release_mem hx
        simp at ht
        rw [← ht]; exact hx
      have hnot : ∀ x, x ≠ .sequenceDestroyed s → (∀ k n, x ≠ .sequenceError s k n) → x ∉ ev := by
        intro x h1 h2 hx
        rcases hev x hx with rfl | ⟨k, n, rfl⟩
        · exact h1 rfl
        · exact h2 k n rfl
      constructor
      · intro e
        rw [decl_snoc_none rfl]
        have := h.exps e
        simp only [this]
        cases tr.decl e with
        | none => rfl
        | some d =>
          simp only [Option.map_some, viewExp, matched_snoc, events_snoc, List.mem_append,
            List.count_eq_zero_of_not_mem (hnot (.fullMatch e) (by simp) (by simp)),
            hnot (.destroyed e) (by simp) (by simp), or_false, Nat.add_zero]
      · intro e he
        obtain ⟨g1, g2, g3⟩ := h.fresh e he
        simp only [events_snoc, List.mem_append, not_or]
        exact ⟨⟨g1, hnot _ (by simp) (by simp)⟩, ⟨g2, hnot _ (by simp) (by simp)⟩,
          ⟨g3, hnot _ (by simp) (by simp)⟩⟩
      · intro t q hq
        simp only [List.getElem?_modify] at hq
        cases hqt : S.seqs[t]? with
        | none => rw [hqt] at hq; simp at hq
        | some q0 =>
          rw [hqt] at hq
          obtain ⟨g1, g2⟩ := h.seqs t q0 hqt
          have hstr : q.strategy = q0.strategy := by
            simp at hq; rw [← hq]; split <;> rfl
          refine ⟨fun st => ?_, ?_⟩
          · rw [hstr, ← g1 st]
            simp [Trace.kind, events_snoc, hnot (.sequenceCreated t st) (by simp) (by simp)]
          · simp at hq
            by_cases hst : s = t
            · rw [if_pos hst] at hq
              rw [← hq]
              simp only [Bool.false_eq_true, false_iff]
              intro hall
              apply hall ev
              simp [hst]
            · rw [if_neg hst] at hq
              rw [← hq, g2]
              have : ¬ t = s := fun hh => hst hh.symm
              simp [this]
      · intro t ht
        simp only [List.length_modify] at ht
        obtain ⟨g1, g2⟩ := h.freshSeq t ht
        have hst : ¬ t = s := by
          rintro rfl
          unfold Spec.State.hasHandle at hh
          have : S.seqs[t]? = none := by rw [List.getElem?_eq_none_iff]; exact ht
          rw [this] at hh
          simp at hh
        refine ⟨fun st => ?_, fun ev' => ?_⟩
        · have := g1 st
          unfold Trace.kind at this ⊢
          simp [events_snoc, this, hnot (.sequenceCreated t st) (by simp) (by simp)]
        · simpa [hst] using g2 ev'
      · intro m
        simp [events_snoc, h.mocks m, hnot (.mockCreated m) (by simp) (by simp)]
    · simp at hs
  | call m a =>
    simp only [Spec.State.step] at hs
    split at hs
    · simp only [Option.some.injEq, Prod.mk.injEq] at hs
      obtain ⟨rfl, rfl⟩ := hs
      exact h.call m a
    · simp at hs
  | expect m min max tags ps =>
    simp only [Spec.State.step] at hs
    split at hs
    · split at hs
      · simp only [Option.some.injEq, Prod.mk.injEq] at hs
        obtain ⟨rfl, rfl⟩ := hs
        obtain ⟨f1, f2, f3⟩ := h.fresh S.exps.length (Nat.le_refl _)
        constructor
        · intro e
          rw [decl_snoc]
          simp only [List.getElem?_append]
          by_cases hlt : e < S.exps.length
          · rw [if_pos hlt, h.exps e]
            obtain ⟨d, hd⟩ := h.decl_lt.mpr hlt
            rw [hd]
            simp [viewExp, matched_snoc, events_snoc]
          · rw [if_neg hlt]
            have hn : tr.decl e = none := by
              have := h.exps e
              rw [List.getElem?_eq_none_iff.mpr (by omega)] at this
              cases hd : tr.decl e with
              | none => rfl
              | some d => rw [hd] at this; simp at this
            rw [hn]
            by_cases hee : e = S.exps.length
            · subst hee
              have hm : tr.matched S.exps.length = 0 := List.count_eq_zero_of_not_mem f2
              simp [declStep, viewExp, matched_snoc, events_snoc, hm, f3]
            · have : ¬ (e - S.exps.length = 0) := by omega
              simp [declStep, hee, this]
        · intro e he
          simp at he
          obtain ⟨g1, g2, g3⟩ := h.fresh e (by omega)
          have : ¬ e = S.exps.length := by omega
          simp [events_snoc, g1, g2, g3, this]
        · intro s q hq
          obtain ⟨g1, g2⟩ := h.seqs s q hq
          refine ⟨fun st' => ?_, ?_⟩
          · rw [← g1 st']; simp [Trace.kind, events_snoc]
          · rw [g2]; simp
        · intro s hs
          obtain ⟨g1, g2⟩ := h.freshSeq s hs
          refine ⟨fun st' => ?_, fun ev' => ?_⟩
          · simpa [Trace.kind, events_snoc] using g1 st'
          · simpa using g2 ev'
        · intro m
          simp [events_snoc, h.mocks m]
      · simp only [Option.some.injEq, Prod.mk.injEq] at hs
        obtain ⟨rfl, rfl⟩ := hs
        exact h.frame (fun _ => by simp [declStep]) (by simp) (by simp) (by simp) (by simp) (by simp)
          (by simp)
    · simp at hs
  | destroy e =>
    simp only [Spec.State.step] at hs
    split at hs
    · simp at hs
    · rename_i x hfind
      simp only [Option.some.injEq, Prod.mk.injEq] at hs
      obtain ⟨rfl, hev⟩ := hs
      have hxm := List.mem_of_find?_eq_some hfind
      have hp := List.find?_some hfind
      simp only [Bool.and_eq_true, beq_iff_eq] at hp
      have hmem : ∀ y ∈ ev, y = .destroyed e ∨ y = .unfulfilled e ∨
          (∃ s, y = .sequenceDestroyed s ∨ ∃ k n, y = .sequenceError s k n) := by
        intro y hy
        rw [← hev] at hy
        rw [List.mem_append, List.mem_cons] at hy
        rcases hy with (hy | hy) | hy
        · exact Or.inl hy
        · split at hy
          · simp at hy; exact Or.inr (Or.inl hy)
          · simp at hy
        · obtain ⟨s, _, _, hy⟩ := release_mem hy
          exact Or.inr (Or.inr ⟨s, hy⟩)
      have hd : Event.destroyed e ∈ ev := by rw [← hev]; simp
      have hnot : ∀ y, y ≠ .destroyed e → y ≠ .unfulfilled e → (∀ s, y ≠ .sequenceDestroyed s) →
          (∀ s k n, y ≠ .sequenceError s k n) → y ∉ ev := by
        intro y h1 h2 h3 h4 hy
        rcases hmem y hy with rfl | rfl | ⟨s, rfl | ⟨k, n, rfl⟩⟩
        · exact h1 rfl
        · exact h2 rfl
        · exact h3 s rfl
        · exact h4 s k n rfl
      have hlen : (S.withdraw e).exps.length = S.exps.length := by simp [withdraw_exps]
      have helt : e < S.exps.length := by
        obtain ⟨d, hd, _⟩ := h.get hxm
        rw [hp.1] at hd
        exact h.decl_lt.mp ⟨d, hd⟩
      constructor
      · intro n
        rw [withdraw_get, h.exps n, decl_snoc_none rfl]
        cases tr.decl n with
        | none => rfl
        | some d =>
          simp only [Option.map_some, viewExp, matched_snoc, events_snoc, List.mem_append,
            List.count_eq_zero_of_not_mem (hnot (.fullMatch n) (by simp) (by simp) (by simp) (by simp)),
            Nat.add_zero]
          by_cases hne : n = e
          · subst hne
            simp [killExp, hd]
          · have := hnot (.destroyed n) (by simpa using hne) (by simp) (by simp) (by simp)
            simp [killExp, hne, this]
      · intro n hn
        rw [hlen] at hn
        obtain ⟨g1, g2, g3⟩ := h.fresh n hn
        have hne : n ≠ e := by omega
        simp only [events_snoc, List.mem_append, not_or]
        exact ⟨⟨g1, hnot _ (by simp) (by simp) (by simp) (by simp)⟩,
          ⟨g2, hnot _ (by simp) (by simp) (by simp) (by simp)⟩,
          ⟨g3, hnot _ (by simpa using hne) (by simp) (by simp) (by simp)⟩⟩
      · intro s q hq
        obtain ⟨g1, g2⟩ := h.seqs s q hq
        refine ⟨fun st => ?_, ?_⟩
        · rw [← g1 st]
          simp [Trace.kind, events_snoc, hnot (.sequenceCreated s st) (by simp) (by simp) (by simp) (by simp)]
        · rw [g2]; simp
      · intro s hs
        obtain ⟨g1, g2⟩ := h.freshSeq s hs
        refine ⟨fun st => ?_, fun ev' => ?_⟩
        · have := g1 st
          unfold Trace.kind at this ⊢
          simp [events_snoc, this, hnot (.sequenceCreated s st) (by simp) (by simp) (by simp) (by simp)]
        · simpa using g2 ev'
      · intro m
        simp [events_snoc, h.mocks m, hnot (.mockCreated m) (by simp) (by simp) (by simp) (by simp),
          Spec.State.withdraw]

/-- A step that the library survives is a step of the reference semantics. -/
theorem Inv.step_ok {w w' : World α} (h : Inv w) {op : Op α} {ev : List Event}
    (hs : w.step op = .ok (w', ev)) : (abs w).step op = some (abs w', ev) ∧ Inv w' := by
  have := h.step op
  split at this
  · obtain ⟨why, hw⟩ := this
    rw [hs] at hw; simp at hw
  · rename_i S' ev' heq
    rw [heq]
    by_cases hf : (abs w).full op
    · obtain ⟨why, hw⟩ := this.1 hf
      rw [hs] at hw; simp at hw
    · obtain ⟨w'', h1, h2, h3⟩ := this.2 hf
      rw [hs] at h1
      simp only [Except.ok.injEq, Prod.mk.injEq] at h1
      obtain ⟨rfl, rfl⟩ := h1
      exact ⟨by rw [h3], h2⟩

theorem abs_init : abs (World.init : World α) = Spec.State.init := rfl

/-- In every reachable state the representation invariant holds and the abstract state is the one
determined by the history. -/
theorem Reach.view {tr : Trace α} {w : World α} (h : Reach tr w) : Inv w ∧ View tr (abs w) := by
  induction h with
  | init => exact ⟨Inv.init, by rw [abs_init]; exact View.init⟩
  | step _ hs ih =>
    obtain ⟨h1, h2⟩ := ih.1.step_ok hs
    exact ⟨h2, ih.2.step h1⟩

end Mimic
