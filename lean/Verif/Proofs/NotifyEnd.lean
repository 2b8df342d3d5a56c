import Verif.Proofs.NotifyPatch
import Verif.Proofs.WatcherLife

/-!
# Lemmas about reporters that call mocks: the ends of expectations and sequences
-/

set_option autoImplicit false

namespace Mimic.Notify

open Mimic.Display (Show Rec tooDeep Frame)

variable {α : Type} {rank srank : Nat → Nat} {hooks : Hooks α}

/-- What calls of lower layers leave alone, in both directions. -/
structure Kept (rank srank : Nat → Nat) (R : Nat) (w w' : World α) : Prop where
  frame : Frame rank srank R w w'
  back : ∀ (e : Nat) (x : Exp α), w'.exps[e]? = some x → R ≤ rank x.coll → w.exps[e]? = some x
  low : ∀ (e : Nat) (x : Exp α), w.exps[e]? = some x → ∀ en ∈ x.control.entries, srank en.1 = rank x.coll
  low' : ∀ (e : Nat) (x : Exp α), w'.exps[e]? = some x → ∀ en ∈ x.control.entries, srank en.1 = rank x.coll

theorem Kept.refl {R : Nat} {tr : Trace α} {w : World α} (h : Display.Good rank srank tr w) : Kept rank srank R w w :=
  ⟨.refl _ _, fun _ _ h _ => h, fun _ _ hx => h.entries hx, fun _ _ hx => h.entries hx⟩

theorem Kept.trans {R : Nat} {w w' w'' : World α} (h : Kept rank srank R w w') (h' : Kept rank srank R w' w'') :
    Kept rank srank R w w'' :=
  ⟨h.frame.trans h'.frame, fun e x hx hr => h.back e x (h'.back e x hx hr) hr, h.low, h'.low'⟩

theorem kept {R : Nat} {tr new : Trace α} {w w' : World α} (h : Display.Good rank srank tr w)
    (h' : Display.Good rank srank (tr ++ new) w') (hn : OnlyCalls new) (hf : Frame rank srank R w w') : Kept rank srank R w w' := by
  refine ⟨hf, fun e x' hx' hr => ?_, fun _ _ hx => h.entries hx, fun _ _ hx => h'.entries hx⟩
  obtain ⟨d, hd, hxd⟩ := h'.reach.view.2.get (abs_mem hx')
  have hde : Trace.decl (tr ++ new) e = some d := hd
  rw [decl_append_none (fun st hst m min max tags ps ho => by
    obtain ⟨k, a, hk⟩ := hn st hst
    rw [hk] at ho
    exact absurd ho (by simp))] at hde
  have hlt := decl_lt h.reach hde
  have hx := List.getElem?_eq_getElem hlt
  obtain ⟨d', hd', hxd'⟩ := h.reach.view.2.get (abs_mem hx)
  have hd'' : tr.decl e = some d' := hd'
  rw [hde] at hd''
  simp only [Option.some.injEq] at hd''
  subst hd''
  have e1 : x'.coll = d.mock := congrArg Spec.Exp.mock hxd
  have e2 : (w.exps[e]'hlt).coll = d.mock := congrArg Spec.Exp.mock hxd'
  have := hf.exps e _ hx (by rw [e2, ← e1]; exact hr)
  rw [hx'] at this
  simp only [Option.some.injEq] at this
  rw [hx, this]

/-! ## The fate of sequences -/

/-- The end of sequence `s`, in addition. -/
def Patch.kill (T : Patch α) (s : Nat) : Patch α :=
  { T with seqs := fun q c => if q = s then { T.seqs q c with alive := false } else T.seqs q c }

theorem kill_on (T : Patch α) (w : World α) (s : Nat) : Notify.kill (T.on w) s = (T.kill s).on w := by
  simp only [Notify.kill, Patch.on, Patch.kill, World.mk.injEq, and_true]
  apply List.ext_getElem?
  intro i
  simp only [List.getElem?_modify, List.getElem?_mapIdx]
  by_cases hi : i = s
  · subst hi
    cases w.seqs[i]? <;> simp
  · have hi' : ¬ s = i := fun h => hi h.symm
    cases w.seqs[i]? <;> simp [hi, hi']

theorem Patch.Above.kill {R : Nat} {T : Patch α} (hT : T.Above rank srank R) {s : Nat} (hs : R ≤ srank s) :
    (T.kill s).Above rank srank R := by
  refine ⟨hT.colls, hT.exps, fun q c hq => ?_⟩
  have : q ≠ s := by rintro rfl; omega
  simp [Patch.kill, this, hT.seqs q c hq]

/-- The error that a sequence reports. -/
def errorOf (s : Nat) : Option (Nat × Nat) → List Event
  | some (k, n) => [.sequenceError s k n]
  | none => []

/-- Releasing sequences one after the other, in a patched world. -/
def fate (w : World α) (T : Patch α) : List Nat → M (Patch α × List Event)
  | [] => .ok (T, [])
  | s :: rest =>
    if (T.on w).owned s then fate w T rest
    else
      match (T.on w).seqs.deref s with
      | .error x => .error x
      | .ok q =>
        match q.destruct with
        | .error x => .error x
        | .ok err =>
          match fate w (T.kill s) rest with
          | .error x => .error x
          | .ok (T', ev) => .ok (T', errorOf s err ++ .sequenceDestroyed s :: ev)

/-- The end of sequences says nothing about expectations. -/
theorem fate_quiet {w : World α} {T T' : Patch α} {l : List Nat} {ev : List Event} (h : fate w T l = .ok (T', ev)) {e : Nat} :
    Event.unfulfilled e ∉ ev := by
  induction l generalizing T T' ev with
  | nil =>
    simp only [fate, Except.ok.injEq, Prod.mk.injEq] at h
    rw [← h.2]
    simp
  | cons s l ih =>
    simp only [fate] at h
    split at h
    · exact ih h
    · split at h
      · simp at h
      · split at h
        · simp at h
        · split at h
          · simp at h
          · rename_i err _ _ _ _ hf
            simp only [Except.ok.injEq, Prod.mk.injEq] at h
            rw [← h.2]
            cases err with
            | none => simp [errorOf, ih hf]
            | some kn => simp [errorOf, ih hf]

theorem releaseAll_fate (w : World α) (T : Patch α) (l : List Nat) : (T.on w).releaseAll l =
    (match fate w T l with
     | .error x => .error x
     | .ok (T', ev) => .ok (T'.on w, ev)) := by
  induction l generalizing T with
  | nil => rfl
  | cons s l ih =>
    simp only [World.releaseAll, World.release, fate, bind, Except.bind, pure, Except.pure]
    by_cases ho : (T.on w).owned s = true
    · rw [if_pos ho, if_pos ho]
      simp only [ih]
      cases fate w T l <;> simp
    · rw [if_neg ho, if_neg ho]
      cases (T.on w).seqs.deref s with
      | error x => rfl
      | ok q =>
        simp only
        cases q.destruct with
        | error x => rfl
        | ok err =>
          have hk := kill_on T w s
          unfold Notify.kill at hk
          cases err with
          | none =>
            simp only [hk, ih, errorOf]
            cases fate w (T.kill s) l <;> simp
          | some kn =>
            obtain ⟨k, n⟩ := kn
            simp only [hk, ih, errorOf]
            cases fate w (T.kill s) l <;> simp

theorem owned_iff (T : Patch α) (w : World α) (s : Nat) : (T.on w).owned s = true ↔
    (∃ c, w.seqs[s]? = some c ∧ (T.seqs s c).handle = true) ∨
    ∃ e x, w.exps[e]? = some x ∧ (T.exps e x).alive = true ∧ (T.exps e x).holds s = true := by
  simp only [World.owned, Patch.on, Bool.or_eq_true, List.getElem?_mapIdx, List.any_eq_true, List.mem_mapIdx, Bool.and_eq_true]
  constructor
  · rintro (h | ⟨y, ⟨i, hi, rfl⟩, h1, h2⟩)
    · cases hc : w.seqs[s]? with
      | none => simp [hc] at h
      | some c => exact .inl ⟨c, rfl, by simpa [hc] using h⟩
    · exact .inr ⟨i, _, List.getElem?_eq_getElem hi, h1, h2⟩
  · rintro (⟨c, hc, h⟩ | ⟨e, x, hx, h1, h2⟩)
    · left
      simp [hc, h]
    · obtain ⟨hi, rfl⟩ := List.getElem?_eq_some_iff.mp hx
      exact .inr ⟨_, ⟨e, hi, rfl⟩, h1, h2⟩

theorem owned_kept {R : Nat} {T : Patch α} (hT : T.Above rank srank R) {w w' : World α} (h : Kept rank srank R w w') {s : Nat}
    (hs : R ≤ srank s) : (T.on w').owned s = (T.on w).owned s := by
  have key : ∀ {v v' : World α}, (∀ (e : Nat) (x : Exp α), v.exps[e]? = some x → ∀ en ∈ x.control.entries, srank en.1 = rank x.coll) →
      (∀ (e : Nat) (x : Exp α), v.exps[e]? = some x → R ≤ rank x.coll → v'.exps[e]? = some x) → v'.seqs[s]? = v.seqs[s]? →
      (T.on v).owned s = true → (T.on v').owned s = true := by
    intro v v' h1 h2 h3 ho
    rw [owned_iff] at ho ⊢
    rw [h3]
    rcases ho with ho | ⟨e, x, hx, ha, hh⟩
    · exact .inl ho
    · refine .inr ⟨e, x, h2 e x hx ?_, ha, hh⟩
      refine Classical.byContradiction fun hlt => ?_
      rw [hT.exps e x (by omega)] at hh
      simp only [Exp.holds, List.any_eq_true, beq_iff_eq] at hh
      obtain ⟨en, hen, rfl⟩ := hh
      have := h1 e x hx en hen
      omega
  have a1 := key h.low h.frame.exps (h.frame.seqs s hs)
  have a2 := key h.low' h.back (h.frame.seqs s hs).symm
  cases h1 : (T.on w).owned s with
  | true => exact a1 h1
  | false =>
    cases h2 : (T.on w').owned s with
    | false => rfl
    | true => rw [a2 h2] at h1; exact h1

theorem deref_kept {R : Nat} (T : Patch α) {w w' : World α} (h : Kept rank srank R w w') {s : Nat} (hs : R ≤ srank s) :
    (T.on w').seqs.deref s = (T.on w).seqs.deref s := by
  simp only [Seqs.deref, Patch.on, List.getElem?_mapIdx, h.frame.seqs s hs]

theorem fate_kept {R : Nat} {T : Patch α} (hT : T.Above rank srank R) {w w' : World α} (h : Kept rank srank R w w') {l : List Nat}
    (hl : ∀ s ∈ l, R ≤ srank s) : fate w' T l = fate w T l := by
  induction l generalizing T with
  | nil => rfl
  | cons s l ih =>
    have hs := hl s (by simp)
    have hr := fun s' hs' => hl s' (List.mem_cons_of_mem _ hs')
    simp only [fate, owned_kept hT h hs, deref_kept T h hs, ih hT hr, ih (hT.kill hs) hr]

/-- Reports about the ends of sequences. -/
def Hooks.ofEnd (hooks : Hooks α) (g : Event → Show α) : Prop :=
  ∀ s k n, g (.sequenceError s k n) = hooks (.sequence s) (.sequenceError s k n)

/-- Releasing sequences with a reporter that calls mocks. -/
theorem releaseAll_ok (hl : Layered rank srank hooks) {R : Nat} {T T' : Patch α} (hT : T.Above rank srank R) (N fuel : Nat) {l : List Nat}
    (hs : ∀ s ∈ l, srank s = R) {tr : Trace α} {w : World α} (h : Display.Good rank srank tr w) {ev : List Event}
    (hf : fate w T l = .ok (T', ev)) {g : Event → Show α} (hg : hooks.ofEnd g) :
    (∀ x, releaseAll hooks fuel (T.on w) l = .error x → (∃ why, x = .client why) ∧
      ¬ (Closed rank hooks N ∧ w.colls.length = N ∧ R ≤ fuel)) ∧
    ∀ v new ev', releaseAll hooks fuel (T.on w) l = .ok (v, new, ev') →
      ev' = ev ∧ Told hooks ((ev.filter isReport).map g) new ∧ OnlyCalls new ∧
      ∃ w', v = T'.on w' ∧ Display.Good rank srank (tr ++ new) w' ∧ Kept rank srank R w w' := by
  induction l generalizing T tr w ev with
  | nil =>
    refine ⟨by simp [releaseAll], fun v new ev' hk => ?_⟩
    simp only [releaseAll, Except.ok.injEq, Prod.mk.injEq] at hk
    obtain ⟨rfl, rfl, rfl⟩ := hk
    simp only [fate, Except.ok.injEq, Prod.mk.injEq] at hf
    obtain ⟨rfl, rfl⟩ := hf
    exact ⟨rfl, .nil, by simp [OnlyCalls], w, rfl, by simpa using h, .refl h⟩
  | cons s l ih =>
    have hsR := hs s (by simp)
    have hr : ∀ s' ∈ l, srank s' = R := fun s' hs' => hs s' (List.mem_cons_of_mem _ hs')
    simp only [fate] at hf
    simp only [releaseAll, release]
    by_cases ho : (T.on w).owned s = true
    · rw [if_pos ho] at hf
      rw [if_pos ho]
      obtain ⟨k1, k2⟩ := ih hT hr h hf
      simp only
      cases hk : releaseAll hooks fuel (T.on w) l with
      | error x =>
        refine ⟨fun y hy => ?_, by simp⟩
        simp only [Except.error.injEq] at hy
        exact hy ▸ k1 x hk
      | ok u =>
        obtain ⟨v, new, ev'⟩ := u
        refine ⟨by simp, fun v' new' ev'' he => ?_⟩
        simp only [List.nil_append, Except.ok.injEq, Prod.mk.injEq] at he
        obtain ⟨rfl, rfl, rfl⟩ := he
        exact k2 v new ev' hk
    · rw [if_neg ho] at hf
      rw [if_neg ho]
      cases hd : (T.on w).seqs.deref s with
      | error x => simp [hd] at hf
      | ok q =>
        simp only [hd] at hf
        simp only
        cases hq : q.destruct with
        | error x => simp [hq] at hf
        | ok err =>
          simp only [hq] at hf
          cases hf' : fate w (T.kill s) l with
          | error x => simp [hf'] at hf
          | ok u =>
            obtain ⟨T₂, ev₂⟩ := u
            simp only [hf', Except.ok.injEq, Prod.mk.injEq] at hf
            obtain ⟨rfl, rfl⟩ := hf
            have hTk := hT.kill (s := s) (by omega)
            cases err with
            | none =>
              simp only [kill_on]
              obtain ⟨k1, k2⟩ := ih hTk hr h hf'
              cases hk : releaseAll hooks fuel ((T.kill s).on w) l with
              | error x =>
                refine ⟨fun y hy => ?_, by simp⟩
                simp only [Except.error.injEq] at hy
                exact hy ▸ k1 x hk
              | ok u =>
                obtain ⟨v, new, ev'⟩ := u
                refine ⟨by simp, fun v' new' ev'' he => ?_⟩
                simp only [List.nil_append, Except.ok.injEq, Prod.mk.injEq] at he
                obtain ⟨rfl, rfl, rfl⟩ := he
                obtain ⟨rfl, h2⟩ := k2 v new ev' hk
                exact ⟨rfl, by simpa [errorOf, isReport] using h2⟩
            | some kn =>
              obtain ⟨k, n⟩ := kn
              have hp : (hooks (.sequence s) (.sequenceError s k n)).Below rank R := hsR ▸ hl.report (.sequence s) (.sequenceError s k n)
              have o := call_ok (srank := srank) hl N fuel [] R (by simp)
              have hb := call_patch hT hl fuel [] (by simp)
              obtain ⟨s1, s2⟩ := print_ok o hp h
              simp only [print_patch hb o hp h]
              cases hpr : Display.print (call hooks fuel []) w (hooks (.sequence s) (.sequenceError s k n)) with
              | error x =>
                refine ⟨fun y hy => ?_, by simp [Patch.res]⟩
                simp only [Patch.res, Except.error.injEq] at hy
                subst hy
                exact ⟨(s1 x hpr).1, fun c => (s1 x hpr).2 ⟨c.1, c.2.1, c.1.report _ _, c.2.2⟩⟩
              | ok u =>
                obtain ⟨w₁, t₁⟩ := u
                obtain ⟨g1, g2, g3, g4⟩ := s2 w₁ t₁ hpr
                have hkept := kept h g1 g4 g2
                simp only [Patch.res, kill_on]
                obtain ⟨k1, k2⟩ := ih hTk hr g1 (by rw [fate_kept hTk hkept (fun s' hs' => by rw [hr s' hs']; exact Nat.le_refl _)]; exact hf')
                cases hk : releaseAll hooks fuel ((T.kill s).on w₁) l with
                | error x =>
                  refine ⟨fun y hy => ?_, by simp⟩
                  simp only [Except.error.injEq] at hy
                  subst hy
                  refine ⟨(k1 x hk).1, fun c => (k1 x hk).2 ⟨c.1, ?_, c.2.2⟩⟩
                  rw [g2.colls]
                  exact c.2.1
                | ok u =>
                  obtain ⟨v, new, ev'⟩ := u
                  refine ⟨by simp, fun v' new' ev'' he => ?_⟩
                  simp only [Except.ok.injEq, Prod.mk.injEq] at he
                  obtain ⟨rfl, rfl, rfl⟩ := he
                  obtain ⟨rfl, h2, h3, w', h4, h5, h6⟩ := k2 v new ev' hk
                  refine ⟨by simp [errorOf], ?_, g4.append h3, w', h4, by rw [← List.append_assoc]; exact h5, hkept.trans h6⟩
                  have : (errorOf s (some (k, n)) ++ Event.sequenceDestroyed s :: ev').filter isReport =
                      Event.sequenceError s k n :: ev'.filter isReport := rfl
                  rw [this, List.map_cons, hg s k n]
                  exact .cons g3 h2

/-! ## Whole operations -/

/-- The end of expectation `e` of mock `m`. -/
def withdrawn (m e : Nat) : Patch α :=
  { colls := fun k l => if k = m then l.erase e else l
    exps := fun i x => if i = e ∧ x.coll = m then { x with alive := false } else x
    seqs := fun _ c => c }

theorem withdrawn_above (m e : Nat) : (withdrawn m e : Patch α).Above rank srank (rank m) := by
  refine ⟨fun k l hk => ?_, fun i x hx => ?_, fun q c _ => rfl⟩
  · have : k ≠ m := by rintro rfl; omega
    simp [withdrawn, this]
  · have : x.coll ≠ m := by intro h; rw [h] at hx; omega
    simp [withdrawn, this]

theorem withdrawn_on {w : World α} {e : Nat} {x : Exp α} {es : List Nat} (hx : w.exps[e]? = some x) (hes : w.colls[x.coll]? = some es) :
    { w with colls := w.colls.set x.coll (es.erase e), exps := w.exps.set e { x with alive := false } } = (withdrawn x.coll e).on w := by
  simp only [Patch.on, withdrawn, World.mk.injEq]
  refine ⟨?_, ?_, ?_⟩
  · apply List.ext_getElem?
    intro i
    simp
  · apply List.ext_getElem?
    intro i
    simp only [List.getElem?_set, List.getElem?_mapIdx]
    by_cases hi : e = i
    · subst hi
      rw [if_pos rfl, if_pos (getElem?_lt hx), hx]
      simp
    · have hi' : ¬ i = e := fun h => hi h.symm
      simp [hi, hi']
  · apply List.ext_getElem?
    intro i
    simp only [List.getElem?_set, List.getElem?_mapIdx]
    by_cases hi : x.coll = i
    · subst hi
      rw [if_pos rfl, if_pos (getElem?_lt hes), hes]
      simp
    · have hi' : ¬ i = x.coll := fun h => hi h.symm
      simp [hi, hi']

theorem destroy_parts {w w' : World α} {e : Nat} {x : Exp α} (hx : w.exps[e]? = some x) (ha : x.alive = true) {ev : List Event}
    (h : w.destroyExp e = .ok (w', ev)) : ∃ es T ev', w.colls[x.coll]? = some es ∧ es.contains e = true ∧
      fate w (withdrawn x.coll e) (x.control.entries.map (·.1)) = .ok (T, ev') := by
  simp only [World.destroyExp, hx, ha, bind, Except.bind] at h
  cases hes : w.colls[x.coll]? with
  | none => simp [hes] at h
  | some es =>
    simp only [hes] at h
    cases hc : es.contains e with
    | false => simp only [hc, check] at h; simp at h
    | true =>
      simp only [hc, check, if_true, Bool.not_true, Bool.false_eq_true, if_false] at h
      have hw := withdrawn_on hx hes
      rw [hw, releaseAll_fate] at h
      cases hf : fate w (withdrawn x.coll e) (x.control.entries.map (·.1)) with
      | error y => simp [hf] at h
      | ok u => exact ⟨es, u.1, u.2, rfl, hc, rfl⟩

theorem destroy_eq {w : World α} {e : Nat} {x : Exp α} {es : List Nat} {T : Patch α} {ev : List Event} (hx : w.exps[e]? = some x)
    (ha : x.alive = true) (hes : w.colls[x.coll]? = some es) (hc : es.contains e = true)
    (hf : fate w (withdrawn x.coll e) (x.control.entries.map (·.1)) = .ok (T, ev)) :
    w.step (.destroy e) = .ok (T.on w, .destroyed e :: (if x.isSatisfied then [] else [.unfulfilled e]) ++ ev) := by
  have hw := withdrawn_on hx hes
  simp only [World.step, World.destroyExp, hx, ha, hes, hc, check, bind, Except.bind, pure, Except.pure, if_true, Bool.not_true,
    Bool.false_eq_true, if_false, hw, releaseAll_fate, hf]

/-- The end of an expectation with a reporter that calls mocks. -/
theorem destroy_ok (hl : Layered rank srank hooks) (N fuel : Nat) {tr : Trace α} {w : World α} (h : Display.Good rank srank tr w)
    (e : Nat) :
    (∀ x, destroy hooks fuel w e = .error x → (∃ why, x = .client why) ∧
      ¬ (Closed rank hooks N ∧ w.colls.length = N ∧ ∃ x, w.exps[e]? = some x ∧ x.alive = true ∧ rank x.coll ≤ fuel)) ∧
    ∀ v new, destroy hooks fuel w e = .ok (v, new) → Display.Good rank srank (tr ++ new) v ∧
      ∃ calls ev d, tr.decl e = some d ∧ new = calls ++ [(.destroy e, ev)] ∧ OnlyCalls calls ∧
        Reacts hooks (fun _ => d.mock) (.destroy e) ev calls := by
  unfold destroy
  cases hx : w.exps[e]? with
  | none =>
    refine ⟨fun y hy => ?_, by simp⟩
    simp only [Except.error.injEq] at hy
    exact ⟨⟨_, hy.symm⟩, by simp⟩
  | some x =>
    simp only
    cases ha : x.alive with
    | false =>
      refine ⟨fun y hy => ?_, by simp⟩
      simp only [Bool.not_false, if_true, Except.error.injEq] at hy
      exact ⟨⟨_, hy.symm⟩, by simp [ha]⟩
    | true =>
      simp only [Bool.not_true, Bool.false_eq_true, if_false]
      obtain ⟨w₀, hw₀, -, -⟩ := h.reach.view.1.destroy hx ha
      obtain ⟨es, T, ev, hes, hc, hf⟩ := destroy_parts hx ha hw₀
      obtain ⟨d, hd, hxd⟩ := h.reach.view.2.get (abs_mem hx)
      have hde : tr.decl e = some d := hd
      have hxm : x.coll = d.mock := congrArg Spec.Exp.mock hxd
      have habove := withdrawn_above (α := α) (rank := rank) (srank := srank) x.coll e
      have hseq : ∀ s ∈ x.control.entries.map (·.1), srank s = rank x.coll := by
        intro s hs
        obtain ⟨en, hen, rfl⟩ := List.mem_map.mp hs
        exact h.entries hx en hen
      have hseq' : ∀ s ∈ x.control.entries.map (·.1), rank x.coll ≤ srank s := fun s hs => by rw [hseq s hs]; exact Nat.le_refl _
      -- what `remove` does
      have hrem : (∀ y, remove hooks fuel w e x = .error y → (∃ why, y = .client why) ∧
            ¬ (Closed rank hooks N ∧ w.colls.length = N ∧ rank x.coll ≤ fuel)) ∧
          ∀ v new ev', remove hooks fuel w e x = .ok (v, new, ev') → ev' = (if x.isSatisfied then [] else [.unfulfilled e]) ∧
            Told hooks (ev'.map (hooks (.expectation x.coll))) new ∧ OnlyCalls new ∧
            ∃ w', v = (withdrawn x.coll e).on w' ∧ Display.Good rank srank (tr ++ new) w' ∧ Kept rank srank (rank x.coll) w w' := by
        simp only [remove, hes, hc, if_true, withdrawn_on hx hes]
        cases hsat : x.isSatisfied with
        | true =>
          refine ⟨by simp, fun v new ev' hk => ?_⟩
          simp only [if_true, Except.ok.injEq, Prod.mk.injEq] at hk
          obtain ⟨rfl, rfl, rfl⟩ := hk
          exact ⟨rfl, .nil, by simp [OnlyCalls], w, rfl, by simpa using h, .refl h⟩
        | false =>
          have hp := hl.report (.expectation x.coll) (.unfulfilled e)
          have o := call_ok (srank := srank) hl N fuel [x.coll] (rank x.coll) (by simp)
          have hb := call_patch habove hl fuel [x.coll] (by simp)
          obtain ⟨s1, s2⟩ := print_ok o hp h
          simp only [Bool.false_eq_true, if_false, print_patch hb o hp h]
          cases hpr : Display.print (call hooks fuel [x.coll]) w (hooks (.expectation x.coll) (.unfulfilled e)) with
          | error y =>
            refine ⟨fun z hz => ?_, by simp [Patch.res]⟩
            simp only [Patch.res, Except.error.injEq] at hz
            subst hz
            exact ⟨(s1 y hpr).1, fun c => (s1 y hpr).2 ⟨c.1, c.2.1, c.1.report _ _, c.2.2⟩⟩
          | ok u =>
            obtain ⟨w₁, t₁⟩ := u
            obtain ⟨g1, g2, g3, g4⟩ := s2 w₁ t₁ hpr
            refine ⟨by simp [Patch.res], fun v new ev' hk => ?_⟩
            simp only [Patch.res, Except.ok.injEq, Prod.mk.injEq] at hk
            obtain ⟨rfl, rfl, rfl⟩ := hk
            exact ⟨rfl, told_one g3, g4, w₁, rfl, g1, kept h g1 g4 g2⟩
      obtain ⟨m1, m2⟩ := hrem
      cases hr : remove hooks fuel w e x with
      | error y =>
        refine ⟨fun z hz => ?_, by simp⟩
        simp only [Except.error.injEq] at hz
        subst hz
        refine ⟨(m1 y hr).1, ?_⟩
        rintro ⟨c1, c2, x', hx', _, c3⟩
        simp only [Option.some.injEq] at hx'
        subst hx'
        exact (m1 y hr).2 ⟨c1, c2, c3⟩
      | ok u =>
        obtain ⟨v₁, t₁, ev₁⟩ := u
        obtain ⟨e1, e2, e3, w₁, rfl, g1, k1⟩ := m2 v₁ t₁ ev₁ hr
        simp only
        have hf₁ : fate w₁ (withdrawn x.coll e) (x.control.entries.map (·.1)) = .ok (T, ev) := by
          rw [fate_kept habove k1 hseq']
          exact hf
        obtain ⟨q1, q2⟩ := releaseAll_ok hl habove N fuel hseq g1 hf₁ (g := fun y => hooks (about (fun _ => d.mock) (.destroy e) y) y)
          (fun s k n => rfl)
        cases hk : releaseAll hooks fuel ((withdrawn x.coll e).on w₁) (x.control.entries.map (·.1)) with
        | error y =>
          refine ⟨fun z hz => ?_, by simp⟩
          simp only [Except.error.injEq] at hz
          subst hz
          refine ⟨(q1 y hk).1, ?_⟩
          rintro ⟨c1, c2, x', hx', _, c3⟩
          simp only [Option.some.injEq] at hx'
          subst hx'
          exact (q1 y hk).2 ⟨c1, by rw [k1.frame.colls]; exact c2, c3⟩
        | ok u =>
          obtain ⟨v₂, t₂, ev₂⟩ := u
          obtain ⟨rfl, p2, p3, w₂, rfl, g2, k2⟩ := q2 v₂ t₂ ev₂ hk
          refine ⟨by simp, fun v new he => ?_⟩
          simp only [Except.ok.injEq, Prod.mk.injEq] at he
          obtain ⟨rfl, rfl⟩ := he
          have k := k1.trans k2
          have hf₂ : fate w₂ (withdrawn x.coll e) (x.control.entries.map (·.1)) = .ok (T, ev₂) := by
            rw [fate_kept habove k hseq']
            exact hf
          have hstep := destroy_eq (k.frame.exps e x hx (Nat.le_refl _)) ha (by rw [k.frame.colls]; exact hes) hc hf₂
          refine ⟨?_, t₁ ++ t₂, .destroyed e :: ev₁ ++ ev₂, d, hde, rfl, e3.append p3, ?_⟩
          · have := g2.other hstep (by simp)
            rw [e1]
            simp only [List.append_assoc] at this ⊢
            exact this
          · unfold Reacts
            have : (Event.destroyed e :: ev₁ ++ ev₂).filter isReport = ev₁ ++ ev₂.filter isReport := by
              rw [e1]
              cases x.isSatisfied <;> rfl
            rw [this, List.map_append]
            refine told_append ?_ p2
            have h5 : ev₁.map (fun y => hooks (about (fun _ => d.mock) (.destroy e) y) y) = ev₁.map (hooks (.expectation x.coll)) := by
              rw [e1, hxm]
              cases x.isSatisfied <;> rfl
            rw [h5]
            exact e2

/-- The end of the client's sequence object `s`. -/
def dropped (s : Nat) : Patch α :=
  { colls := fun _ l => l
    exps := fun _ x => x
    seqs := fun q c => if q = s then { c with handle := false } else c }

theorem dropped_above (s : Nat) : (dropped s : Patch α).Above rank srank (srank s) := by
  refine ⟨fun k l hk => rfl, fun i x hx => rfl, fun q c hq => ?_⟩
  have : q ≠ s := by rintro rfl; omega
  simp [dropped, this]

theorem dropped_on (w : World α) (s : Nat) :
    { w with seqs := w.seqs.modify s (fun c => { c with handle := false }) } = (dropped s).on w := by
  simp only [Patch.on, dropped, World.mk.injEq]
  refine ⟨?_, ?_, ?_⟩
  · apply List.ext_getElem?
    intro i
    simp only [List.getElem?_modify, List.getElem?_mapIdx]
    by_cases hi : s = i
    · subst hi
      cases w.seqs[s]? <;> simp
    · have hi' : ¬ i = s := fun h => hi h.symm
      cases w.seqs[i]? <;> simp [hi, hi']
  · apply List.ext_getElem?
    intro i
    simp
  · apply List.ext_getElem?
    intro i
    simp

/-- Releasing one sequence is releasing a list of one. -/
theorem release_one (fuel : Nat) (w : World α) (s : Nat) : releaseAll hooks fuel w [s] = release hooks fuel w s := by
  simp only [releaseAll]
  cases release hooks fuel w s with
  | error x => rfl
  | ok u => simp

theorem world_release_one (w : World α) (s : Nat) : w.releaseAll [s] = w.release s := by
  simp only [World.releaseAll, bind, Except.bind, pure, Except.pure]
  cases w.release s with
  | error x => rfl
  | ok u => simp

/-- The end of a sequence object with a reporter that calls mocks. -/
theorem drop_ok (hl : Layered rank srank hooks) (N fuel : Nat) {tr : Trace α} {w : World α} (h : Display.Good rank srank tr w)
    (s : Nat) :
    (∀ x, drop hooks fuel w s = .error x → (∃ why, x = .client why) ∧
      ¬ (Closed rank hooks N ∧ w.colls.length = N ∧ w.hasHandle s = true ∧ srank s ≤ fuel)) ∧
    ∀ v new, drop hooks fuel w s = .ok (v, new) → Display.Good rank srank (tr ++ new) v ∧
      ∃ calls ev, new = calls ++ [(.dropSequence s, ev)] ∧ OnlyCalls calls ∧
        ∀ mockOf, Reacts hooks mockOf (.dropSequence s) ev calls := by
  unfold drop
  cases hh : w.hasHandle s with
  | false =>
    refine ⟨fun y hy => ?_, by simp⟩
    simp only [Bool.false_eq_true, if_false, Except.error.injEq] at hy
    exact ⟨⟨_, hy.symm⟩, by simp⟩
  | true =>
    simp only [if_true]
    obtain ⟨w₀, hw₀, -, -⟩ := h.reach.view.1.drop hh
    simp only [World.step, hh, if_true, dropped_on, ← world_release_one, releaseAll_fate] at hw₀
    cases hf : fate w (dropped s) [s] with
    | error y => simp [hf] at hw₀
    | ok u =>
      obtain ⟨T, ev⟩ := u
      have habove := dropped_above (α := α) (rank := rank) (srank := srank) s
      rw [dropped_on, ← release_one]
      obtain ⟨q1, q2⟩ := releaseAll_ok hl habove N fuel (l := [s]) (by simp) h hf
        (g := fun y => hooks (about (fun _ => 0) (.dropSequence s) y) y) (fun s k n => rfl)
      cases hk : releaseAll hooks fuel ((dropped s).on w) [s] with
      | error y =>
        refine ⟨fun z hz => ?_, by simp⟩
        simp only [Except.error.injEq] at hz
        subst hz
        exact ⟨(q1 y hk).1, fun c => (q1 y hk).2 ⟨c.1, c.2.1, c.2.2.2⟩⟩
      | ok u =>
        obtain ⟨v₂, t₂, ev₂⟩ := u
        obtain ⟨rfl, p2, p3, w₂, rfl, g2, k2⟩ := q2 v₂ t₂ ev₂ hk
        refine ⟨by simp, fun v new he => ?_⟩
        simp only [Except.ok.injEq, Prod.mk.injEq] at he
        obtain ⟨rfl, rfl⟩ := he
        have hstep : w₂.step (.dropSequence s) = .ok (T.on w₂, ev₂) := by
          have h1 : w₂.hasHandle s = true := by
            rw [← hh]
            simp only [World.hasHandle, k2.frame.seqs s (Nat.le_refl _)]
          simp only [World.step, h1, if_true, dropped_on, ← world_release_one, releaseAll_fate]
          rw [fate_kept habove k2 (by simp), hf]
        refine ⟨?_, t₂, ev₂, rfl, p3, fun mockOf => ?_⟩
        · have := g2.other hstep (by simp)
          simp only [List.append_assoc] at this ⊢
          exact this
        · unfold Reacts
          have : (fun y => hooks (about mockOf (.dropSequence s) y) y) = fun y => hooks (about (fun _ => 0) (.dropSequence s) y) y := by
            funext y
            cases y <;> rfl
          rw [this]
          exact p2

end Mimic.Notify
