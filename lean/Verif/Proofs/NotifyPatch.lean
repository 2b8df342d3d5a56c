import Verif.Proofs.Notify
import Verif.Proofs.Reports

/-!
# Lemmas about reporters that call mocks: calls do not see changes in higher layers
-/

set_option autoImplicit false

namespace Mimic.Notify

open Mimic.Display (Show Rec tooDeep Frame)

variable {α : Type} {rank srank : Nat → Nat} {hooks : Hooks α}

/-- A change of a world. -/
structure Patch (α : Type) where
  colls : Nat → List Nat → List Nat
  exps : Nat → Exp α → Exp α
  seqs : Nat → SeqCell → SeqCell

def Patch.on (T : Patch α) (w : World α) : World α :=
  { colls := w.colls.mapIdx T.colls, exps := w.exps.mapIdx T.exps, seqs := w.seqs.mapIdx T.seqs }

/-- Only what is in layer `R` or above is changed. -/
structure Patch.Above (rank srank : Nat → Nat) (R : Nat) (T : Patch α) : Prop where
  colls : ∀ k l, rank k < R → T.colls k l = l
  exps : ∀ e x, rank x.coll < R → T.exps e x = x
  seqs : ∀ q c, srank q < R → T.seqs q c = c

/-- A result with another world. -/
def Patch.res {β : Type} (T : Patch α) : M (World α × β) → M (World α × β)
  | .error x => .error x
  | .ok (w, b) => .ok (T.on w, b)

/-! ## Sequences -/

theorem apply_patch {g : Nat → SeqCell → SeqCell} {s : Nat} (hg : ∀ c, g s c = c) (h : Seqs) (f : Sequence → M Sequence) :
    Seqs.apply (h.mapIdx g) s f = (Seqs.apply h s f).map (·.mapIdx g) := by
  have hd : Seqs.deref (h.mapIdx g) s = Seqs.deref h s := by
    simp only [Seqs.deref, List.getElem?_mapIdx]
    cases h[s]? <;> simp [hg]
  simp only [Seqs.apply, hd, bind, Except.bind, pure, Except.pure]
  cases Seqs.deref h s with
  | error x => rfl
  | ok q =>
    simp only
    cases f q with
    | error x => rfl
    | ok q' =>
      simp only [Except.map, Except.ok.injEq, Seqs.store]
      apply List.ext_getElem?
      intro i
      simp only [List.getElem?_modify, List.getElem?_mapIdx]
      by_cases hi : s = i
      · subst hi
        cases h[s]? <;> simp [hg]
      · cases h[i]? <;> simp [hi]

theorem forEntries_patch {g : Nat → SeqCell → SeqCell} (f : Sequence → Int → M Sequence) {l : List (Nat × Int)}
    (hg : ∀ en ∈ l, ∀ c, g en.1 c = c) (h : Seqs) : forEntries f l (h.mapIdx g) = (forEntries f l h).map (·.mapIdx g) := by
  induction l generalizing h with
  | nil => rfl
  | cons en l ih =>
    obtain ⟨s, i⟩ := en
    simp only [forEntries, apply_patch (hg (s, i) (by simp)), bind, Except.bind]
    cases Seqs.apply h s (fun q => f q i) with
    | error x => rfl
    | ok h' => exact ih (fun en hen => hg en (by simp [hen])) h'

theorem allConsumable_patch {g : Nat → SeqCell → SeqCell} {l : List (Nat × Int)} (hg : ∀ en ∈ l, ∀ c, g en.1 c = c) (h : Seqs) :
    allConsumable (h.mapIdx g) l = allConsumable h l := by
  induction l with
  | nil => rfl
  | cons en l ih =>
    obtain ⟨s, i⟩ := en
    have hd : Seqs.deref (h.mapIdx g) s = Seqs.deref h s := by
      simp only [Seqs.deref, List.getElem?_mapIdx]
      cases h[s]? <;> simp [hg (s, i) (by simp)]
    simp only [allConsumable, hd, ih (fun en hen => hg en (by simp [hen]))]

theorem control_patch {g : Nat → SeqCell → SeqCell} {c : Control} (hg : ∀ en ∈ c.entries, ∀ x, g en.1 x = x) (h : Seqs) :
    c.consume (h.mapIdx g) = (c.consume h).map (fun r => (r.1.mapIdx g, r.2)) := by
  have h1 : c.isApplicable (h.mapIdx g) = c.isApplicable h := by
    simp only [Control.isApplicable, allConsumable_patch hg]
  simp only [Control.consume, h1, forEntries_patch _ hg, bind, Except.bind]
  cases c.isApplicable h with
  | error x => rfl
  | ok b =>
    simp only
    cases check b "ControlPolicy::consume: assert(is_applicable())" with
    | error x => rfl
    | ok u =>
      simp only
      cases forEntries Sequence.consume c.entries h with
      | error x => rfl
      | ok h' =>
        simp only [Except.map]
        cases toInt (c.count + 1) with
        | error x => rfl
        | ok n =>
          have h2 := fun f => forEntries_patch (g := g) f (l := c.entries) hg h'
          simp only [Control.updateSequenceStates]
          by_cases h3 : n = c.min
          · rw [if_pos h3, if_pos h3, h2]
            cases forEntries Sequence.setSatisfied c.entries h' <;> rfl
          · rw [if_neg h3, if_neg h3]
            by_cases h4 : n = c.max
            · rw [if_pos h4, if_pos h4, h2]
              cases forEntries Sequence.setSaturated c.entries h' <;> rfl
            · rw [if_neg h4, if_neg h4]
              rfl

/-! ## Worlds -/

theorem Patch.get {R : Nat} {T : Patch α} (hT : T.Above rank srank R) {w : World α} {e : Nat} {x : Exp α} (hx : w.exps[e]? = some x)
    (hr : rank x.coll < R) : (T.on w).exps[e]? = some x := by
  simp [Patch.on, List.getElem?_mapIdx, hx, hT.exps e x hr]

theorem consume_patch {R : Nat} {T : Patch α} (hT : T.Above rank srank R) {tr : Trace α} {w : World α} (h : Display.Good rank srank tr w)
    {e : Nat} {x : Exp α} (hx : w.exps[e]? = some x) (hr : rank x.coll < R) :
    (T.on w).consume e = (w.consume e).map T.on := by
  have he := h.entries hx
  simp only [World.consume, World.deref, Patch.get hT hx hr, hx, bind, Except.bind]
  by_cases ha : x.alive = true
  · simp only [ha, if_true]
    have hc := control_patch (g := T.seqs) (c := x.control) (fun en hen c => hT.seqs en.1 c (by rw [he en hen]; exact hr)) w.seqs
    have : (T.on w).seqs = w.seqs.mapIdx T.seqs := rfl
    rw [this, hc]
    cases x.control.consume w.seqs with
    | error y => rfl
    | ok v =>
      simp only [Except.map, pure, Except.pure, Except.ok.injEq, Patch.on, World.mk.injEq, true_and, List.mapIdx_set, and_true]
      rw [hT.exps e { x with control := v.2, alive := true } hr]
  · simp [ha, Except.map]

/-! ## Calls -/

/-- Calls below layer `R` give the same result in the patched world. -/
def Blind (rank srank : Nat → Nat) (R : Nat) (T : Patch α) (rec : Rec α) : Prop :=
  ∀ (tr : Trace α) (w : World α) (m : Nat) (a : α), Display.Good rank srank tr w → rank m < R → rec (T.on w) m a = T.res (rec w m a)

theorem print_patch {R F n : Nat} {T : Patch α} {rec : Rec α} (hb : Blind rank srank R T rec)
    (hrec : RecOk rank srank hooks R F n rec) {p : Show α} (hp : p.Below rank R) {tr : Trace α} {w : World α}
    (h : Display.Good rank srank tr w) : Display.print rec (T.on w) p = T.res (Display.print rec w p) := by
  induction p generalizing tr w with
  | done => rfl
  | call m a next ih =>
    cases hp with
    | call hm hn =>
      simp only [Display.print, hb tr w m a h hm]
      cases hr : rec w m a with
      | error x => rfl
      | ok v =>
        obtain ⟨w₁, t₁, r⟩ := v
        obtain ⟨g1, -⟩ := (hrec tr w m a h hm).2 _ _ _ hr
        simp only [Patch.res, ih r (hn r) g1]
        cases Display.print rec w₁ (next r) <;> rfl

theorem scan_patch {R m F n : Nat} {T : Patch α} (hT : T.Above rank srank R) (hm : rank m < R) {rec : Rec α}
    (hb : Blind rank srank (rank m) T rec) (hrec : RecOk rank srank hooks (rank m) F n rec) {p : Nat → Show α}
    (hp : ∀ e, (p e).Below rank (rank m)) {a : α} {es : List Nat} {tr : Trace α} {w : World α}
    (h : Display.Good rank srank tr w) (hes : ∀ e ∈ es, ∃ x, w.exps[e]? = some x ∧ x.alive = true ∧ x.coll = m) :
    scan rec p a (T.on w) es = T.res (scan rec p a w es) := by
  induction es generalizing tr w with
  | nil => rfl
  | cons e es ih =>
    obtain ⟨x, hx, hxa, hxm⟩ := hes e (by simp)
    have hr : rank x.coll < R := by rw [hxm]; exact hm
    have h1 : (T.on w).deref e = .ok x := by simp [World.deref, Patch.get hT hx hr, hxa]
    have h2 : w.deref e = .ok x := by simp [World.deref, hx, hxa]
    have h3 : x.matchReport e (T.on w).seqs a = x.matchReport e w.seqs a := by
      refine Display.matchReport_congr (fun en hen => ?_)
      simp only [Patch.on, List.getElem?_mapIdx]
      cases w.seqs[en.1]? with
      | none => rfl
      | some c => simp [hT.seqs en.1 c (by rw [h.entries hx en hen]; exact hr)]
    simp only [scan, h1, h2, h3]
    cases x.matchReport e w.seqs a with
    | error y => rfl
    | ok rep =>
      cases rep with
      | none =>
        simp only [print_patch hb hrec (hp e) h]
        cases hpr : Display.print rec w (p e) with
        | error y => rfl
        | ok v =>
          obtain ⟨w₁, t₁⟩ := v
          obtain ⟨g1, g2, -⟩ := (print_ok hrec (hp e) h).2 _ _ hpr
          simp only [Patch.res]
          rw [ih g1 (fun e' he' => by
            obtain ⟨x', q1, q2, q3⟩ := hes e' (by simp [he'])
            exact ⟨x', g2.exps e' x' q1 (by rw [q3]; exact Nat.le_refl _), q2, q3⟩)]
          cases scan rec p a w₁ es <;> rfl
      | some rep =>
        simp only
        rw [ih h (fun e' he' => hes e' (by simp [he']))]
        cases scan rec p a w es with
        | error y => rfl
        | ok v =>
          simp only [Patch.res]
          cases evaluateMatchReport rep <;> rfl

theorem commit_patch {R m : Nat} {T : Patch α} (hT : T.Above rank srank R) (hm : rank m < R) {tr : Trace α} {w : World α}
    (h : Display.Good rank srank tr w) {ev : Event} (hev : ∀ e, ev = .fullMatch e → ∃ x, w.exps[e]? = some x ∧ x.coll = m) :
    commit (T.on w) ev = T.res (commit w ev) := by
  cases ev with
  | fullMatch e =>
    obtain ⟨x, hx, hxm⟩ := hev e rfl
    simp only [commit, consume_patch hT h hx (by rw [hxm]; exact hm)]
    cases w.consume e <;> rfl
  | _ => rfl

theorem scan_full {w : World α} {a : α} {es : List Nat} {r : Scan} (h : Mimic.scan w a es = .ok r) : ∀ rep ∈ r.full, rep.exp ∈ es := by
  induction es generalizing r with
  | nil => simp only [Mimic.scan, Except.ok.injEq] at h; subst h; simp
  | cons e rest ih =>
    simp only [Mimic.scan, bind, Except.bind] at h
    cases hd : w.deref e with
    | error e => simp [hd] at h
    | ok x =>
      simp only [hd] at h
      cases hm : x.matchReport e w.seqs a with
      | error e => simp [hm] at h
      | ok rep =>
        simp only [hm] at h
        cases hr : Mimic.scan w a rest with
        | error e => simp [hr] at h
        | ok r' =>
          simp only [hr] at h
          have ih := ih hr
          cases rep with
          | none =>
            simp only [pure, Except.pure, Except.ok.injEq] at h
            subst h
            exact fun y hy => List.mem_cons_of_mem _ (ih y hy)
          | some rep =>
            have hg : rep.exp = e := by
              unfold Exp.matchReport at hm
              simp only [bind, Except.bind] at hm
              cases hst : x.control.state w.seqs with
              | error e => simp [hst] at hm
              | ok st =>
                simp only [hst] at hm
                cases hp : evalPolicies a x.policies with
                | none => simp [hp, pure, Except.pure] at hm
                | some res =>
                  simp only [hp, pure, Except.pure, Except.ok.injEq, Option.some.injEq] at hm
                  subst hm
                  rfl
            simp only [pure, Except.pure] at h
            split at h <;> simp only [Except.ok.injEq] at h <;> subst h
            · exact fun y hy => List.mem_cons_of_mem _ (ih y hy)
            · exact fun y hy => List.mem_cons_of_mem _ (ih y hy)
            · intro y hy
              rcases List.mem_cons.mp hy with rfl | hy
              · exact List.mem_cons.mpr (.inl hg)
              · exact List.mem_cons_of_mem _ (ih y hy)

/-- The chosen expectation belongs to the mock. -/
theorem concluded {w : World α} {m : Nat} {a : α} {es : List Nat}
    (hes : ∀ e ∈ es, ∃ x, w.exps[e]? = some x ∧ x.alive = true ∧ x.coll = m) {r : Scan} (hs : Mimic.scan w a es = .ok r) {e : Nat}
    (hc : conclude r = .ok (.fullMatch e)) : ∃ x, w.exps[e]? = some x ∧ x.alive = true ∧ x.coll = m := by
  unfold conclude at hc
  split at hc
  · split at hc
    · simp at hc
    · rename_i best hb
      simp only [Except.ok.injEq, Event.fullMatch.injEq] at hc
      exact hes e (hc ▸ scan_full hs _ (pickBest_mem hb))
  · split at hc <;> simp at hc

theorem below_mono {R R' : Nat} (hR : R ≤ R') {p : Show α} (h : p.Below rank R) : p.Below rank R' := by
  induction h with
  | done => exact .done
  | call hm _ ih => exact .call (Nat.lt_of_lt_of_le hm hR) ih

theorem call_patch {R : Nat} {T : Patch α} (hT : T.Above rank srank R) (hl : Layered rank srank hooks) (fuel : Nat) (held : List Nat)
    (hh : ∀ k ∈ held, R ≤ rank k) : Blind rank srank R T (call hooks fuel held : Rec α) := by
  suffices hgen : ∀ S, S ≤ R → ∀ held : List Nat, (∀ k ∈ held, S ≤ rank k) →
      ∀ (tr : Trace α) (w : World α) (m : Nat) (a : α), Display.Good rank srank tr w → rank m < S →
        call hooks fuel held (T.on w) m a = T.res (call hooks fuel held w m a) from
    hgen R (Nat.le_refl _) held hh
  clear hh held
  induction fuel with
  | zero => intro S _ held _ tr w m a _ _; rfl
  | succ fuel ih =>
    intro S hS held hh tr w m a h hm
    have hmR : rank m < R := Nat.lt_of_lt_of_le hm hS
    simp only [call, body]
    have hc : (T.on w).colls[m]? = w.colls[m]? := by
      simp only [Patch.on, List.getElem?_mapIdx]
      cases w.colls[m]? with
      | none => rfl
      | some l => simp [hT.colls m l hmR]
    rw [hc]
    cases hes : w.colls[m]? with
    | none => rfl
    | some es =>
      simp only
      by_cases hk : held.contains m = true
      · rw [if_pos hk, if_pos hk]
        rfl
      · rw [if_neg hk, if_neg hk]
        have b1 := ih (rank m) (Nat.le_of_lt hmR) (m :: held) (by
          intro k hk
          simp only [List.mem_cons] at hk
          rcases hk with rfl | hk
          · exact Nat.le_refl _
          · have := hh k hk; omega)
        have b2 := ih (rank m) (Nat.le_of_lt hmR) held (fun k hk => by have := hh k hk; omega)
        have o1 := call_ok (srank := srank) hl 0 fuel (m :: held) (rank m) (by
          intro k hk
          simp only [List.mem_cons] at hk
          rcases hk with rfl | hk
          · exact Nat.le_refl _
          · have := hh k hk; omega)
        have o2 := call_ok (srank := srank) hl 0 fuel held (rank m) (fun k hk => by have := hh k hk; omega)
        rw [scan_patch hT hmR b1 o1 (p := fun e => hooks (.call m a) (.unhandled e)) (fun e => hl.report (.call m a) (.unhandled e)) h
          (h.storage hes)]
        cases hsc : scan (call hooks fuel (m :: held)) (fun e => hooks (.call m a) (.unhandled e)) a w es.reverse with
        | error y => rfl
        | ok v =>
          obtain ⟨w₁, t₁, r⟩ := v
          obtain ⟨g1, g2, -, -, g5⟩ := (scan_ok o1 (p := fun e => hooks (.call m a) (.unhandled e))
            (fun e => hl.report (.call m a) (.unhandled e)) h (h.storage hes)).2 _ _ _ hsc
          simp only [Patch.res]
          cases hcl : conclude r with
          | error y => rfl
          | ok ev =>
            simp only
            rw [print_patch b2 o2 (hl.report (.call m a) ev) g1]
            cases hpr : Display.print (call hooks fuel held) w₁ (hooks (.call m a) ev) with
            | error y => rfl
            | ok v =>
              obtain ⟨w₂, t₂⟩ := v
              obtain ⟨q1, q2, -⟩ := (print_ok o2 (hl.report (.call m a) ev) g1).2 _ _ hpr
              simp only [Patch.res]
              rw [commit_patch hT hmR q1 (fun e he => by
                subst he
                obtain ⟨x, x1, x2, x3⟩ := concluded (h.storage hes) g5 hcl
                exact ⟨x, (g2.trans q2).exps e x x1 (by rw [x3]; exact Nat.le_refl _), x3⟩)]
              have hf := g2.trans q2
              have hm1 : w₂.colls[m]? = some es := by rw [hf.colls]; exact hes
              have p1 : Mimic.scan w₂ a es.reverse = .ok r := by rw [scan_frame h hf (h.storage hes)]; exact g5
              cases hcm : commit w₂ ev with
              | error y => rfl
              | ok u =>
                obtain ⟨w₃, res⟩ := u
                have hw : w₂.handleCall m a = .ok (w₃, r.thrown.map Event.unhandled ++ [ev], res) := by
                  simp only [handleCall_eq, hm1, p1, hcl, hcm]
                have b3 := ih (rank m + 1) hmR held (fun k hk => by have := hh k hk; omega)
                have o3 := call_ok (srank := srank) hl 0 fuel held (rank m + 1) (fun k hk => by have := hh k hk; omega)
                simp only [Patch.res]
                rw [print_patch b3 o3 (hl.effects m a res) (q1.call hw).1]
                cases Display.print (call hooks fuel held) w₃ (hooks.effects m a res) <;> rfl

end Mimic.Notify
