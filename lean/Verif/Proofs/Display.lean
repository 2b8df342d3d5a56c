import Verif.Spec.Display
import Verif.Proofs.Nested

/-!
# Lemmas about printers that call mocks
-/

set_option autoImplicit false

namespace Mimic.Display

variable {α : Type} {rank srank : Nat → Nat} {shows : Nat → α → Show α}

/-! ## What nested calls leave alone -/

/-- What is kept in layered programs. -/
structure Good (rank srank : Nat → Nat) (tr : Trace α) (w : World α) : Prop where
  reach : Reach tr w
  decl : ∀ e d, tr.decl e = some d → ∀ q ∈ d.seqs, srank q = rank d.mock

/-- Nothing from layer `R` upwards has changed. -/
structure Frame (rank srank : Nat → Nat) (R : Nat) (w w' : World α) : Prop where
  colls : w'.colls = w.colls
  exps : ∀ (e : Nat) (x : Exp α), w.exps[e]? = some x → R ≤ rank x.coll → w'.exps[e]? = some x
  seqs : ∀ q : Nat, R ≤ srank q → w'.seqs[q]? = w.seqs[q]?

theorem Frame.refl (R : Nat) (w : World α) : Frame rank srank R w w := ⟨rfl, fun _ _ h _ => h, fun _ _ => rfl⟩

theorem Frame.trans {R : Nat} {w w' w'' : World α} (h : Frame rank srank R w w') (h' : Frame rank srank R w' w'') :
    Frame rank srank R w w'' :=
  ⟨by rw [h'.colls, h.colls], fun e x hx hr => h'.exps e x (h.exps e x hx hr) hr, fun q hq => by rw [h'.seqs q hq, h.seqs q hq]⟩

theorem Frame.mono {R R' : Nat} {w w' : World α} (h : Frame rank srank R w w') (hR : R ≤ R') : Frame rank srank R' w w' :=
  ⟨h.colls, fun e x hx hr => h.exps e x hx (Nat.le_trans hR hr), fun q hq => h.seqs q (Nat.le_trans hR hq)⟩

/-- The sequences of an expectation are of its layer. -/
theorem Good.entries {tr : Trace α} {w : World α} (h : Good rank srank tr w) {e : Nat} {x : Exp α}
    (hx : w.exps[e]? = some x) : ∀ en ∈ x.control.entries, srank en.1 = rank x.coll := by
  obtain ⟨d, hd, hxd⟩ := h.reach.view.2.get (abs_mem hx)
  have e1 : x.coll = d.mock := congrArg Spec.Exp.mock hxd
  have e2 : x.control.entries.map (·.1) = d.seqs := congrArg Spec.Exp.seqs hxd
  intro en hen
  rw [e1]
  exact h.decl e d hd _ (e2 ▸ List.mem_map.mpr ⟨en, hen, rfl⟩)

theorem handleCall_none {w w' : World α} {m : Nat} {c : α} {ev : List Event} (hc : w.handleCall m c = .ok (w', ev, none)) : w' = w := by
  unfold World.handleCall at hc
  split at hc
  · simp at hc
  · simp only [bind, Except.bind] at hc
    split at hc
    · simp at hc
    · split at hc
      · split at hc
        · simp at hc
        · split at hc
          · simp at hc
          · simp [pure, Except.pure] at hc
      · split at hc
        · simp only [pure, Except.pure, Except.ok.injEq, Prod.mk.injEq] at hc
          exact hc.1.symm
        · simp only [pure, Except.pure, Except.ok.injEq, Prod.mk.injEq] at hc
          exact hc.1.symm

theorem handleCall_some {w w' : World α} {m e : Nat} {c : α} {ev : List Event} (hc : w.handleCall m c = .ok (w', ev, some e)) :
    Event.fullMatch e ∈ ev := by
  unfold World.handleCall at hc
  split at hc
  · simp at hc
  · simp only [bind, Except.bind] at hc
    split at hc
    · simp at hc
    · split at hc
      · split at hc
        · simp at hc
        · split at hc
          · simp at hc
          · simp only [pure, Except.pure, Except.ok.injEq, Prod.mk.injEq, Option.some.injEq] at hc
            rw [← hc.2.1, ← hc.2.2]
            simp
      · split at hc <;> simp [pure, Except.pure] at hc

/-- A call keeps what is kept. -/
theorem Good.call {tr : Trace α} {w : World α} (h : Good rank srank tr w) {m : Nat} {c : α} {w' : World α}
    {ev : List Event} {r : Option Nat} (hc : w.handleCall m c = .ok (w', ev, r)) :
    Good rank srank (tr ++ [(.call m c, ev)]) w' ∧ Frame rank srank (rank m + 1) w w' := by
  have hs : w.step (.call m c) = .ok (w', ev) := by simp [World.step, hc, bind, Except.bind, pure, Except.pure]
  have hr' := h.reach.step hs
  have hd : ∀ e, Trace.decl (tr ++ [(.call m c, ev)]) e = tr.decl e := fun e => decl_snoc_none rfl
  refine ⟨⟨hr', fun e d he => h.decl e d (hd e ▸ he)⟩, ?_⟩
  cases r with
  | none =>
    obtain rfl := handleCall_none hc
    exact .refl _ _
  | some e =>
    have hcons := handleCall_consume hc
    obtain ⟨m', c', hop, ⟨hl, d, hde, hdm, _⟩, _⟩ := fullMatch_source h.reach hs (handleCall_some hc)
    simp only [Op.call.injEq] at hop
    obtain ⟨rfl, rfl⟩ := hop
    have hx : ∃ x, w.exps[e]? = some x := by
      have := decl_lt h.reach hde
      exact ⟨_, List.getElem?_eq_getElem this⟩
    obtain ⟨x, hx⟩ := hx
    obtain ⟨d', hd', hxd⟩ := h.reach.view.2.get (abs_mem hx)
    have hxm : x.coll = m := by
      have : (absExp e x).id = e := rfl
      rw [this, hde] at hd'
      simp only [Option.some.injEq] at hd'
      subst hd'
      rw [← hdm]
      exact congrArg Spec.Exp.mock hxd
    obtain ⟨f1, f2, f3, f4⟩ := consume_frame h.reach hx hcons
    refine ⟨f1, ?_, ?_⟩
    · intro e' x' hx' hr
      by_cases he : e' = e
      · subst he
        rw [hx] at hx'
        simp only [Option.some.injEq] at hx'
        subst hx'
        rw [hxm] at hr
        omega
      · rw [f2 e' he]; exact hx'
    · intro q hq
      refine f3 q ?_
      rintro ⟨d', hd', hqd⟩
      rw [hde] at hd'
      simp only [Option.some.injEq] at hd'
      subst hd'
      have := h.decl e d hde q hqd
      rw [hdm] at this
      omega

/-- The storage of a mock. -/
theorem Good.storage {tr : Trace α} {w : World α} (h : Good rank srank tr w) {m : Nat} {es : List Nat}
    (hes : w.colls[m]? = some es) : ∀ e ∈ es.reverse, ∃ x, w.exps[e]? = some x ∧ x.alive = true ∧ x.coll = m := by
  have hv := h.reach.view
  have hc : es.reverse = ((abs w).candidates m).map (·.id) := by
    rw [hv.1.colls m es hes]
    simp [Spec.State.candidates, List.map_reverse]
  intro e he
  rw [hc, List.mem_map] at he
  obtain ⟨y, hy, rfl⟩ := he
  obtain ⟨h1, h2, h3⟩ := candidates_mem.mp hy
  obtain ⟨x, hx, hxy⟩ := (abs_mem_iff _ _).mp h1
  exact ⟨x, hx, by rw [hxy] at h2; exact h2, by rw [hxy] at h3; exact h3⟩

/-! ## The run of a call -/

/-- Printing only concerns the first `n` mocks. -/
def Closed (shows : Nat → α → Show α) (n : Nat) : Prop := ∀ m a, m < n → (shows m a).Only (· < n)

/-- Calls of mocks below layer `R` behave. They come to an end if `R` is at most `F`. -/
def RecOk (rank srank : Nat → Nat) (shows : Nat → α → Show α) (R F n : Nat) (rec : Rec α) : Prop :=
  ∀ (tr : Trace α) (w : World α) (m : Nat) (a : α), Good rank srank tr w → rank m < R →
    (∀ x, rec w m a = .error x → (∃ why, x = .client why) ∧
      ¬ (Closed shows n ∧ w.colls.length = n ∧ m < n ∧ R ≤ F)) ∧
    ∀ w' new r, rec w m a = .ok (w', new, r) →
      Good rank srank (tr ++ new) w' ∧ Frame rank srank (rank m + 1) w w' ∧ Made shows m a new r

theorem print_ok {R F n : Nat} {rec : Rec α} (hrec : RecOk rank srank shows R F n rec) {p : Show α} (hp : p.Below rank R)
    {tr : Trace α} {w : World α} (h : Good rank srank tr w) :
    (∀ x, print rec w p = .error x → (∃ why, x = .client why) ∧
      ¬ (Closed shows n ∧ w.colls.length = n ∧ p.Only (· < n) ∧ R ≤ F)) ∧
    ∀ w' new, print rec w p = .ok (w', new) →
      Good rank srank (tr ++ new) w' ∧ Frame rank srank R w w' ∧ Prints shows p new := by
  induction p generalizing tr w with
  | done =>
    refine ⟨by simp [print], fun w' new hk => ?_⟩
    simp only [print, Except.ok.injEq, Prod.mk.injEq] at hk
    obtain ⟨rfl, rfl⟩ := hk
    exact ⟨by simpa using h, .refl _ _, .done⟩
  | call m a next ih =>
    cases hp with
    | call hm hn =>
      obtain ⟨r1, r2⟩ := hrec tr w m a h hm
      simp only [print]
      cases hr : rec w m a with
      | error x =>
        refine ⟨fun y hy => ?_, by simp⟩
        simp only [Except.error.injEq] at hy
        subst hy
        refine ⟨(r1 x hr).1, ?_⟩
        rintro ⟨c1, c2, c3, c4⟩
        cases c3 with
        | call c5 _ => exact (r1 x hr).2 ⟨c1, c2, c5, c4⟩
      | ok v =>
        obtain ⟨w₁, t₁, r⟩ := v
        obtain ⟨g1, g2, g3⟩ := r2 w₁ t₁ r hr
        obtain ⟨k1, k2⟩ := ih r (hn r) g1
        simp only
        cases hk : print rec w₁ (next r) with
        | error x =>
          refine ⟨fun y hy => ?_, by simp⟩
          simp only [Except.error.injEq] at hy
          subst hy
          refine ⟨(k1 x hk).1, ?_⟩
          rintro ⟨c1, c2, c3, c4⟩
          cases c3 with
          | call _ c5 => exact (k1 x hk).2 ⟨c1, by rw [g2.colls]; exact c2, c5 r, c4⟩
        | ok v =>
          obtain ⟨w₂, t₂⟩ := v
          obtain ⟨j1, j2, j3⟩ := k2 w₂ t₂ hk
          refine ⟨by simp, fun w' new he => ?_⟩
          simp only [Except.ok.injEq, Prod.mk.injEq] at he
          obtain ⟨rfl, rfl⟩ := he
          exact ⟨by rw [← List.append_assoc]; exact j1, (g2.mono hm).trans j2, .call g3 j3⟩

theorem matchReport_congr {x : Exp α} {e : Nat} {h h' : Seqs} {a : α} (hl : ∀ en ∈ x.control.entries, h'[en.1]? = h[en.1]?) :
    x.matchReport e h' a = x.matchReport e h a := by
  simp only [Exp.matchReport, Nested.state_congr hl]

/-- An unlocked expectation that is alive yields a report. -/
theorem matchReport_total {tr : Trace α} {w : World α} (h : Reach tr w) {e : Nat} {x : Exp α} (hx : w.exps[e]? = some x)
    (ha : x.alive = true) (a : α) : ∃ rep, x.matchReport e w.seqs a = .ok rep := by
  obtain ⟨st, hst, _⟩ := h.view.1.state hx ha
  simp only [Exp.matchReport, hst, bind, Except.bind, pure, Except.pure]
  split <;> exact ⟨_, rfl⟩

theorem Repeats.append {shows : Nat → α → Show α} {n : Nat} {p : Show α} {tr tr' : Trace α} (h : Repeats shows n p tr)
    (h' : Prints shows p tr') : Repeats shows (n + 1) p (tr ++ tr') := by
  have h'' : Prints shows p tr' := h'
  clear h'
  induction n generalizing tr with
  | zero =>
    cases h with
    | zero =>
      have := Repeats.succ h'' (.zero (shows := shows) (p := p))
      simpa using this
  | succ n ih =>
    cases h with
    | succ h1 h2 =>
      rw [List.append_assoc]
      exact .succ h1 (ih h2)

/-- The loop comes to the same result as one without printing. -/
theorem scan_ok {m F n : Nat} {rec : Rec α} (hrec : RecOk rank srank shows (rank m) F n rec) {p : Show α} (hp : p.Below rank (rank m))
    {a : α} {es : List Nat} {tr : Trace α} {w : World α} (h : Good rank srank tr w)
    (hes : ∀ e ∈ es, ∃ x, w.exps[e]? = some x ∧ x.alive = true ∧ x.coll = m) :
    (∀ x, scan rec p a w es = .error x → (∃ why, x = .client why) ∧
      ¬ (Closed shows n ∧ w.colls.length = n ∧ p.Only (· < n) ∧ rank m ≤ F)) ∧
    ∀ w' new r, scan rec p a w es = .ok (w', new, r) →
      Good rank srank (tr ++ new) w' ∧ Frame rank srank (rank m) w w' ∧ Repeats shows r.thrown.length p new ∧
      ∀ w'', Frame rank srank (rank m) w w'' → Mimic.scan w'' a es = .ok r := by
  induction es generalizing tr w with
  | nil =>
    refine ⟨by simp [scan], fun w' new r hk => ?_⟩
    simp only [scan, Except.ok.injEq, Prod.mk.injEq] at hk
    obtain ⟨rfl, rfl, rfl⟩ := hk
    exact ⟨by simpa using h, .refl _ _, .zero, fun _ _ => rfl⟩
  | cons e es ih =>
    obtain ⟨x, hx, hxa, hxm⟩ := hes e (by simp)
    have e1 := h.entries hx
    rw [hxm] at e1
    have hder : w.deref e = .ok x := by simp [World.deref, hx, hxa]
    obtain ⟨rep, hrep⟩ := matchReport_total h.reach hx hxa a
    have later : ∀ w'', Frame rank srank (rank m) w w'' → w''.deref e = .ok x ∧ x.matchReport e w''.seqs a = .ok rep := by
      intro w'' hf
      refine ⟨?_, ?_⟩
      · have := hf.exps e x hx (by rw [hxm]; exact Nat.le_refl _)
        simp [World.deref, this, hxa]
      · rw [← hrep]
        exact matchReport_congr (fun en hen => hf.seqs en.1 (by rw [e1 en hen]; exact Nat.le_refl _))
    simp only [scan, hder, hrep]
    cases rep with
    | none =>
      obtain ⟨r1, r2⟩ := print_ok hrec hp h
      simp only
      cases hr : print rec w p with
      | error y =>
        refine ⟨fun z hz => ?_, by simp⟩
        simp only [Except.error.injEq] at hz
        exact hz ▸ r1 y hr
      | ok v =>
        obtain ⟨w₁, t₁⟩ := v
        obtain ⟨g1, g2, g3⟩ := r2 w₁ t₁ hr
        obtain ⟨k1, k2⟩ := ih g1 (fun e' he' => by
          obtain ⟨x', q1, q2, q3⟩ := hes e' (by simp [he'])
          exact ⟨x', g2.exps e' x' q1 (by rw [q3]; exact Nat.le_refl _), q2, q3⟩)
        simp only
        cases hk : scan rec p a w₁ es with
        | error y =>
          refine ⟨fun z hz => ?_, by simp⟩
          simp only [Except.error.injEq] at hz
          subst hz
          refine ⟨(k1 y hk).1, ?_⟩
          rintro ⟨c1, c2, c3, c4⟩
          exact (k1 y hk).2 ⟨c1, by rw [g2.colls]; exact c2, c3, c4⟩
        | ok v =>
          obtain ⟨w₂, t₂, r⟩ := v
          obtain ⟨j1, j2, j3, j4⟩ := k2 w₂ t₂ r hk
          refine ⟨by simp, fun w' new r' he => ?_⟩
          simp only [Except.ok.injEq, Prod.mk.injEq] at he
          obtain ⟨rfl, rfl, rfl⟩ := he
          refine ⟨by rw [← List.append_assoc]; exact j1, g2.trans j2, .succ g3 j3, fun w'' hf => ?_⟩
          obtain ⟨l1, l2⟩ := later w'' hf
          have hrest : Mimic.scan w'' a es = .ok r := by
            have hind : ∀ (l : List Nat), (∀ e ∈ l, ∃ x, w.exps[e]? = some x ∧ x.alive = true ∧ x.coll = m) →
                Mimic.scan w'' a l = Mimic.scan w₂ a l := by
              intro l hl
              induction l with
              | nil => rfl
              | cons e' l ihl =>
                obtain ⟨x', q1, q2, q3⟩ := hl e' (by simp)
                have e1' := h.entries q1
                rw [q3] at e1'
                have a1 : w''.deref e' = .ok x' := by
                  have := hf.exps e' x' q1 (by rw [q3]; exact Nat.le_refl _)
                  simp [World.deref, this, q2]
                have hf2 := g2.trans j2
                have a2 : w₂.deref e' = .ok x' := by
                  have := hf2.exps e' x' q1 (by rw [q3]; exact Nat.le_refl _)
                  simp [World.deref, this, q2]
                have b1 : x'.matchReport e' w''.seqs a = x'.matchReport e' w.seqs a :=
                  matchReport_congr (fun en hen => hf.seqs en.1 (by rw [e1' en hen]; exact Nat.le_refl _))
                have b2 : x'.matchReport e' w₂.seqs a = x'.matchReport e' w.seqs a :=
                  matchReport_congr (fun en hen => hf2.seqs en.1 (by rw [e1' en hen]; exact Nat.le_refl _))
                simp only [Mimic.scan, a1, a2, b1, b2, ihl (fun e he => hl e (by simp [he])), bind, Except.bind]
            rw [hind es (fun e' he' => hes e' (by simp [he']))]
            exact j4 w₂ j2
          simp only [Mimic.scan, l1, l2, hrest, bind, Except.bind, pure, Except.pure]
    | some rep =>
      obtain ⟨k1, k2⟩ := ih h (fun e' he' => hes e' (by simp [he']))
      simp only
      cases hk : scan rec p a w es with
      | error y =>
        refine ⟨fun z hz => ?_, by simp⟩
        simp only [Except.error.injEq] at hz
        exact hz ▸ k1 y hk
      | ok v =>
        obtain ⟨w₂, t₂, r⟩ := v
        obtain ⟨j1, j2, j3, j4⟩ := k2 w₂ t₂ r hk
        simp only
        cases hev : evaluateMatchReport rep <;>
        · refine ⟨by simp, fun w' new r' he => ?_⟩
          simp only [Except.ok.injEq, Prod.mk.injEq] at he
          obtain ⟨rfl, rfl, rfl⟩ := he
          refine ⟨j1, j2, j3, fun w'' hf => ?_⟩
          obtain ⟨l1, l2⟩ := later w'' hf
          simp only [Mimic.scan, l1, l2, j4 w'' hf, hev, bind, Except.bind, pure, Except.pure]

theorem resolver_append (us : List Nat) (x : Event) : resolver (us.map Event.unhandled ++ [x]) = resolver [x] := by
  unfold resolver
  induction us with
  | nil => rfl
  | cons u us ih => simpa using ih

theorem exceptions_append (us : List Nat) (x : Event) : exceptions (us.map Event.unhandled ++ [x]) = us.length + exceptions [x] := by
  unfold exceptions
  induction us with
  | nil => simp
  | cons u us ih =>
    simp only [List.map_cons, List.cons_append, List.countP_cons, ih, List.length_cons]
    simp only [if_true]
    omega

/-- A call of a mock comes to the same result as in the flat history. -/
theorem call_ok (hl : Layered rank shows) (n fuel : Nat) (held : List Nat) (R : Nat) (hh : ∀ k ∈ held, R ≤ rank k) :
    RecOk rank srank shows R fuel n (call shows fuel held : Rec α) := by
  induction fuel generalizing held R with
  | zero =>
    intro tr w m a h hm
    refine ⟨fun x hx => ?_, by simp [call]⟩
    simp only [call, Except.error.injEq] at hx
    exact ⟨⟨_, hx.symm⟩, fun hc => by omega⟩
  | succ fuel ih =>
    intro tr w m a h hm
    have hnot : held.contains m = false := by
      cases hc : held.contains m with
      | false => rfl
      | true =>
        have := hh m (by simpa using hc)
        omega
    simp only [call, hnot, Bool.false_eq_true, if_false]
    cases hes : w.colls[m]? with
    | none =>
      refine ⟨fun x hx => ?_, by simp⟩
      simp only [Except.error.injEq] at hx
      refine ⟨⟨_, hx.symm⟩, ?_⟩
      rintro ⟨_, c2, c3, _⟩
      rw [List.getElem?_eq_none_iff] at hes
      omega
    | some es =>
      simp only
      have t1 := h.storage hes
      have hrec := ih (m :: held) (rank m) (by
        intro k hk
        simp only [List.mem_cons] at hk
        rcases hk with rfl | hk
        · exact Nat.le_refl _
        · have := hh k hk; omega)
      have hrec' := ih held (rank m) (fun k hk => by have := hh k hk; omega)
      obtain ⟨r1, r2⟩ := scan_ok (a := a) hrec (hl m a) h t1
      cases hsc : scan (call shows fuel (m :: held)) (shows m a) a w es.reverse with
      | error y =>
        refine ⟨fun z hz => ?_, by simp⟩
        simp only [Except.error.injEq] at hz
        subst hz
        refine ⟨(r1 y hsc).1, ?_⟩
        rintro ⟨c1, c2, c3, c4⟩
        exact (r1 y hsc).2 ⟨c1, c2, c1 m a c3, by omega⟩
      | ok v =>
        obtain ⟨w₁, t₁, r⟩ := v
        obtain ⟨g1, g2, g3, g4⟩ := r2 w₁ t₁ r hsc
        obtain ⟨s1, s2⟩ := print_ok hrec' (hl m a) g1
        simp only
        cases hpr : print (call shows fuel held) w₁ (shows m a) with
        | error y =>
          have perr : (∃ why, y = .client why) ∧ ¬ (Closed shows n ∧ w.colls.length = n ∧ m < n ∧ R ≤ fuel + 1) := by
            refine ⟨(s1 y hpr).1, ?_⟩
            rintro ⟨c1, c2, c3, c4⟩
            exact (s1 y hpr).2 ⟨c1, by rw [g2.colls]; exact c2, c1 m a c3, by omega⟩
          by_cases hfull : r.full.isEmpty
          · simp only [hfull, Bool.not_true, Bool.false_eq_true, if_false]
            refine ⟨fun z hz => ?_, by simp⟩
            simp only [Except.error.injEq] at hz
            exact hz ▸ perr
          · simp only [hfull, Bool.not_false, if_true]
            cases hb : pickBestMatch r.full with
            | error z =>
              exfalso
              have hm1 : w.colls[m]? = some es := hes
              have hlt : m < w.colls.length := (List.getElem?_eq_some_iff.mp hm1).1
              obtain ⟨w', hw', _, _⟩ := h.reach.view.1.handleCall hlt a
              simp only [World.handleCall, hm1, g4 w (.refl _ _), bind, Except.bind, pure, Except.pure, hfull, Bool.not_false,
                if_true, hb] at hw'
              simp at hw'
            | ok best =>
              simp only
              refine ⟨fun z hz => ?_, by simp⟩
              simp only [Except.error.injEq] at hz
              exact hz ▸ perr
        | ok v =>
          obtain ⟨w₂, t₂⟩ := v
          obtain ⟨q1, q2, q3⟩ := s2 w₂ t₂ hpr
          have hf := g2.trans q2
          have hm1 : w₂.colls[m]? = some es := by rw [hf.colls]; exact hes
          have p1 := g4 w₂ hf
          have hlt : m < w₂.colls.length := (List.getElem?_eq_some_iff.mp hm1).1
          obtain ⟨w', hw', _, _⟩ := q1.reach.view.1.handleCall hlt a
          have hw : w₂.handleCall m a = .ok (w', ((abs w₂).call m a).2) := hw'
          revert hw
          generalize ((abs w₂).call m a).2 = out
          obtain ⟨ev, res⟩ := out
          intro hw
          have fin : Good rank srank (tr ++ (t₁ ++ t₂ ++ [(.call m a, ev)])) w' ∧ Frame rank srank (rank m + 1) w w' := by
            obtain ⟨o1, o2⟩ := q1.call hw
            refine ⟨?_, (hf.mono (Nat.le_succ _)).trans o2⟩
            have := o1
            simp only [List.append_assoc] at this ⊢
            exact this
          have made : ∀ us : List Nat, us = r.thrown → ∀ y, exceptions [y] = 0 → ev = us.map Event.unhandled ++ [y] →
              Made shows m a (t₁ ++ t₂ ++ [(.call m a, ev)]) (resolver [y]) := by
            intro us hus y hy hev
            have hrp := g3.append q3
            rw [hev, ← resolver_append us y]
            refine .call ?_
            rw [exceptions_append, hy, hus]
            exact hrp
          simp only [World.handleCall, hm1, p1, bind, Except.bind, pure, Except.pure] at hw
          by_cases hfull : r.full.isEmpty
          · simp only [hfull, Bool.not_true, Bool.false_eq_true, if_false] at hw ⊢
            by_cases hin : r.inapplicable.isEmpty
            · simp only [hin, Bool.not_true, Bool.false_eq_true, if_false, Except.ok.injEq, Prod.mk.injEq] at hw ⊢
              obtain ⟨rfl, rfl, rfl⟩ := hw
              refine ⟨by simp, fun w' new res he => ?_⟩
              obtain ⟨rfl, rfl, rfl⟩ := he
              exact ⟨fin.1, fin.2, made _ rfl _ rfl rfl⟩
            · simp only [hin, Bool.not_false, if_true, Except.ok.injEq, Prod.mk.injEq] at hw ⊢
              obtain ⟨rfl, rfl, rfl⟩ := hw
              refine ⟨by simp, fun w' new res he => ?_⟩
              obtain ⟨rfl, rfl, rfl⟩ := he
              exact ⟨fin.1, fin.2, made _ rfl _ rfl rfl⟩
          · simp only [hfull, Bool.not_false, if_true] at hw ⊢
            cases hb : pickBestMatch r.full with
            | error y => simp [hb] at hw
            | ok best =>
              simp only [hb] at hw ⊢
              cases hcs : w₂.consume best.exp with
              | error y => simp [hcs] at hw
              | ok w₃ =>
                simp only [hcs, Except.ok.injEq, Prod.mk.injEq] at hw ⊢
                obtain ⟨rfl, rfl, rfl⟩ := hw
                refine ⟨by simp, fun w' new res he => ?_⟩
                obtain ⟨rfl, rfl, rfl⟩ := he
                exact ⟨fin.1, fin.2, made _ rfl _ rfl rfl⟩

end Mimic.Display
