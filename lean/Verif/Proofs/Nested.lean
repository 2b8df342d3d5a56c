import Verif.Spec.Nested
import Verif.Props.Safety
import Verif.Proofs.Outcome
import Verif.Proofs.Scoped

/-!
# Lemmas about matchers that call mocks
-/

set_option autoImplicit false

namespace Mimic.Nested

variable {α : Type} {rank srank : Nat → Nat}

/-! ## What nested calls leave alone -/

/-- What is kept in layered programs. -/
structure Good (rank srank : Nat → Nat) (tr : Trace (Seen α)) (s : Store α) : Prop where
  reach : Reach tr s.w
  len : s.asks.length = s.w.exps.length
  decl : ∀ e d, tr.decl e = some d → d.policies = [asked e] ∧ (∀ q ∈ d.seqs, srank q = rank d.mock) ∧
    ∀ p ∈ s.matchers e, ∀ a, Ask.Below rank (rank d.mock) (p a)

/-- Nothing from layer `R` upwards has changed. -/
structure Frame (rank srank : Nat → Nat) (R : Nat) (s s' : Store α) : Prop where
  asks : s'.asks = s.asks
  colls : s'.w.colls = s.w.colls
  exps : ∀ (e : Nat) (x : Exp (Seen α)), s.w.exps[e]? = some x → R ≤ rank x.coll → s'.w.exps[e]? = some x
  seqs : ∀ q : Nat, R ≤ srank q → s'.w.seqs[q]? = s.w.seqs[q]?

theorem Frame.refl (R : Nat) (s : Store α) : Frame rank srank R s s := ⟨rfl, rfl, fun _ _ h _ => h, fun _ _ => rfl⟩

theorem Frame.trans {R : Nat} {s s' s'' : Store α} (h : Frame rank srank R s s') (h' : Frame rank srank R s' s'') :
    Frame rank srank R s s'' :=
  ⟨by rw [h'.asks, h.asks], by rw [h'.colls, h.colls], fun e x hx hr => h'.exps e x (h.exps e x hx hr) hr,
    fun q hq => by rw [h'.seqs q hq, h.seqs q hq]⟩

theorem Frame.mono {R R' : Nat} {s s' : Store α} (h : Frame rank srank R s s') (hR : R ≤ R') : Frame rank srank R' s s' :=
  ⟨h.asks, h.colls, fun e x hx hr => h.exps e x hx (Nat.le_trans hR hr), fun q hq => h.seqs q (Nat.le_trans hR hq)⟩

theorem Frame.matchers {R : Nat} {s s' : Store α} (h : Frame rank srank R s s') : s'.matchers = s.matchers := by
  funext e
  simp [Store.matchers, h.asks]

theorem derefTags_congr {h h' : Seqs} {l : List (Nat × Int)} (hl : ∀ en ∈ l, h'[en.1]? = h[en.1]?) : derefTags h' l = derefTags h l := by
  induction l with
  | nil => rfl
  | cons en l ih =>
    obtain ⟨q, i⟩ := en
    have h1 : h'.deref q = h.deref q := by simp only [Seqs.deref, hl (q, i) (by simp)]
    simp only [derefTags, h1, ih (fun en hen => hl en (by simp [hen]))]

theorem collectRatings_congr {h h' : Seqs} {l : List (Nat × Int)} (hl : ∀ en ∈ l, h'[en.1]? = h[en.1]?) :
    collectRatings h' l = collectRatings h l := by
  induction l with
  | nil => rfl
  | cons en l ih =>
    obtain ⟨q, i⟩ := en
    have h1 : h'.deref q = h.deref q := by simp only [Seqs.deref, hl (q, i) (by simp)]
    simp only [collectRatings, h1, ih (fun en hen => hl en (by simp [hen]))]

theorem state_congr {c : Control} {h h' : Seqs} (hl : ∀ en ∈ c.entries, h'[en.1]? = h[en.1]?) : c.state h' = c.state h := by
  simp only [Control.state, derefTags_congr hl, collectRatings_congr hl]

/-- The sequences of an expectation are of its layer. -/
theorem Good.entries {tr : Trace (Seen α)} {s : Store α} (h : Good rank srank tr s) {e : Nat} {x : Exp (Seen α)}
    (hx : s.w.exps[e]? = some x) :
    (∀ en ∈ x.control.entries, srank en.1 = rank x.coll) ∧ x.policies = [asked e] ∧
    ∀ p ∈ s.matchers e, ∀ a, Ask.Below rank (rank x.coll) (p a) := by
  obtain ⟨d, hd, hxd⟩ := h.reach.view.2.get (abs_mem hx)
  obtain ⟨h1, h2, h3⟩ := h.decl e d hd
  have e1 : x.coll = d.mock := congrArg Spec.Exp.mock hxd
  have e2 : x.control.entries.map (·.1) = d.seqs := congrArg Spec.Exp.seqs hxd
  have e3 : x.policies = d.policies := congrArg Spec.Exp.policies hxd
  refine ⟨fun en hen => ?_, by rw [e3, h1], by rw [e1]; exact h3⟩
  rw [e1]
  exact h2 _ (e2 ▸ List.mem_map.mpr ⟨en, hen, rfl⟩)

/-- A call keeps what is kept. -/
theorem Good.call {tr : Trace (Seen α)} {s : Store α} (h : Good rank srank tr s) {m : Nat} {c : Seen α} {w' : World (Seen α)}
    {ev : List Event} {r : Option Nat} (hc : s.w.handleCall m c = .ok (w', ev, r)) :
    Good rank srank (tr ++ [(.call m c, ev)]) { s with w := w' } ∧ Frame rank srank (rank m + 1) s { s with w := w' } := by
  have hs : s.w.step (.call m c) = .ok (w', ev) := by simp [World.step, hc, bind, Except.bind, pure, Except.pure]
  have hr' := h.reach.step hs
  have hd : ∀ e, Trace.decl (tr ++ [(.call m c, ev)]) e = tr.decl e := fun e => decl_snoc_none rfl
  cases r with
  | none =>
    have hw : w' = s.w := by
      unfold World.handleCall at hc
      split at hc
      · simp at hc
      · simp only [bind, Except.bind] at hc
        split at hc
        · simp at hc
        · split at hc
          · split at hc
            · simp at hc
            · split at hc
              · simp at hc
              · simp [pure, Except.pure] at hc
          · split at hc
            · simp only [pure, Except.pure, Except.ok.injEq, Prod.mk.injEq] at hc
              exact hc.1.symm
            · simp only [pure, Except.pure, Except.ok.injEq, Prod.mk.injEq] at hc
              exact hc.1.symm
    subst hw
    exact ⟨⟨hr', h.len, fun e d he => h.decl e d (hd e ▸ he)⟩, .refl _ _⟩
  | some e =>
    have hcons := handleCall_consume hc
    have hfm : Event.fullMatch e ∈ ev := by
      unfold World.handleCall at hc
      split at hc
      · simp at hc
      · simp only [bind, Except.bind] at hc
        split at hc
        · simp at hc
        · split at hc
          · split at hc
            · simp at hc
            · split at hc
              · simp at hc
              · simp only [pure, Except.pure, Except.ok.injEq, Prod.mk.injEq, Option.some.injEq] at hc
                rw [← hc.2.1, ← hc.2.2]
                simp
          · split at hc <;> simp [pure, Except.pure] at hc
    obtain ⟨m', c', hop, ⟨hl, d, hde, hdm, _⟩, _⟩ := fullMatch_source h.reach hs hfm
    simp only [Op.call.injEq] at hop
    obtain ⟨rfl, rfl⟩ := hop
    have hx : ∃ x, s.w.exps[e]? = some x := by
      have := decl_lt h.reach hde
      exact ⟨_, List.getElem?_eq_getElem this⟩
    obtain ⟨x, hx⟩ := hx
    obtain ⟨d', hd', hxd⟩ := h.reach.view.2.get (abs_mem hx)
    have hxm : x.coll = m := by
      have : (absExp e x).id = e := rfl
      rw [this, hde] at hd'
      simp only [Option.some.injEq] at hd'
      subst hd'
      rw [← hdm]
      exact congrArg Spec.Exp.mock hxd
    obtain ⟨f1, f2, f3, _, _, f4⟩ := consume_frame h.reach hx hcons
    refine ⟨⟨hr', ?_, fun e d he => h.decl e d (hd e ▸ he)⟩, ⟨rfl, f1, ?_, ?_⟩⟩
    · have hlen : w'.exps.length = s.w.exps.length := by
        rw [← abs_exps_length, ← abs_exps_length]
        have hsp := h.reach.spec_step hs
        simp only [Spec.State.step] at hsp
        split at hsp
        · simp only [Option.some.injEq, Prod.mk.injEq] at hsp
          rw [← hsp.1]
          unfold Spec.State.call
          dsimp only
          split
          · simp [Spec.State.countMatch]
          · split <;> rfl
        · simp at hsp
      show s.asks.length = w'.exps.length
      rw [hlen]; exact h.len
    · intro e' x' hx' hr
      by_cases he : e' = e
      · subst he
        rw [hx] at hx'
        simp only [Option.some.injEq] at hx'
        subst hx'
        rw [hxm] at hr
        omega
      · rw [f2 e' he]; exact hx'
    · intro q hq
      refine f3 q ?_
      rintro ⟨d', hd', hqd⟩
      rw [hde] at hd'
      simp only [Option.some.injEq] at hd'
      subst hd'
      have := (h.decl e d hde).2.1 q hqd
      rw [hdm] at this
      omega

/-! ## The run of a call -/

/-- Nested calls to mocks below layer `R` behave. -/
def RecOk (rank srank : Nat → Nat) (R : Nat) (rec : Rec α) : Prop :=
  ∀ (tr : Trace (Seen α)) (s : Store α) (m : Nat) (a : α), Good rank srank tr s → rank m < R →
    (∀ x, rec s m a = .error x → ∃ why, x = .client why) ∧
    ∀ s' new r, rec s m a = .ok (s', new, r) →
      Good rank srank (tr ++ new) s' ∧ Frame rank srank (rank m + 1) s s' ∧ Made s.matchers tr m a new r

theorem ask_ok {R : Nat} {rec : Rec α} (hrec : RecOk rank srank R rec) {p : Ask α} (hp : Ask.Below rank R p)
    {tr : Trace (Seen α)} {s : Store α} (h : Good rank srank tr s) :
    (∀ x, ask rec s p = .error x → ∃ why, x = .client why) ∧
    ∀ s' new b, ask rec s p = .ok (s', new, b) →
      Good rank srank (tr ++ new) s' ∧ Frame rank srank R s s' ∧ Says s.matchers tr p new b := by
  induction p generalizing tr s with
  | answer b =>
    refine ⟨by simp [ask], fun s' new b' hk => ?_⟩
    simp only [ask, Except.ok.injEq, Prod.mk.injEq] at hk
    obtain ⟨rfl, rfl, rfl⟩ := hk
    exact ⟨by simpa using h, .refl _ _, .answer⟩
  | throws =>
    refine ⟨by simp [ask], fun s' new b' hk => ?_⟩
    simp only [ask, Except.ok.injEq, Prod.mk.injEq] at hk
    obtain ⟨rfl, rfl, rfl⟩ := hk
    exact ⟨by simpa using h, .refl _ _, .throws⟩
  | call m a next ih =>
    cases hp with
    | call hm hn =>
      obtain ⟨r1, r2⟩ := hrec tr s m a h hm
      simp only [ask]
      cases hr : rec s m a with
      | error x =>
        refine ⟨fun y hy => ?_, by simp⟩
        simp only [Except.error.injEq] at hy
        exact hy ▸ r1 x hr
      | ok v =>
        obtain ⟨s₁, t₁, r⟩ := v
        obtain ⟨g1, g2, g3⟩ := r2 s₁ t₁ r hr
        obtain ⟨k1, k2⟩ := ih r (hn r) g1
        simp only
        cases hk : ask rec s₁ (next r) with
        | error x =>
          refine ⟨fun y hy => ?_, by simp⟩
          simp only [Except.error.injEq] at hy
          exact hy ▸ k1 x hk
        | ok v =>
          obtain ⟨s₂, t₂, b⟩ := v
          obtain ⟨j1, j2, j3⟩ := k2 s₂ t₂ b hk
          refine ⟨by simp, fun s' new b' he => ?_⟩
          simp only [Except.ok.injEq, Prod.mk.injEq] at he
          obtain ⟨rfl, rfl, rfl⟩ := he
          refine ⟨by rw [← List.append_assoc]; exact j1, (g2.mono hm).trans j2, .call g3 ?_⟩
          rw [← g2.matchers]; exact j3

theorem askAll_ok {R : Nat} {rec : Rec α} (hrec : RecOk rank srank R rec) {a : α} {ps : List (α → Ask α)}
    (hp : ∀ p ∈ ps, Ask.Below rank R (p a)) {tr : Trace (Seen α)} {s : Store α} (h : Good rank srank tr s) :
    (∀ x, askAll rec a s ps = .error x → ∃ why, x = .client why) ∧
    ∀ s' new b, askAll rec a s ps = .ok (s', new, b) →
      Good rank srank (tr ++ new) s' ∧ Frame rank srank R s s' ∧ SayAll s.matchers tr a ps new b := by
  induction ps generalizing tr s with
  | nil =>
    refine ⟨by simp [askAll], fun s' new b' hk => ?_⟩
    simp only [askAll, Except.ok.injEq, Prod.mk.injEq] at hk
    obtain ⟨rfl, rfl, rfl⟩ := hk
    exact ⟨by simpa using h, .refl _ _, .nil⟩
  | cons p ps ih =>
    obtain ⟨r1, r2⟩ := ask_ok hrec (hp p (by simp)) h
    simp only [askAll]
    cases hr : ask rec s (p a) with
    | error x =>
      refine ⟨fun y hy => ?_, by simp⟩
      simp only [Except.error.injEq] at hy
      exact hy ▸ r1 x hr
    | ok v =>
      obtain ⟨s₁, t₁, b⟩ := v
      obtain ⟨g1, g2, g3⟩ := r2 s₁ t₁ b hr
      cases b with
      | none =>
        refine ⟨by simp, fun s' new b' he => ?_⟩
        simp only [Except.ok.injEq, Prod.mk.injEq] at he
        obtain ⟨rfl, rfl, rfl⟩ := he
        exact ⟨g1, g2, .thrown g3⟩
      | some b =>
        obtain ⟨k1, k2⟩ := ih (fun p hq => hp p (by simp [hq])) g1
        simp only
        cases hk : askAll rec a s₁ ps with
        | error x =>
          refine ⟨fun y hy => ?_, by simp⟩
          simp only [Except.error.injEq] at hy
          exact hy ▸ k1 x hk
        | ok v =>
          obtain ⟨s₂, t₂, b₂⟩ := v
          obtain ⟨j1, j2, j3⟩ := k2 s₂ t₂ b₂ hk
          refine ⟨by simp, fun s' new b' he => ?_⟩
          simp only [Except.ok.injEq, Prod.mk.injEq] at he
          obtain ⟨rfl, rfl, rfl⟩ := he
          refine ⟨by rw [← List.append_assoc]; exact j1, g2.trans j2, .cons g3 ?_⟩
          rw [← g2.matchers]; exact j3

/-- The loop comes to the same result as the one that knows all answers in advance. -/
theorem scan_ok {m : Nat} {rec : Rec α} (hrec : RecOk rank srank (rank m) rec) {a : α} {es : List Nat} {tr : Trace (Seen α)}
    {s : Store α} (h : Good rank srank tr s)
    (hes : ∀ e ∈ es, ∃ x, s.w.exps[e]? = some x ∧ x.alive = true ∧ x.coll = m) :
    (∀ x, scan rec a s es = .error x → ∃ why, x = .client why) ∧
    ∀ s' new r ans, scan rec a s es = .ok (s', new, r, ans) →
      Good rank srank (tr ++ new) s' ∧ Frame rank srank (rank m) s s' ∧ ans.map (·.1) = es ∧
      ∀ f : Nat → Option Bool, (∀ p ∈ ans, f p.1 = p.2) →
        Mimic.scan s'.w (a, f) es = .ok r ∧ Asked s.matchers tr a f es new := by
  induction es generalizing tr s with
  | nil =>
    refine ⟨by simp [scan], fun s' new r ans hk => ?_⟩
    simp only [scan, Except.ok.injEq, Prod.mk.injEq] at hk
    obtain ⟨rfl, rfl, rfl, rfl⟩ := hk
    exact ⟨by simpa using h, .refl _ _, rfl, fun f _ => ⟨rfl, .nil⟩⟩
  | cons e es ih =>
    obtain ⟨x, hx, hxa, hxm⟩ := hes e (by simp)
    obtain ⟨e1, e2, e3⟩ := h.entries hx
    rw [hxm] at e1 e3
    have hder : s.w.deref e = .ok x := by simp [World.deref, hx, hxa]
    obtain ⟨st, hst, _⟩ := h.reach.view.1.state hx hxa
    obtain ⟨r1, r2⟩ := askAll_ok hrec (fun p hp => e3 p hp a) h
    simp only [scan, hder, hst]
    cases hr : askAll rec a s (s.matchers e) with
    | error y =>
      refine ⟨fun z hz => ?_, by simp⟩
      simp only [Except.error.injEq] at hz
      exact hz ▸ r1 y hr
    | ok v =>
      obtain ⟨s₁, t₁, b⟩ := v
      obtain ⟨g1, g2, g3⟩ := r2 s₁ t₁ b hr
      obtain ⟨k1, k2⟩ := ih g1 (fun e' he' => by
        obtain ⟨x', q1, q2, q3⟩ := hes e' (by simp [he'])
        exact ⟨x', g2.exps e' x' q1 (by rw [q3]; exact Nat.le_refl _), q2, q3⟩)
      simp only
      cases hk : scan rec a s₁ es with
      | error y =>
        refine ⟨fun z hz => ?_, by simp⟩
        simp only [Except.error.injEq] at hz
        exact hz ▸ k1 y hk
      | ok v =>
        obtain ⟨s₂, t₂, r, ans⟩ := v
        obtain ⟨j1, j2, j3, j4⟩ := k2 s₂ t₂ r ans hk
        have hf := g2.trans j2
        have hx2 : s₂.w.exps[e]? = some x := hf.exps e x hx (by rw [hxm]; exact Nat.le_refl _)
        have hder2 : s₂.w.deref e = .ok x := by simp [World.deref, hx2, hxa]
        have hst2 : x.control.state s₂.w.seqs = .ok st := by
          rw [← hst]
          exact state_congr (fun en hen => hf.seqs en.1 (by rw [e1 en hen]; exact Nat.le_refl _))
        have hev : ∀ f : Nat → Option Bool, evalPolicies (a, f) x.policies = (f e).map (fun b => [(b, none)]) := by
          intro f
          rw [e2]
          simp only [evalPolicies, asked]
          cases f e <;> rfl
        have key : ∀ (f : Nat → Option Bool), f e = b → (∀ p ∈ ans, f p.1 = p.2) → Asked s.matchers tr a f (e :: es) (t₁ ++ t₂) := by
          intro f hfe hfa
          refine .cons (hfe ▸ g3) ?_
          rw [← g2.matchers]
          exact (j4 f hfa).2
        have pure' : ∀ (f : Nat → Option Bool), f e = b → (∀ p ∈ ans, f p.1 = p.2) → Mimic.scan s₂.w (a, f) (e :: es) =
            (match b with
             | none => .ok { r with thrown := e :: r.thrown }
             | some b =>
               match evaluateMatchReport { exp := e, control := st, results := [(b, none)] } with
               | .none => .ok { r with none := { exp := e, control := st, results := [(b, none)] } :: r.none }
               | .inapplicable => .ok { r with inapplicable := { exp := e, control := st, results := [(b, none)] } :: r.inapplicable }
               | .full => .ok { r with full := { exp := e, control := st, results := [(b, none)] } :: r.full }) := by
          intro f hfe hfa
          simp only [Mimic.scan, hder2, Exp.matchReport, hst2, hev, hfe, (j4 f hfa).1, bind, Except.bind, pure, Except.pure]
          cases b <;> simp only [Option.map_none, Option.map_some]
          split <;> simp_all
        cases b with
        | none =>
          refine ⟨by simp, fun s' new r' ans' he => ?_⟩
          simp only [Except.ok.injEq, Prod.mk.injEq] at he
          obtain ⟨rfl, rfl, rfl, rfl⟩ := he
          refine ⟨by rw [← List.append_assoc]; exact j1, hf, by simp [j3], fun f hfa => ?_⟩
          have p1 := hfa (e, none) (by simp)
          have p2 : ∀ p ∈ ans, f p.1 = p.2 := fun p hp => hfa p (by simp [hp])
          exact ⟨pure' f p1 p2, key f p1 p2⟩
        | some b =>
          simp only
          cases hev : evaluateMatchReport { exp := e, control := st, results := [(b, none)] } <;>
          · refine ⟨by simp, fun s' new r' ans' he => ?_⟩
            simp only [Except.ok.injEq, Prod.mk.injEq] at he
            obtain ⟨rfl, rfl, rfl, rfl⟩ := he
            refine ⟨by rw [← List.append_assoc]; exact j1, hf, by simp [j3], fun f hfa => ?_⟩
            have p1 := hfa (e, some b) (by simp)
            have p2 : ∀ p ∈ ans, f p.1 = p.2 := fun p hp => hfa p (by simp [hp])
            have := pure' f p1 p2
            simp only [hev] at this
            exact ⟨this, key f p1 p2⟩

theorem look_spec {ans : List (Nat × Option Bool)} (hn : (ans.map (·.1)).Nodup) : ∀ p ∈ ans, look ans p.1 = p.2 := by
  induction ans with
  | nil => simp
  | cons q ans ih =>
    simp only [List.map_cons, List.nodup_cons] at hn
    intro p hp
    simp only [List.mem_cons] at hp
    by_cases hq : q.1 = p.1
    · rcases hp with rfl | hp
      · simp [look]
      · exact absurd (List.mem_map.mpr ⟨p, hp, hq.symm⟩) hn.1
    · rcases hp with rfl | hp
      · exact absurd rfl hq
      · have := ih hn.2 p hp
        simp only [look, List.find?_cons, beq_eq_false_iff_ne.mpr hq] at this ⊢
        exact this

theorem resolver_append (us : List Nat) (x : Event) : resolver (us.map Event.unhandled ++ [x]) = resolver [x] := by
  unfold resolver
  induction us with
  | nil => rfl
  | cons u us ih => simpa using ih

/-- The storage of a mock. -/
theorem Good.storage {tr : Trace (Seen α)} {s : Store α} (h : Good rank srank tr s) {m : Nat} {es : List Nat}
    (hes : s.w.colls[m]? = some es) :
    (∀ e ∈ es.reverse, ∃ x, s.w.exps[e]? = some x ∧ x.alive = true ∧ x.coll = m) ∧
    YoungestFirst (fun e => tr.live e ∧ ∃ d, tr.decl e = some d ∧ d.mock = m) es.reverse := by
  have hv := h.reach.view
  have hc : es.reverse = ((abs s.w).candidates m).map (·.id) := by
    rw [hv.1.colls m es hes]
    simp [Spec.State.candidates, List.map_reverse]
  constructor
  · intro e he
    rw [hc, List.mem_map] at he
    obtain ⟨y, hy, rfl⟩ := he
    obtain ⟨h1, h2, h3⟩ := candidates_mem.mp hy
    obtain ⟨x, hx, hxy⟩ := (abs_mem_iff _ _).mp h1
    exact ⟨x, hx, by rw [hxy] at h2; exact h2, by rw [hxy] at h3; exact h3⟩
  · rw [hc]
    exact youngestFirst_map (hv.2.candidates_sorted m) (hv.2.candidates_iff m)

/-- A call of a mock comes to the same result as in the flat history. -/
theorem call_ok (fuel : Nat) (held : List Nat) (R : Nat) (hh : ∀ k ∈ held, R ≤ rank k) :
    RecOk rank srank R (call fuel held : Rec α) := by
  induction fuel generalizing held R with
  | zero =>
    intro tr s m a h hm
    refine ⟨fun x hx => ?_, by simp [call]⟩
    simp only [call, Except.error.injEq] at hx
    exact ⟨_, hx.symm⟩
  | succ fuel ih =>
    intro tr s m a h hm
    have hnot : held.contains m = false := by
      cases hc : held.contains m with
      | false => rfl
      | true =>
        have := hh m (by simpa using hc)
        omega
    simp only [call, hnot, Bool.false_eq_true, if_false]
    cases hes : s.w.colls[m]? with
    | none => exact ⟨fun x hx => by simp only [Except.error.injEq] at hx; exact ⟨_, hx.symm⟩, by simp⟩
    | some es =>
      simp only
      obtain ⟨t1, t2⟩ := h.storage hes
      have hrec := ih (m :: held) (rank m) (by
        intro k hk
        simp only [List.mem_cons] at hk
        rcases hk with rfl | hk
        · exact Nat.le_refl _
        · have := hh k hk; omega)
      obtain ⟨r1, r2⟩ := scan_ok (a := a) hrec h t1
      cases hsc : scan (call fuel (m :: held)) a s es.reverse with
      | error y =>
        refine ⟨fun z hz => ?_, by simp⟩
        simp only [Except.error.injEq] at hz
        exact hz ▸ r1 y hsc
      | ok v =>
        obtain ⟨s₁, t₁, r, ans⟩ := v
        obtain ⟨g1, g2, g3, g4⟩ := r2 s₁ t₁ r ans hsc
        have hnd : (ans.map (·.1)).Nodup := by
          rw [g3]
          exact t2.1.imp (fun h => by omega)
        obtain ⟨p1, p2⟩ := g4 (look ans) (look_spec hnd)
        have hm1 : s₁.w.colls[m]? = some es := by rw [g2.colls]; exact hes
        have hlt : m < s₁.w.colls.length := (List.getElem?_eq_some_iff.mp hm1).1
        obtain ⟨w', hw', _, _⟩ := g1.reach.view.1.handleCall hlt (a, look ans)
        have hw : s₁.w.handleCall m (a, look ans) = .ok (w', ((abs s₁.w).call m (a, look ans)).2) := hw'
        revert hw
        generalize ((abs s₁.w).call m (a, look ans)).2 = out
        obtain ⟨ev, res⟩ := out
        intro hw
        have fin : Good rank srank (tr ++ (t₁ ++ [(.call m (a, look ans), ev)])) { s₁ with w := w' } ∧
            Frame rank srank (rank m + 1) s { s₁ with w := w' } := by
          obtain ⟨q1, q2⟩ := g1.call hw
          exact ⟨by rw [← List.append_assoc]; exact q1, (g2.mono (Nat.le_succ _)).trans q2⟩
        have made : Made s.matchers tr m a (t₁ ++ [(.call m (a, look ans), ev)]) (resolver ev) := .call t2 p2
        have hw2 := hw
        simp only [World.handleCall, hm1, p1, bind, Except.bind, pure, Except.pure] at hw
        simp only
        by_cases hfull : r.full.isEmpty
        · simp only [hfull, Bool.not_true, Bool.false_eq_true, if_false] at hw ⊢
          by_cases hin : r.inapplicable.isEmpty
          · simp only [hin, Bool.not_true, Bool.false_eq_true, if_false, Except.ok.injEq, Prod.mk.injEq] at hw ⊢
            obtain ⟨rfl, rfl, rfl⟩ := hw
            refine ⟨by simp, fun s' new res he => ?_⟩
            obtain ⟨rfl, rfl, rfl⟩ := he
            refine ⟨fin.1, fin.2, ?_⟩
            have := made
            rw [resolver_append] at this
            exact this
          · simp only [hin, Bool.not_false, if_true, Except.ok.injEq, Prod.mk.injEq] at hw ⊢
            obtain ⟨rfl, rfl, rfl⟩ := hw
            refine ⟨by simp, fun s' new res he => ?_⟩
            obtain ⟨rfl, rfl, rfl⟩ := he
            refine ⟨fin.1, fin.2, ?_⟩
            have := made
            rw [resolver_append] at this
            exact this
        · simp only [hfull, Bool.not_false, if_true] at hw ⊢
          cases hb : pickBestMatch r.full with
          | error y => simp [hb] at hw
          | ok best =>
            simp only [hb] at hw ⊢
            cases hcs : s₁.w.consume best.exp with
            | error y => simp [hcs] at hw
            | ok w₂ =>
              simp only [hcs, Except.ok.injEq, Prod.mk.injEq] at hw ⊢
              obtain ⟨rfl, rfl, rfl⟩ := hw
              refine ⟨by simp, fun s' new res he => ?_⟩
              obtain ⟨rfl, rfl, rfl⟩ := he
              refine ⟨fin.1, fin.2, ?_⟩
              have := made
              rw [resolver_append] at this
              exact this

end Mimic.Nested
