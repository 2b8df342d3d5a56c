import Verif.Proofs.ConcurrentGuard

/-!
# Helper lemmas about schedules: separate calls behave as in one thread
-/

set_option autoImplicit false

namespace Mimic

variable {α : Type}

variable {asserts : Bool} {n m : Nat} {tr : KTrace α} {kw : KWorld α}

/-! ### Separate schedules -/

theorem KTrace.Separate.left {x : KEntry α} (h : KTrace.Separate (tr ++ [x])) : tr.Separate :=
  fun p y hp => h p y (hp.trans (List.prefix_append _ _))

theorem KTrace.Separate.last {x : KEntry α} (h : KTrace.Separate (tr ++ [x])) {t c e : Nat} (hf : tr.flight t = some (c, e)) :
    (∀ a, x.act ≠ .scan c a) ∧ x.act ≠ .remove e := h tr x (List.prefix_refl _) t c e hf

theorem separate_one (h : KReach asserts n m tr kw) (hs : tr.Separate) {t₁ t₂ c₁ c₂ e : Nat} (h1 : tr.flight t₁ = some (c₁, e))
    (h2 : tr.flight t₂ = some (c₂, e)) : t₁ = t₂ := by
  induction h generalizing t₁ t₂ c₁ c₂ e with
  | init => simp [KTrace.flight] at h1
  | @step tr kw kw' t act log h hst ih =>
    have hsep := hs.left
    have hm := kmove h.inv.ok hst
    rw [kflight_snoc] at h1 h2
    cases hm with
    | @hit c e' a es rest hl hc hf =>
      simp only [flightStep] at h1 h2
      by_cases ht1 : t = t₁
      · by_cases ht2 : t = t₂
        · omega
        · rw [if_neg ht2] at h2
          rw [if_pos ht1] at h1
          simp only [Option.map_some, Option.some.injEq, Prod.mk.injEq] at h1
          obtain ⟨d, hd, hdm⟩ := flight_decl h h2
          obtain ⟨_, d', hd', hdm'⟩ := (h.stored hc e').mp (fulls_mem hf)
          rw [h1.2, hd, Option.some.injEq] at hd'
          rw [← hd', hdm] at hdm'
          exact absurd (by rw [hdm']) ((hs.last h2).1 a)
      · rw [if_neg ht1] at h1
        by_cases ht2 : t = t₂
        · rw [if_pos ht2] at h2
          simp only [Option.map_some, Option.some.injEq, Prod.mk.injEq] at h2
          obtain ⟨d, hd, hdm⟩ := flight_decl h h1
          obtain ⟨_, d', hd', hdm'⟩ := (h.stored hc e').mp (fulls_mem hf)
          rw [h2.2, hd, Option.some.injEq] at hd'
          rw [← hd', hdm] at hdm'
          exact absurd (by rw [hdm']) ((hs.last h1).1 a)
        · rw [if_neg ht2] at h2
          exact ih hsep h1 h2
    | _ =>
      simp only [flightStep] at h1 h2
      exact ih hsep (c₁ := c₁) (c₂ := c₂) (e := e) (by grind) (by grind)

theorem KTrace.Separate.exclusive (h : KReach asserts n m tr kw) (hs : tr.Separate) : tr.Exclusive := by
  intro p hp t₁ t₂ c₁ c₂ e h1 h2
  have hp' : tr.take p.length = p := by
    obtain ⟨r, rfl⟩ := hp
    simp
  obtain ⟨k1, hk1⟩ := h.take p.length
  rw [hp'] at hk1
  exact separate_one hk1 (fun q y hq => hs q y (hq.trans hp)) h1 h2

/-- Calls in flight keep their expectation. -/
theorem separate_live (h : KReach asserts n m tr kw) (hs : tr.Separate) {t c e : Nat} (hf : tr.flight t = some (c, e)) :
    Event.destroyed e ∉ tr.events := by
  induction h generalizing t c e with
  | init => simp [KTrace.flight] at hf
  | @step tr kw kw' t' act log h hst ih =>
    have hsep := hs.left
    have hm := kmove h.inv.ok hst
    rw [kflight_snoc] at hf
    rw [kevents_snoc]
    have ih := fun {t c} => ih hsep (t := t) (c := c) (e := e)
    cases hm with
    | @hit c' e' a es rest hl hc hfu =>
      simp only [flightStep] at hf
      have hlive := ((h.stored hc e').mp (fulls_mem hfu)).1.2
      by_cases ht : t' = t
      · grind
      · have := @ih t c (by grind)
        grind
    | @remove e' x es hl hr hx hal hes hmem =>
      simp only [flightStep, ite_self] at hf
      have := (hs.last hf).2
      have := ih hf
      grind
    | _ =>
      simp only [flightStep] at hf
      have := @ih t c (by grind)
      grind

/-- No step of a separate schedule is undefined. -/
theorem separate_not_bad (h : KReach asserts n m tr kw) (hs : tr.Separate) (t : Nat) (act : KAct α) : ¬ tr.bad asserts t act := by
  rintro ⟨_, c, e, d, hp, hd, hb⟩
  have hf : tr.flight t = some (c, e) := by rw [h.flight_phase, hp]; rfl
  have hlive := separate_live h hs hf
  obtain ⟨x, hx, rfl⟩ := h.decl_some.mp hd
  have ht : t < n := by
    rcases Nat.lt_or_ge t n with ht | ht
    · exact ht
    · rw [h.phase_out ht] at hp; simp at hp
  have hl := h.phase_iff.mpr ⟨ht, hp⟩
  have hpos : 0 < kw.threads.countP (Local.busyWith e) :=
    List.countP_pos_iff.mpr ⟨_, List.mem_iff_getElem?.mpr ⟨t, hl⟩, by simp [Local.busyWith, Local.call]⟩
  have hlim := klimit h (hs.exclusive h) hx
  have hcnt : x.control.count = tr.counted e := h.inv.count e x hx
  have hmax := (h.inv.limits e x hx).2.2
  simp only [intMax] at hmax
  simp only [declOf] at hb
  rcases hb with hb | ⟨_, hb⟩ | hb
  · obtain ⟨y, hy, hya⟩ := (h.released e).mp hb
    exact hlive ((h.inv.gone e y hy).mpr (Or.inl hya))
  · omega
  · omega

theorem separate_idle (h : KReach asserts n m tr kw) {c : Nat} (hno : ∀ t e, tr.flight t ≠ some (c, e)) {e : Nat} {d : Decl α}
    (hd : tr.decl e = some d) (hdm : d.mock = c) : kw.threads.countP (Local.busyWith e) = 0 := by
  rw [List.countP_eq_zero]
  intro l hl hb
  obtain ⟨t, ht⟩ := List.mem_iff_getElem?.mp hl
  have hf := h.inv.flight t l ht
  simp only [KTrace.sum] at hf
  simp only [Local.busyWith] at hb
  cases hc : l.call with
  | none => simp [hc] at hb
  | some p =>
    obtain ⟨c', e'⟩ := p
    simp only [hc, beq_iff_eq] at hb
    subst hb
    rw [hc] at hf
    obtain ⟨d', hd', hdm'⟩ := flight_decl h hf
    rw [hd, Option.some.injEq] at hd'
    subst hd'
    rw [← hdm', hdm] at hf
    exact hno t _ hf

/-! ### The settled world -/

/-- The expectation after all calls in flight have been counted and withdrawn expectations have been destroyed. -/
def settle (ls : List Local) (e : Nat) (x : Exp α) : Exp α :=
  { x with control := { x.control with count := x.control.count + ls.countP (Local.busyWith e) },
           alive := x.alive && !ls.contains (.removed e) }

structure Settled (kw : KWorld α) (w : World α) : Prop where
  seqs : w.seqs = []
  colls : w.colls = kw.w.colls
  exps : ∀ e : Nat, w.exps[e]? = (kw.w.exps[e]?).map (settle kw.threads e)

theorem Settled.length {w : World α} (h : Settled kw w) : w.exps.length = kw.w.exps.length := by
  have h1 := h.exps w.exps.length
  have h2 := h.exps kw.w.exps.length
  rw [List.getElem?_eq_none (Nat.le_refl _)] at h1
  rw [List.getElem?_eq_none (Nat.le_refl kw.w.exps.length)] at h2
  have h3 : kw.w.exps.length ≤ w.exps.length := by
    cases hk : kw.w.exps[w.exps.length]? with
    | none => simpa using hk
    | some x => rw [hk] at h1; simp at h1
  have h4 : w.exps.length ≤ kw.w.exps.length := by simpa using h2
  omega

theorem expect_closed (w : World α) (c : Nat) (mn mx : Int) (ps : List (Policy α)) :
    w.step (.expect c mn mx [] ps) =
      match w.colls[c]? with
      | none => .error (.client "expectation on a non-existing mock")
      | some es =>
        if isInt mn && isInt mx then
          if mn < 0 ∨ mx < 0 ∨ mx < mn then .ok (w, [.rejected])
          else if es.contains w.exps.length then .error (.ub "push: assert(find == end)")
          else .ok ({ seqs := w.seqs, exps := w.exps ++ [plainExp c mn mx ps], colls := w.colls.set c (es ++ [w.exps.length]) },
            [.created w.exps.length])
        else .error (.client "in_sequence with a dead sequence object, or a limit that is no int") := by
  have hmk : ∀ t : TimesConfig, Control.make t [] w.seqs = .ok (w.seqs, ⟨t.min, t.max, 0, []⟩) := by
    intro t
    simp only [Control.make, makeSequenceEntries, Control.updateSequenceStates, forEntries, bind, Except.bind, pure,
      Except.pure]
    split <;> rename_i heq
    · split at heq
      · simp at heq
      · split at heq <;> simp at heq
    · grind
  have hsc : seqConfig [] = some [] := rfl
  simp only [World.step, World.expect]
  cases hes : w.colls[c]? with
  | none => rfl
  | some es =>
    simp only [List.all_nil, Bool.true_and]
    split
    · rename_i hint
      by_cases hc : mn < 0 ∨ mx < 0 ∨ mx < mn
      · simp [TimesConfig.make, hc, pure, Except.pure]
      · simp only [TimesConfig.make, hc, if_false, hsc, hmk, bind, Except.bind, pure, Except.pure, check]
        cases hcc : es.contains w.exps.length <;> simp [plainExp]
    · rfl

theorem lookE_settled {w : World α} (h : Settled kw w) {e : Nat} (hz : kw.threads.countP (Local.busyWith e) = 0) (a : α) :
    lookE w a e = lookE kw.w a e := by
  simp only [lookE, h.exps e, Option.map_map]
  congr 1
  funext x
  simp [look, settle, hz]

/-- A call in one thread in closed form. -/
theorem call_closed {w : World α} {c : Nat} {a : α} {es : List Nat} (hc : w.colls[c]? = some es)
    (hes : ∀ e ∈ es, ∃ x, w.exps[e]? = some x ∧ x.alive = true ∧ x.control.entries = []) :
    w.step (.call c a) =
      let thrown := (es.reverse.filter (fun e => lookE w a e == some .thrown)).map Event.unhandled
      match fulls w a es with
      | e :: _ => (w.consume e).map (fun w' => (w', thrown ++ [.fullMatch e]))
      | [] =>
        let inap := es.reverse.filter (fun e => lookE w a e == some .inapplicable)
        if !inap.isEmpty then .ok (w, thrown ++ [.inapplicable inap])
        else .ok (w, thrown ++ [.noMatch (es.reverse.filter (fun e => lookE w a e == some .no))]) := by
  obtain ⟨r, h1, h2, h3, h4, h5, h6⟩ := scan_plain w a es.reverse (by simpa using hes)
  simp only [World.step, World.handleCall, hc, h1, bind, Except.bind, pure, Except.pure]
  have hf : fulls w a es = r.full.map (·.exp) := by rw [h2]; rfl
  rw [hf, h5, ← h3, ← h4]
  cases hfull : r.full with
  | cons q rs =>
    simp only [List.isEmpty_cons, Bool.not_false, if_true, pickBestMatch, List.map_cons]
    rw [pickLoop_plain (h6 q (by simp [hfull])) (fun p hp => h6 p (by simp [hfull, hp]))]
    simp only
    cases w.consume q.exp <;> rfl
  | nil =>
    simp only [List.isEmpty_nil, Bool.not_true, Bool.false_eq_true, if_false, List.map_nil, List.isEmpty_map]
    cases r.inapplicable.isEmpty <;> rfl

theorem serial_snoc (m : Nat) (tr : KTrace α) (x : KEntry α) : KTrace.serial m (tr ++ [x]) = tr.serial m ++ x.serial := by
  simp [KTrace.serial]

theorem Reach.mocks (m : Nat) : Reach (α := α) ((List.range m).map (fun c => (Op.newMock, [Event.mockCreated c])))
    { seqs := [], exps := [], colls := List.replicate m [] } := by
  induction m with
  | zero => exact .init
  | succ m ih =>
    rw [List.range_succ, List.map_append]
    have hs : World.step (α := α) { seqs := [], exps := [], colls := List.replicate m [] } .newMock =
        .ok ({ seqs := [], exps := [], colls := List.replicate (m + 1) [] }, [.mockCreated m]) := by
      simp [World.step, List.replicate_succ']
    exact .step ih hs

/-- Threads that move without starting or ending a call or a withdrawal. -/
theorem settle_same {ls ls' : List Local} {e : Nat} (h1 : ls'.countP (Local.busyWith e) = ls.countP (Local.busyWith e))
    (h2 : Local.removed e ∈ ls' ↔ Local.removed e ∈ ls) : settle (α := α) ls' e = settle ls e := by
  funext x
  simp only [settle, h1]
  have : ls'.contains (Local.removed e) = ls.contains (Local.removed e) := by
    rw [Bool.eq_iff_iff]
    simpa using h2
  rw [this]

theorem kserial (h : KReach asserts n m tr kw) (hs : tr.Separate) : ∃ w, Reach (tr.serial m) w ∧ Settled kw w := by
  induction h with
  | init =>
    refine ⟨{ seqs := [], exps := [], colls := List.replicate m [] }, by simpa [KTrace.serial] using Reach.mocks m, rfl, rfl, ?_⟩
    intro e
    simp [KWorld.init]
  | @step tr kw kw' t act log h hst ih =>
    obtain ⟨w, hr, hw⟩ := ih hs.left
    have hsep : ∀ {t' c e : Nat}, tr.flight t' = some (c, e) → (∀ a, act ≠ .scan c a) ∧ act ≠ .remove e := fun hf => hs.last hf
    have hm := kmove h.inv.ok hst
    rw [serial_snoc]
    have hes : ∀ {c : Nat} {a : α} {es : List Nat}, act = .scan c a → kw.w.colls[c]? = some es → ∀ e ∈ es,
        kw.threads.countP (Local.busyWith e) = 0 ∧ ∃ x, w.exps[e]? = some x ∧ x.alive = true ∧ x.control.entries = [] ∧
          ∃ y, kw.w.exps[e]? = some y ∧ x = settle kw.threads e y := by
      intro c a es ha hc e he
      obtain ⟨⟨_, hg⟩, d, hd, hdm⟩ := (h.stored hc e).mp he
      obtain ⟨y, hy, hyd⟩ := h.decl_some.mp hd
      have hz := separate_idle h (fun t e' hf => (hsep hf).1 a ha) hd hdm
      refine ⟨hz, settle kw.threads e y, by rw [hw.exps, hy]; rfl, ?_, ?_, y, hy, rfl⟩
      · have := h.inv.gone e y hy
        simp only [KTrace.sum] at this
        simp only [settle]
        cases hal : y.alive
        · exact absurd (this.mpr (Or.inl hal)) hg
        · have : ¬ Local.removed e ∈ kw.threads := fun hh => hg (this.mpr (Or.inr hh))
          simp [this]
      · exact h.inv.plain e y hy
    have hlook : ∀ {c : Nat} {a : α} {es : List Nat}, act = .scan c a → kw.w.colls[c]? = some es → ∀ e ∈ es,
        lookE w a e = lookE kw.w a e := fun ha hc e he => lookE_settled hw (hes ha hc e he).1 _
    have hfilter : ∀ {c : Nat} {a : α} {es : List Nat} (l : Look), act = .scan c a → kw.w.colls[c]? = some es →
        es.reverse.filter (fun e => lookE w a e == some l) = es.reverse.filter (fun e => lookE kw.w a e == some l) := by
      intro c a es l ha hc
      apply List.filter_congr
      intro e he
      rw [hlook ha hc e (by simpa using he)]
    cases hm with
    | @rejected c mn mx ps hl =>
      have hk : kw.w.step (.expect c mn mx [] ps) = .ok (kw.w, [.rejected]) := by
        simp only [KWorld.step, hl, if_true, bind, Except.bind, pure, Except.pure] at hst
        split at hst
        · simp at hst
        · rename_i r hr
          obtain ⟨w', ev⟩ := r
          simp only at hst
          by_cases hev : ev = [.rejected]
          · rw [if_pos hev] at hst
            simp only [Except.ok.injEq, Prod.mk.injEq] at hst
            rw [hr, hev, ← hst.1]
          · rw [if_neg hev] at hst
            simp only [Except.ok.injEq, Prod.mk.injEq, KLog.mk.injEq] at hst
            exact absurd hst.2.1 hev
      refine ⟨w, .step hr ?_, hw⟩
      rw [expect_closed] at hk ⊢
      rw [hw.colls, hw.length]
      simp only
      split at hk
      · simp at hk
      · rename_i es hces
        split at hk
        · rename_i hint
          rw [if_pos hint]
          split at hk
          · rename_i hb
            rw [if_pos hb]
          · split at hk <;> simp at hk
        · simp at hk
    | @create c mn mx ps es hl hc h0 h1 h2 =>
      have hk : ∃ w' ev, kw.w.step (.expect c mn mx [] ps) = .ok (w', ev) := by
        simp only [KWorld.step, hl, if_true, bind, Except.bind, pure, Except.pure] at hst
        split at hst
        · simp at hst
        · rename_i r hr
          exact ⟨r.1, r.2, hr⟩
      obtain ⟨w1, ev1, hk⟩ := hk
      have hnew : ¬ kw.w.exps.length ∈ es := by
        intro hh
        obtain ⟨x, hx, _⟩ := h.inv.ok.stored c es hc _ hh
        simp at hx
      rw [expect_closed, hc] at hk
      simp only at hk
      have hint : (isInt mn && isInt mx) = true := by
        cases hh : (isInt mn && isInt mx) with
        | true => rfl
        | false => rw [hh] at hk; simp at hk
      refine ⟨{ seqs := w.seqs, exps := w.exps ++ [plainExp c mn mx ps], colls := w.colls.set c (es ++ [w.exps.length]) },
        .step hr ?_, ?_⟩
      · simp only
        rw [expect_closed, hw.colls, hc]
        simp only
        rw [if_pos hint, if_neg (by omega), hw.length]
        simp [hnew]
      · refine ⟨hw.seqs, by simp [hw.colls, hw.length], ?_⟩
        intro e
        simp only
        rcases Nat.lt_trichotomy e kw.w.exps.length with hlt | heq | hgt
        · rw [List.getElem?_append_left (by rw [hw.length]; exact hlt), List.getElem?_append_left hlt]
          exact hw.exps e
        · subst heq
          have hz : kw.threads.countP (Local.busyWith kw.w.exps.length) = 0 := by
            rw [List.countP_eq_zero]
            intro l hl' hb
            obtain ⟨i, hi⟩ := List.mem_iff_getElem?.mp hl'
            simp only [Local.busyWith] at hb
            split at hb
            · rename_i c' e' hc'
              obtain ⟨x, hx, _⟩ := h.inv.pending i l c' e' hi hc'
              simp only [beq_iff_eq] at hb
              subst hb
              simp at hx
            · simp at hb
          have hnr : ¬ Local.removed kw.w.exps.length ∈ kw.threads := by
            intro hh
            obtain ⟨x, hx, _⟩ := h.inv.removing _ hh
            simp at hx
          rw [← hw.length, List.getElem?_concat_length, hw.length, List.getElem?_concat_length]
          simp [settle, hz, hnr, plainExp]
        · rw [List.getElem?_eq_none (by simp [hw.length]; omega), List.getElem?_eq_none (by simp; omega)]
          rfl
    | @hit c e a es rest hl hc hf =>
      obtain ⟨hz, x, hx, hal, hen, y, hy, hxy⟩ := hes rfl hc e (fulls_mem hf)
      have hcl := call_closed (w := w) (c := c) (a := a) (es := es) (by rw [hw.colls]; exact hc)
        (fun e he => by obtain ⟨_, x, h1, h2, h3, _⟩ := hes rfl hc e he; exact ⟨x, h1, h2, h3⟩)
      have hff : fulls w a es = e :: rest := by rw [← hf]; exact hfilter .full rfl hc
      rw [hff] at hcl
      simp only [hfilter .thrown rfl hc] at hcl
      have hcnt : x.control.count = y.control.count := by rw [hxy]; simp [settle, hz]
      have hmax : x.control.max = y.control.max := by rw [hxy]; rfl
      have hle := klimit h (hs.left.exclusive h) hy
      have hne : y.control.count ≠ y.control.max := by
        have : e ∈ fulls kw.w a es := by rw [hf]; simp
        simp only [fulls, List.mem_filter, beq_iff_eq] at this
        have hlook := this.2
        simp only [lookE, hy, Option.map_some, look, Option.some.injEq] at hlook
        grind
      have hnn : 0 ≤ y.control.count := by rw [h.inv.count e y hy]; omega
      have hlim := h.inv.limits e y hy
      have hcons := consume_plain true hx hen (by omega)
      simp only [World.consumeIn, if_true, hal] at hcons
      rw [if_neg (by omega), if_pos (by omega)] at hcons
      rw [hcons] at hcl
      refine ⟨_, .step hr hcl, hw.seqs, hw.colls, ?_⟩
      intro e'
      simp only [KWorld.at]
      have hb := countP_set (p := Local.busyWith e') hl (b := .matched c e)
      have hrm : Local.removed e' ∈ kw.threads.set t (.matched c e) ↔ Local.removed e' ∈ kw.threads :=
        mem_set_ne hl (by simp) (by simp)
      have hlt : e < w.exps.length := (List.getElem?_eq_some_iff.mp hx).1
      by_cases hee : e = e'
      · subst hee
        have hb' : (kw.threads.set t (.matched c e)).countP (Local.busyWith e) = 1 := by
          have : Local.busyWith e Local.idle = false := rfl
          simp only [this] at hb
          have : Local.busyWith e (Local.matched c e) = true := by simp [Local.busyWith, Local.call]
          simp only [this] at hb
          simp at hb
          omega
        rw [List.getElem?_set, if_pos rfl, if_pos hlt, hy, hxy]
        simp only [Option.map_some, Option.some.injEq]
        simp [settle, countUp, hz, hb', hrm]
      · rw [List.getElem?_set, if_neg hee, hw.exps e']
        rw [settle_same ?_ hrm]
        have : Local.busyWith e' Local.idle = false := rfl
        simp only [this] at hb
        have : Local.busyWith e' (Local.matched c e) = false := by simp [Local.busyWith, Local.call, hee]
        simp only [this] at hb
        simpa using hb
    | @inapplicable c a es hl hc hf hn =>
      have hcl := call_closed (w := w) (c := c) (a := a) (es := es) (by rw [hw.colls]; exact hc)
        (fun e he => by obtain ⟨_, x, h1, h2, h3, _⟩ := hes rfl hc e he; exact ⟨x, h1, h2, h3⟩)
      have hff : fulls w a es = [] := by rw [← hf]; exact hfilter .full rfl hc
      rw [hff] at hcl
      simp only [hfilter .thrown rfl hc, hfilter .inapplicable rfl hc] at hcl
      rw [if_pos (by simpa using hn)] at hcl
      exact ⟨w, .step hr hcl, hw⟩
    | @noMatch c a es hl hc hf hn =>
      have hcl := call_closed (w := w) (c := c) (a := a) (es := es) (by rw [hw.colls]; exact hc)
        (fun e he => by obtain ⟨_, x, h1, h2, h3, _⟩ := hes rfl hc e he; exact ⟨x, h1, h2, h3⟩)
      have hff : fulls w a es = [] := by rw [← hf]; exact hfilter .full rfl hc
      rw [hff] at hcl
      simp only [hfilter .thrown rfl hc, hfilter .inapplicable rfl hc, hfilter .no rfl hc, hn] at hcl
      rw [if_neg (by simp)] at hcl
      exact ⟨w, .step hr hcl, hw⟩
    | @report c e hl =>
      refine ⟨w, by simpa [KEntry.serial] using hr, hw.seqs, hw.colls, ?_⟩
      intro e'
      simp only [KWorld.at]
      rw [settle_same ?_ (mem_set_ne hl (by simp) (by simp))]
      · exact hw.exps e'
      · exact Nat.add_right_cancel (countP_set (p := Local.busyWith e') hl (b := .reported c e))
    | @consume c e y hl hy hal ho ha =>
      refine ⟨w, by simpa [KEntry.serial] using hr, hw.seqs, hw.colls, ?_⟩
      intro e'
      simp only [KWorld.at]
      have hb := countP_set (p := Local.busyWith e') hl (b := .idle)
      have hrm : Local.removed e' ∈ kw.threads.set t .idle ↔ Local.removed e' ∈ kw.threads :=
        mem_set_ne hl (by simp) (by simp)
      have hid : Local.busyWith e' Local.idle = false := rfl
      simp only [hid] at hb
      have hlt : e < kw.w.exps.length := (List.getElem?_eq_some_iff.mp hy).1
      by_cases hee : e = e'
      · subst hee
        have : Local.busyWith e (Local.reported c e) = true := by simp [Local.busyWith, Local.call]
        simp only [this] at hb
        simp at hb
        rw [hw.exps, hy, List.getElem?_set, if_pos rfl, if_pos hlt]
        simp only [Option.map_some, Option.some.injEq, settle, countUp, List.contains_eq_mem, hrm]
        rw [← hb]
        congr 2
        omega
      · have : Local.busyWith e' (Local.reported c e) = false := by simp [Local.busyWith, Local.call, hee]
        simp only [this] at hb
        rw [List.getElem?_set, if_neg hee, settle_same (by simpa using hb) hrm]
        exact hw.exps e'
    | @remove e y es hl hrem hy hal hc hmem =>
      have hd : tr.decl e = some (declOf y) := h.decl_some.mpr ⟨y, hy, rfl⟩
      have hz : kw.threads.countP (Local.busyWith e) = 0 := by
        rw [List.countP_eq_zero]
        intro l hl' hb
        obtain ⟨i, hi⟩ := List.mem_iff_getElem?.mp hl'
        have hf := h.inv.flight i l hi
        simp only [Local.busyWith] at hb
        cases hcc : l.call with
        | none => simp [hcc] at hb
        | some p =>
          obtain ⟨c', e'⟩ := p
          simp only [hcc, beq_iff_eq] at hb
          subst hb
          rw [hcc] at hf
          exact absurd rfl (hsep hf).2
      have hx : w.exps[e]? = some y := by
        rw [hw.exps, hy]
        simp only [Option.map_some, Option.some.injEq, settle, hz]
        have : kw.threads.contains (Local.removed e) = false := by simpa using hrem
        simp [hrem]
      have hstep : w.step (.destroy e) = .ok ({ w with colls := w.colls.set y.coll (es.erase e), exps := w.exps.set e { y with alive := false } },
          .destroyed e :: (if y.isSatisfied then [] else [.unfulfilled e])) := by
        simp only [World.step, World.destroyExp, hx, hal, Bool.not_true, Bool.false_eq_true, if_false, hw.colls, hc, bind,
          Except.bind, check, pure, Except.pure, h.inv.plain e y hy, List.map_nil, World.releaseAll]
        simp [hmem]
      refine ⟨_, .step hr hstep, hw.seqs, by simp [hw.colls, KWorld.at], ?_⟩
      intro e'
      simp only [KWorld.at]
      have hb := countP_set (p := Local.busyWith e') hl (b := .removed e)
      have hb : (kw.threads.set t (.removed e)).countP (Local.busyWith e') = kw.threads.countP (Local.busyWith e') := by
        have h1 : Local.busyWith e' Local.idle = false := rfl
        have h2 : Local.busyWith e' (Local.removed e) = false := rfl
        simp only [h1, h2] at hb
        simpa using hb
      have hlt : e < w.exps.length := (List.getElem?_eq_some_iff.mp hx).1
      by_cases hee : e = e'
      · subst hee
        have : Local.removed e ∈ kw.threads.set t (.removed e) := List.mem_iff_getElem?.mpr ⟨t, by grind⟩
        rw [List.getElem?_set, if_pos rfl, if_pos hlt, hy]
        simp only [Option.map_some, Option.some.injEq, settle, hb, hz]
        simp [this]
      · rw [List.getElem?_set, if_neg hee, settle_same hb (mem_set_ne hl (by simpa using fun hh => hee hh.symm) (by simp))]
        exact hw.exps e'
    | @release e hl =>
      refine ⟨w, by simpa [KEntry.serial] using hr, hw.seqs, hw.colls, ?_⟩
      intro e'
      simp only [KWorld.at]
      have hb : (kw.threads.set t .idle).countP (Local.busyWith e') = kw.threads.countP (Local.busyWith e') :=
        Nat.add_right_cancel (countP_set (p := Local.busyWith e') hl (b := .idle))
      rw [hw.exps, List.getElem?_modify]
      by_cases hee : e = e'
      · subst hee
        have hin : Local.removed e ∈ kw.threads := List.mem_iff_getElem?.mpr ⟨t, hl⟩
        cases kw.w.exps[e]? with
        | none => rfl
        | some x =>
          simp only [Option.map_some, if_true, Option.map_eq_map, Option.some.injEq, settle, hb]
          simp [hin]
      · rw [settle_same hb (mem_set_ne hl (by simp) (by simpa using fun hh => hee hh.symm))]
        cases kw.w.exps[e']? with
        | none => rfl
        | some x => simp [hee]
    | query hl hrem hy hal => exact ⟨w, by simpa [KEntry.serial] using hr, hw⟩
    | lock ht hk => exact ⟨w, by simpa [KEntry.serial] using hr, hw.seqs, hw.colls, hw.exps⟩
    | unlock hk => exact ⟨w, by simpa [KEntry.serial] using hr, hw.seqs, hw.colls, hw.exps⟩

end Mimic
