import Verif.Proofs.ConcurrentFacts

/-!
# Helper lemmas about schedules: calls, defined steps, limits
-/

set_option autoImplicit false

namespace Mimic

variable {α : Type}

variable {asserts : Bool} {n m : Nat} {tr : KTrace α} {kw : KWorld α}

theorem kscan_spec (h : KReach asserts n m tr kw) {kw' : KWorld α} {t c : Nat} {a : α} {log : KLog}
    (hs : kw.step asserts t (.scan c a) = .ok (kw', log)) :
    ∃ us, YoungestFirst (tr.throws c a) us ∧
      ((∃ e, log.chosen = some e ∧ log.ev = us.map Event.unhandled ∧ tr.candidate c a e ∧ ∀ e', tr.candidate c a e' → e' ≤ e) ∨
       (log.chosen = none ∧ (∀ e, ¬ tr.candidate c a e) ∧ (∃ e, tr.accepts c a e) ∧
          ∃ es, log.ev = us.map Event.unhandled ++ [.inapplicable es] ∧ YoungestFirst (tr.accepts c a) es) ∨
       (log.chosen = none ∧ (∀ e, ¬ tr.accepts c a e) ∧
          ∃ es, log.ev = us.map Event.unhandled ++ [.noMatch es] ∧
            YoungestFirst (fun e => (tr.live e ∧ ∃ d, tr.decl e = some d ∧ d.mock = c) ∧ ¬ tr.throws c a e) es)) := by
  have hm := kmove h.inv.ok hs
  generalize hact : KAct.scan c a = act at hm
  cases hm <;> simp only [KAct.scan.injEq, reduceCtorEq] at hact
  · rename_i c e a es rest hl hc hf
    obtain ⟨rfl, rfl⟩ := hact
    have hy := reverse_filter_youngest (f := fun e => lookE kw.w a e == some .full) (h.inv.sorted _ _ hc)
      (P := tr.candidate c a) (fun e => by rw [← (h.sees hc).2.1]; simp)
    refine ⟨_, reverse_filter_youngest (f := fun e => lookE kw.w a e == some .thrown) (h.inv.sorted _ _ hc)
      (fun e => by rw [← (h.sees hc).1]; simp), Or.inl ?_⟩
    refine ⟨e, rfl, rfl, ?_, ?_⟩
    · rw [← hy.2]
      show e ∈ fulls kw.w a es
      rw [hf]; simp
    · intro e' he'
      have hy1 := hy.1
      rw [← hy.2] at he'
      change e' ∈ fulls kw.w a es at he'
      change (fulls kw.w a es).Pairwise _ at hy1
      rw [hf] at he' hy1
      rcases List.mem_cons.mp he' with rfl | he'
      · exact Nat.le_refl _
      · exact Nat.le_of_lt (List.rel_of_pairwise_cons hy1 he')
  · rename_i c a es hl hc hf hn
    obtain ⟨rfl, rfl⟩ := hact
    have hno : ∀ e, ¬ tr.candidate c a e := by
      intro e he
      rw [← (h.sees hc).2.1] at he
      have : e ∈ fulls kw.w a es := by simp [fulls, he]
      rw [hf] at this
      simp at this
    have hy := reverse_filter_youngest (f := fun e => lookE kw.w a e == some .inapplicable) (h.inv.sorted _ _ hc)
      (P := tr.accepts c a) (fun e => by
        have := (h.sees hc (a := a) (e := e)).2.2.1
        have := hno e
        simp only [beq_iff_eq]
        grind)
    refine ⟨_, reverse_filter_youngest (f := fun e => lookE kw.w a e == some .thrown) (h.inv.sorted _ _ hc)
      (fun e => by rw [← (h.sees hc).1]; simp), Or.inr (Or.inl ?_)⟩
    refine ⟨rfl, hno, ?_, _, rfl, hy⟩
    obtain ⟨e, he⟩ := List.exists_mem_of_ne_nil _ hn
    exact ⟨e, (hy.2 e).mp he⟩
  · rename_i c a es hl hc hf hn
    obtain ⟨rfl, rfl⟩ := hact
    have hno : ∀ e, ¬ tr.accepts c a e := by
      intro e he
      by_cases hcand : tr.candidate c a e
      · rw [← (h.sees hc).2.1] at hcand
        have : e ∈ fulls kw.w a es := by simp [fulls, hcand]
        rw [hf] at this
        simp at this
      · have := (h.sees hc (a := a) (e := e)).2.2.1.mpr ⟨he, hcand⟩
        have : e ∈ es.reverse.filter (fun e => lookE kw.w a e == some .inapplicable) := by simp [this]
        rw [hn] at this
        simp at this
    refine ⟨_, reverse_filter_youngest (f := fun e => lookE kw.w a e == some .thrown) (h.inv.sorted _ _ hc)
      (fun e => by rw [← (h.sees hc).1]; simp), Or.inr (Or.inr ?_)⟩
    refine ⟨rfl, hno, _, rfl, reverse_filter_youngest (h.inv.sorted _ _ hc) (fun e => ?_)⟩
    have := (h.sees hc (a := a) (e := e)).2.2.2
    have := hno e
    simp only [beq_iff_eq]
    grind

theorem kstep_defined (h : KReach asserts n m tr kw) {t : Nat} {act : KAct α} (hv : tr.valid n m t act) :
    (¬ tr.bad asserts t act → ∃ kw' log, kw.step asserts t act = .ok (kw', log)) ∧
    (tr.bad asserts t act → ∃ s, kw.step asserts t act = .error (.ub s)) := by
  have hlen := h.inv.len
  cases act with
  | expect c mn mx ps =>
    obtain ⟨ht, hp, hc, hmn, hmx⟩ := hv
    have hidle := h.phase_iff.mpr ⟨ht, hp⟩
    obtain ⟨es, hes⟩ := h.colls hc
    refine ⟨fun _ => ?_, fun hb => by simp [KTrace.bad] at hb⟩
    have hst : ∃ w' ev, kw.w.step (.expect c mn mx [] ps) = .ok (w', ev) := by
      have hmk : ∀ t : TimesConfig, Control.make t [] kw.w.seqs = .ok (kw.w.seqs, ⟨t.min, t.max, 0, []⟩) := by
        intro t
        simp only [Control.make, makeSequenceEntries, Control.updateSequenceStates, forEntries, bind, Except.bind, pure,
          Except.pure]
        split <;> rename_i heq
        · split at heq
          · simp at heq
          · split at heq <;> simp at heq
        · grind
      have hsc : seqConfig [] = some [] := rfl
      simp only [World.step, World.expect, hes]
      rw [if_pos (by simp [isInt, intMin, intMax, hmn, hmx])]
      cases ht : TimesConfig.make mn mx with
      | none => exact ⟨_, _, rfl⟩
      | some tc =>
        simp only [hsc, hmk, bind, Except.bind, pure, Except.pure]
        have hnew : ¬ kw.w.exps.length ∈ es := by
          intro hh
          obtain ⟨x, hx, _⟩ := h.inv.ok.stored c es hes _ hh
          simp at hx
        simp [check, hnew]
    obtain ⟨w', ev, hw⟩ := hst
    simp only [KWorld.step, hidle, if_true, hw, bind, Except.bind, pure, Except.pure]
    split <;> exact ⟨_, _, rfl⟩
  | scan c a =>
    obtain ⟨ht, hp, hc⟩ := hv
    have hidle := h.phase_iff.mpr ⟨ht, hp⟩
    obtain ⟨es, hes⟩ := h.colls hc
    refine ⟨fun _ => ?_, fun hb => by simp [KTrace.bad] at hb⟩
    rw [scan_step hidle hes (fun e he => by
      obtain ⟨x, hx, hal⟩ := h.inv.ok.stored c es hes e he
      exact ⟨x, hx, hal, h.inv.plain e x hx⟩)]
    simp only
    split
    · exact ⟨_, _, rfl⟩
    · split <;> exact ⟨_, _, rfl⟩
  | report =>
    obtain ⟨c, e, hp⟩ := hv
    have ht : t < n := by
      apply Nat.lt_of_not_le
      intro hh
      rw [h.phase_out hh] at hp
      simp at hp
    have hl := h.phase_iff.mpr ⟨ht, hp⟩
    refine ⟨fun _ => ?_, fun hb => by simp [KTrace.bad] at hb⟩
    simp only [KWorld.step, hl]
    exact ⟨_, _, rfl⟩
  | consume =>
    obtain ⟨c, e, hp⟩ := hv
    have ht : t < n := by
      apply Nat.lt_of_not_le
      intro hh
      rw [h.phase_out hh] at hp
      simp at hp
    have hl := h.phase_iff.mpr ⟨ht, hp⟩
    obtain ⟨x, hx, hxc⟩ := h.inv.pending t _ c e hl rfl
    have hcnt : x.control.count = tr.counted e := h.inv.count e x hx
    have hd : tr.decl e = some (declOf x) := h.decl_some.mpr ⟨x, hx, rfl⟩
    have hr := h.released e
    rw [hx] at hr
    simp only [Option.some.injEq, exists_eq_left'] at hr
    have hlim := h.inv.limits e x hx
    simp only [KWorld.step, hl, consume_plain asserts hx (h.inv.plain e x hx) (by rw [hcnt]; omega), bind, Except.bind, pure,
      Except.pure]
    have hbad : tr.bad asserts t .consume ↔
        (x.alive = false ∨ (asserts = true ∧ x.control.max ≤ x.control.count) ∨ x.control.count = 2147483647) := by
      simp only [KTrace.bad, hp, Local.reported.injEq, true_and, hr, hcnt]
      constructor
      · rintro ⟨c', e', d, ⟨rfl, rfl⟩, hd', hh⟩
        rw [hd, Option.some.injEq] at hd'
        subst hd'
        rwa [hr] at hh
      · intro hh
        exact ⟨c, e, _, ⟨rfl, rfl⟩, hd, by rwa [hr]⟩
    rw [hbad]
    cases hal : x.alive with
    | false => simp
    | true =>
      simp only [if_true]
      by_cases h1 : asserts = true ∧ ¬ x.control.count < x.control.max
      · rw [if_pos h1]
        constructor
        · intro hh; exact absurd (Or.inr (Or.inl ⟨h1.1, by omega⟩)) hh
        · intro _; exact ⟨_, rfl⟩
      · rw [if_neg h1]
        by_cases hle : x.control.count + 1 ≤ intMax
        · rw [if_pos hle]
          simp only [intMax] at hle
          refine ⟨fun _ => ⟨_, _, rfl⟩, ?_⟩
          rintro (hh | ⟨h2, h3⟩ | hh)
          · simp at hh
          · exact absurd ⟨h2, by omega⟩ h1
          · omega
        · rw [if_neg hle]
          refine ⟨?_, fun _ => ⟨_, rfl⟩⟩
          intro hh
          exfalso
          apply hh
          right; right
          have := h.count_le e x hx
          simp only [intMax] at hle
          omega
  | remove e =>
    obtain ⟨ht, hp, ⟨d, hd⟩, hlv⟩ := hv
    have hidle := h.phase_iff.mpr ⟨ht, hp⟩
    obtain ⟨x, hx, rfl⟩ := h.decl_some.mp hd
    have hg := h.inv.gone e x hx
    have hg' : ¬ (x.alive = false ∨ Local.removed e ∈ kw.threads) := fun hh => hlv (hg.mpr hh)
    obtain ⟨es, hes⟩ := h.colls (h.inv.coll_lt e x hx)
    have hmem : e ∈ es := (h.stored hes e).mpr ⟨⟨⟨_, hd⟩, hlv⟩, _, hd, rfl⟩
    refine ⟨fun _ => ?_, fun hb => by simp [KTrace.bad] at hb⟩
    have hnr : ¬ Local.removed e ∈ kw.threads := fun hh => hg' (Or.inr hh)
    have hal : x.alive = true := by
      cases hh : x.alive with
      | true => rfl
      | false => exact absurd (Or.inl hh) hg'
    simp [KWorld.step, hidle, hnr, hx, hal, hes, hmem, check, bind, Except.bind, pure, Except.pure]
  | release =>
    obtain ⟨e, hp⟩ := hv
    have ht : t < n := by
      apply Nat.lt_of_not_le
      intro hh
      rw [h.phase_out hh] at hp
      simp at hp
    have hl := h.phase_iff.mpr ⟨ht, hp⟩
    refine ⟨fun _ => ?_, fun hb => by simp [KTrace.bad] at hb⟩
    simp only [KWorld.step, hl]
    exact ⟨_, _, rfl⟩
  | query e =>
    obtain ⟨ht, hp, ⟨d, hd⟩, hlv⟩ := hv
    have hidle := h.phase_iff.mpr ⟨ht, hp⟩
    obtain ⟨x, hx, rfl⟩ := h.decl_some.mp hd
    have hg := h.inv.gone e x hx
    have hg' : ¬ (x.alive = false ∨ Local.removed e ∈ kw.threads) := fun hh => hlv (hg.mpr hh)
    refine ⟨fun _ => ?_, fun hb => by simp [KTrace.bad] at hb⟩
    have hnr : ¬ Local.removed e ∈ kw.threads := fun hh => hg' (Or.inr hh)
    have hal : x.alive = true := by
      cases hh : x.alive with
      | true => rfl
      | false => exact absurd (Or.inl hh) hg'
    simp [KWorld.step, hidle, hnr, hx, hal]
  | lock k =>
    obtain ⟨ht, hk⟩ := hv
    refine ⟨fun _ => ?_, fun hb => by simp [KTrace.bad] at hb⟩
    simp only [KWorld.step]
    have hno : ∀ q ∈ kw.held, q.1 ≠ k := by
      rintro ⟨k', t'⟩ hh rfl
      have := (h.inv.held k' t').mp hh
      simp only [KTrace.sum] at this hk
      rw [hk] at this
      simp at this
    rw [if_pos ⟨by omega, hno⟩]
    exact ⟨_, _, rfl⟩
  | unlock k =>
    refine ⟨fun _ => ?_, fun hb => by simp [KTrace.bad] at hb⟩
    simp only [KWorld.step]
    rw [if_pos ((h.inv.held k t).mpr hv)]
    exact ⟨_, _, rfl⟩

/-! ### Limits -/

theorem KTrace.Exclusive.left {tr : KTrace α} {x : KEntry α} (h : KTrace.Exclusive (tr ++ [x])) : tr.Exclusive :=
  fun p hp => h p (hp.trans (List.prefix_append _ _))

/-- Whether a call that `e` resolves is between matching and counting. -/
def Local.busyWith (e : Nat) (l : Local) : Bool :=
  match l.call with
  | some (_, e') => e' == e
  | none => false

theorem busy_le_one (h : KReach asserts n m tr kw) (hx : tr.Exclusive) (e : Nat) : kw.threads.countP (Local.busyWith e) ≤ 1 := by
  have key : ∀ t t' : Nat, ∀ l l', kw.threads[t]? = some l → kw.threads[t']? = some l' → l.busyWith e = true →
      l'.busyWith e = true → t = t' := by
    intro t t' l l' hl hl' hb hb'
    have h1 := h.inv.flight t l hl
    have h2 := h.inv.flight t' l' hl'
    simp only [KTrace.sum] at h1 h2
    simp only [Local.busyWith] at hb hb'
    cases hc : l.call with
    | none => simp [hc] at hb
    | some p =>
      cases hc' : l'.call with
      | none => simp [hc'] at hb'
      | some p' =>
        simp only [hc, hc', beq_iff_eq] at hb hb'
        obtain ⟨c, e1⟩ := p
        obtain ⟨c', e2⟩ := p'
        simp only at hb hb'
        subst hb
        subst hb'
        exact hx tr (List.prefix_refl _) t t' c c' _ (by rw [h1, hc]) (by rw [h2, hc'])
  generalize kw.threads = ls at key
  clear h hx
  induction ls with
  | nil => simp
  | cons l ls ih =>
    rw [List.countP_cons]
    have ih := ih (fun t t' l l' hl hl' hb hb' => by
      have := key (t + 1) (t' + 1) l l' (by simpa using hl) (by simpa using hl') hb hb'
      omega)
    by_cases hb : l.busyWith e = true
    · have : ls.countP (Local.busyWith e) = 0 := by
        rw [List.countP_eq_zero]
        intro l' hl' hb'
        obtain ⟨i, hi⟩ := List.mem_iff_getElem?.mp hl'
        have := key 0 (i + 1) l l' (by simp) (by simpa using hi) hb hb'
        omega
      simp [hb, this]
    · simp only [hb]
      simpa using ih

theorem klimit (h : KReach asserts n m tr kw) (hx : tr.Exclusive) {e : Nat} {x : Exp α} (he : kw.w.exps[e]? = some x) :
    x.control.count + kw.threads.countP (Local.busyWith e) ≤ x.control.max := by
  induction h generalizing e x with
  | init => simp [KWorld.init] at he
  | @step tr kw kw' t act log h hs ih =>
    have ih := fun {e x} => ih hx.left (e := e) (x := x)
    have h' := KReach.step h hs
    have hone := busy_le_one h' hx e
    have hm := kmove h.inv.ok hs
    cases hm with
    | create hl hc h0 h1 h2 =>
      have hz : kw.threads.countP (Local.busyWith kw.w.exps.length) = 0 := by
        rw [List.countP_eq_zero]
        intro l hl' hb
        obtain ⟨i, hi⟩ := List.mem_iff_getElem?.mp hl'
        simp only [Local.busyWith] at hb
        split at hb
        · rename_i c' e' hc'
          obtain ⟨x, hx, _⟩ := h.inv.pending i l c' e' hi hc'
          simp only [beq_iff_eq] at hb
          subst hb
          simp at hx
        · simp at hb
      simp only at he ⊢
      have := @ih e
      grind [plainExp]
    | @hit c e' a es rest hl hc hf =>
      have hb := countP_set (p := Local.busyWith e) hl (b := .matched c e')
      simp only [KWorld.at, Local.busyWith, Local.call] at hb he hone ⊢
      have hi := ih he
      by_cases hee : e' = e
      · subst hee
        have hlook : lookE kw.w a e' = some .full := by
          have : e' ∈ fulls kw.w a es := by rw [hf]; simp
          simp only [fulls, List.mem_filter, beq_iff_eq] at this
          exact this.2
        have hne : x.control.count ≠ x.control.max := by
          simp only [lookE, he, Option.map_some, look, Option.some.injEq] at hlook
          grind
        simp at hb
        omega
      · have : (e' == e) = false := by simpa using hee
        simp only [this] at hb
        simp at hb
        omega
    | @report c e' hl =>
      have hb := countP_set (p := Local.busyWith e) hl (b := .reported c e')
      have hi := ih he
      have hb := Nat.add_right_cancel hb
      simp only [KWorld.at] at he ⊢
      omega
    | @consume c e' y hl hy hal ho ha =>
      have hb := countP_set (p := Local.busyWith e) hl (b := .idle)
      simp only [KWorld.at, Local.busyWith, Local.call] at hb he hone ⊢
      by_cases hee : e' = e
      · subst hee
        have hi := ih hy
        simp only [beq_self_eq_true, if_true, Bool.false_eq_true, if_false, Nat.add_zero] at hb
        have hlt : e' < kw.w.exps.length := (List.getElem?_eq_some_iff.mp hy).1
        simp only [List.getElem?_set, if_true, hlt, Option.some.injEq] at he
        subst he
        simp only [countUp]
        omega
      · have : (e' == e) = false := by simpa using hee
        simp only [this, Bool.false_eq_true, if_false, Nat.add_zero] at hb
        rw [List.getElem?_set, if_neg hee] at he
        have hi := ih he
        omega
    | @remove e' y es hl hr hy hal hc hmem =>
      have hb := countP_set (p := Local.busyWith e) hl (b := .removed e')
      have hi := ih he
      have hb := Nat.add_right_cancel hb
      simp only [KWorld.at] at he ⊢
      omega
    | @release e' hl =>
      have hb := countP_set (p := Local.busyWith e) hl (b := .idle)
      simp only [KWorld.at, Local.busyWith, Local.call] at hb he hone ⊢
      rw [List.getElem?_modify] at he
      cases hy : kw.w.exps[e]? with
      | none => simp [hy] at he
      | some y =>
        have hi := ih hy
        simp only [hy, Option.map_eq_map, Option.map_some, Option.some.injEq] at he
        simp only [Bool.false_eq_true, if_false, Nat.add_zero] at hb
        split at he <;> subst he <;> (try simp only) <;> omega
    | _ => exact ih he

theorem reports_le_busy (e : Nat) (ls : List Local) : ls.countP (Local.reports e) ≤ ls.countP (Local.busyWith e) := by
  apply List.countP_mono_left
  intro l _ hr
  cases l <;> simp_all [Local.reports, Local.busyWith, Local.call]

theorem kcount_asserts (h : KReach true n m tr kw) {e : Nat} {x : Exp α} (he : kw.w.exps[e]? = some x) :
    x.control.count ≤ x.control.max := by
  induction h generalizing e x with
  | init => simp [KWorld.init] at he
  | @step tr kw kw' t act log h hs ih =>
    have hm := kmove h.inv.ok hs
    cases hm with
    | create hl hc h0 h1 h2 => simp only at he; have := @ih e; grind [plainExp]
    | consume hl hy hal ho ha =>
      have := ha rfl
      simp only [KWorld.at] at he
      have := @ih e
      grind [countUp]
    | release hl => simp only [KWorld.at] at he; have := @ih e; grind
    | _ => exact ih he

end Mimic
