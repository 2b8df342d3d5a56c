import Verif.Proofs.ConcurrentRaces

/-!
# Helper lemmas about schedules: mutexes of the client
-/

set_option autoImplicit false

namespace Mimic

variable {α : Type}

variable {asserts : Bool} {n m : Nat} {tr : KTrace α} {kw : KWorld α}

theorem KReach.holder (h : KReach asserts n m tr kw) {k t : Nat} : tr.holder k = some t ↔ (k, t) ∈ kw.held :=
  (h.inv.held k t).symm

/-- How the holder of a mutex changes. -/
theorem holder_next (h : KReach asserts n m tr kw) {i : Nat} {x : KEntry α} (hx : tr[i]? = some x) (k : Nat) :
    (tr.before (i + 1)).holder k = (tr.before i).holder k ∨
    (x.act = .unlock k ∧ (tr.before i).holder k = some x.thread ∧ (tr.before (i + 1)).holder k = none ∧
      x.log.releases = some (.client k)) ∨
    (x.act = .lock k ∧ (tr.before i).holder k = none ∧ (tr.before (i + 1)).holder k = some x.thread ∧
      x.log.acquires = some (.client k)) := by
  obtain ⟨k1, k2, h1, hm⟩ := h.move hx
  rw [before_snoc hx, kholder_snoc]
  obtain ⟨t, act, log⟩ := x
  simp only at hm ⊢
  cases hm with
  | @lock k' ht hk =>
    simp only [holderStep]
    by_cases hkk : k' = k
    · subst hkk
      right; right
      refine ⟨rfl, ?_, by simp, rfl⟩
      cases hh : (tr.before i).holder k' with
      | none => rfl
      | some t' => exact absurd rfl (hk _ (h1.holder.mp hh))
    · left; rw [if_neg hkk]
  | @unlock k' hk =>
    simp only [holderStep]
    by_cases hkk : k' = k
    · subst hkk
      right; left
      exact ⟨rfl, h1.holder.mpr hk, by simp, rfl⟩
    · left; rw [if_neg hkk]
  | _ => left; rfl

/-- If a mutex is not held any more, its holder has given it back. -/
theorem unlocked_between (h : KReach asserts n m tr kw) {i j k t : Nat} (hij : i ≤ j) (hi : (tr.before i).holder k = some t)
    (hj : (tr.before j).holder k ≠ some t) :
    ∃ (u : Nat) (z : KEntry α), i ≤ u ∧ u < j ∧ tr[u]? = some z ∧ z.thread = t ∧ z.act = .unlock k ∧
      z.log.releases = some (.client k) := by
  induction j with
  | zero =>
    have : i = 0 := by omega
    subst this
    exact absurd hi hj
  | succ j ih =>
    by_cases hij' : i = j + 1
    · subst hij'; exact absurd hi hj
    · by_cases hmid : (tr.before j).holder k = some t
      · cases hx : tr[j]? with
        | none =>
          have hl : tr.length ≤ j := by simpa using hx
          rw [before_all (by omega)] at hj
          rw [before_all hl] at hmid
          exact absurd hmid hj
        | some x =>
          rcases holder_next h hx k with h1 | ⟨h1, h2, h3, h4⟩ | ⟨h1, h2, h3, h4⟩
          · rw [h1] at hj; exact absurd hmid hj
          · refine ⟨j, x, by omega, by omega, hx, ?_, h1, h4⟩
            rw [hmid, Option.some.injEq] at h2
            exact h2.symm
          · rw [hmid] at h2; simp at h2
      · obtain ⟨u, z, h1, h2, h3⟩ := ih (by omega) hmid
        exact ⟨u, z, h1, by omega, h3⟩

/-- If a mutex is held by someone else than before, it was taken in between. -/
theorem locked_between (h : KReach asserts n m tr kw) {i j k t : Nat} (hij : i ≤ j) (hi : (tr.before i).holder k ≠ some t)
    (hj : (tr.before j).holder k = some t) :
    ∃ (l : Nat) (z : KEntry α), i ≤ l ∧ l < j ∧ tr[l]? = some z ∧ z.thread = t ∧ z.act = .lock k ∧
      (tr.before l).holder k = none ∧ z.log.acquires = some (.client k) := by
  induction j with
  | zero =>
    have : i = 0 := by omega
    subst this
    exact absurd hj hi
  | succ j ih =>
    by_cases hij' : i = j + 1
    · subst hij'; exact absurd hj hi
    · by_cases hmid : (tr.before j).holder k = some t
      · obtain ⟨u, z, h1, h2, h3⟩ := ih (by omega) hmid
        exact ⟨u, z, h1, by omega, h3⟩
      · cases hx : tr[j]? with
        | none =>
          have hl : tr.length ≤ j := by simpa using hx
          rw [before_all (by omega)] at hj
          rw [before_all hl] at hmid
          exact absurd hj hmid
        | some x =>
          rcases holder_next h hx k with h1 | ⟨h1, h2, h3, h4⟩ | ⟨h1, h2, h3, h4⟩
          · rw [h1] at hj; exact absurd hj hmid
          · rw [hj] at h3; simp at h3
          · refine ⟨j, x, by omega, by omega, hx, ?_, h1, h2, h4⟩
            rw [hj, Option.some.injEq] at h3
            exact h3.symm

/-- Steps that are made by different threads while they hold the same mutex are ordered. -/
theorem held_hb (h : KReach asserts n m tr kw) {i j k : Nat} {x y : KEntry α} (hij : i < j) (hx : tr[i]? = some x)
    (hy : tr[j]? = some y) (ht : x.thread ≠ y.thread) (h1 : (tr.before i).holder k = some x.thread)
    (h2 : (tr.before j).holder k = some y.thread) : HB tr i j := by
  obtain ⟨l, zl, hl1, hl2, hl3, hl4, hl5, hl6, hl7⟩ := locked_between h (Nat.le_of_lt hij)
    (by rw [h1]; simpa using ht) h2
  obtain ⟨u, zu, hu1, hu2, hu3, hu4, hu5, hu6⟩ := unlocked_between h hl1 h1 (by rw [hl6]; simp)
  have a : HB tr u l := .mutex hu2 hu3 hl3 hu6 hl7
  have b : HB tr l j := .thread hl2 hl3 hy hl4
  by_cases hiu : i = u
  · subst hiu
    exact .trans a b
  · exact .trans (.thread (by omega) hx hu3 hu4.symm) (.trans a b)

/-! ### Guarded schedules -/

theorem guarded_scan {g : Nat → Nat} (hg : tr.Guarded g) {i : Nat} {x : KEntry α} (hx : tr[i]? = some x) {c : Nat} {a : α}
    (ha : x.act = .scan c a) : (tr.before i).holder (g c) = some x.thread := by
  have := hg (tr.before i) x (prefix_snoc_of hx)
  rw [ha] at this
  exact this

theorem guarded_remove {g : Nat → Nat} (hg : tr.Guarded g) {i : Nat} {x : KEntry α} (hx : tr[i]? = some x) {e : Nat}
    (ha : x.act = .remove e) {d : Decl α} (hd : (tr.before i).decl e = some d) :
    (tr.before i).holder (g d.mock) = some x.thread := by
  have := hg (tr.before i) x (prefix_snoc_of hx)
  rw [ha] at this
  exact this d hd

theorem guarded_query {g : Nat → Nat} (hg : tr.Guarded g) {i : Nat} {x : KEntry α} (hx : tr[i]? = some x) {e : Nat}
    (ha : x.act = .query e) {d : Decl α} (hd : (tr.before i).decl e = some d) :
    (tr.before i).holder (g d.mock) = some x.thread := by
  have := hg (tr.before i) x (prefix_snoc_of hx)
  rw [ha] at this
  exact this d hd

theorem guarded_unlock {g : Nat → Nat} (hg : tr.Guarded g) {i : Nat} {x : KEntry α} (hx : tr[i]? = some x) {k : Nat}
    (ha : x.act = .unlock k) {c e : Nat} (hf : (tr.before i).flight x.thread = some (c, e)) : g c ≠ k := by
  have := hg (tr.before i) x (prefix_snoc_of hx)
  rw [ha] at this
  exact this c e hf

/-- The guard of a mock is held as long as a call is in flight. -/
theorem guarded_flight {g : Nat → Nat} (h : KReach asserts n m tr kw) (hg : tr.Guarded g) {i t c e : Nat}
    (hf : (tr.before i).flight t = some (c, e)) : (tr.before i).holder (g c) = some t := by
  obtain ⟨s, x, a, h1, h2, h3, h4, h5, h6⟩ := flight_from h hf
  have hs := guarded_scan hg h2 h3
  rw [h4] at hs
  cases hh : decide ((tr.before i).holder (g c) = some t) with
  | true => simpa using hh
  | false =>
    have hh : ¬ (tr.before i).holder (g c) = some t := by simpa using hh
    obtain ⟨u, z, hu1, hu2, hu3, hu4, hu5, hu6⟩ := unlocked_between h (Nat.le_of_lt h1) hs hh
    by_cases hsu : s = u
    · subst hsu
      rw [h2, Option.some.injEq] at hu3
      subst hu3
      rw [h3] at hu5
      simp at hu5
    · have := guarded_unlock hg hu3 hu5 (c := c) (e := e) (by rw [hu4]; exact h6 u (by omega) (by omega))
      exact absurd rfl this

theorem flight_decl (h : KReach asserts n m tr kw) {t c e : Nat} (hf : tr.flight t = some (c, e)) :
    ∃ d, tr.decl e = some d ∧ d.mock = c := by
  rw [h.flight_phase] at hf
  by_cases ht : t < n
  · obtain ⟨x, hx, hxc⟩ := h.inv.pending t _ c e (h.phase_iff.mpr ⟨ht, rfl⟩) hf
    exact ⟨_, h.decl_some.mpr ⟨x, hx, rfl⟩, hxc⟩
  · rw [h.phase_out (by omega)] at hf
    simp [Local.call] at hf

/-- No call in flight is disturbed by the withdrawal of its expectation. -/
theorem guarded_no_remove {g : Nat → Nat} (h : KReach asserts n m tr kw) (hg : tr.Guarded g) {i t c e r : Nat} {z : KEntry α}
    (hf : (tr.before i).flight t = some (c, e)) (hz : tr[r]? = some z) (ha : z.act = .remove e) (hr : r < i) : False := by
  obtain ⟨s, x, a, h1, h2, h3, h4, h5, h6⟩ := flight_from h hf
  obtain ⟨d, hd, hgo, hlk, hidle, hgone⟩ := remove_use h hz ha
  have hu := use_exp h h2 (Or.inl h5)
  have hlive : Event.destroyed e ∉ (tr.before s).events := by
    cases hu with
    | scan c' a' d' _ _ _ hh => exact hh
    | create c' d' hn hd' hdm hev hlk' =>
      obtain ⟨k1, hk1⟩ := h.take s
      intro hdes
      obtain ⟨k2, hk2⟩ := h.take i
      cases hdd : (tr.before s).decl e with
      | some d => exact hn d hdd
      | none =>
        have := hk1.inv.decl e
        simp only [KTrace.sum] at this
        have hz : k1.w.exps[e]? = none := by
          have h0 := this.symm.trans hdd
          simpa using h0
        exact (hk1.inv.fresh e (by simpa using hz)).2.2 hdes
    | consume c' hh => rw [h3] at hh; simp at hh
    | remove d' hh => rw [h3] at hh; simp at hh
    | release hh => rw [h3] at hh; simp at hh
    | query d' hh => rw [h3] at hh; simp at hh
  have hsr : s < r := by
    rcases Nat.lt_trichotomy s r with hlt | heq | hgt
    · exact hlt
    · subst heq
      rw [h2, Option.some.injEq] at hz
      subst hz
      rw [h3] at ha
      simp at ha
    · exact absurd (hgone s hgt) hlive
  have hfr := h6 r hsr (by omega)
  have hhold := guarded_flight h hg hfr
  obtain ⟨k1, hk1⟩ := h.take r
  obtain ⟨d', hd', hdm⟩ := flight_decl hk1 hfr
  have hdd : d = d' := by
    have := hd.symm.trans hd'
    simpa using this
  subst hdd
  have hthread := guarded_remove hg hz ha hd
  rw [hdm, hhold, Option.some.injEq] at hthread
  have := hk1.flight_phase z.thread
  rw [hidle, ← hthread] at this
  rw [show (KTrace.flight (List.take r tr) t) = some (c, e) from hfr] at this
  simp [Local.call] at this

theorem guarded_separate {g : Nat → Nat} (h : KReach asserts n m tr kw) (hg : tr.Guarded g) : tr.Separate := by
  intro p x hpx t c e hf
  obtain ⟨hx, hp⟩ := snoc_prefix hpx
  have hp' : tr.before p.length = p := hp
  rw [← hp'] at hf
  have hhold := guarded_flight h hg hf
  obtain ⟨k1, k2, h1, hm⟩ := h.move hx
  constructor
  · intro a ha
    have := guarded_scan hg hx ha
    rw [hhold, Option.some.injEq] at this
    subst this
    rw [h1.flight_phase] at hf
    rw [ha] at hm
    have hidle : k1.threads[x.thread]? = some .idle := by
      generalize x.log = lg at hm
      cases hm <;> assumption
    rw [(h1.phase_iff.mp hidle).2] at hf
    simp [Local.call] at hf
  · intro ha
    obtain ⟨d, hd, hdm⟩ := flight_decl h1 hf
    have := guarded_remove hg hx ha hd
    rw [hdm, hhold, Option.some.injEq] at this
    subst this
    rw [h1.flight_phase] at hf
    rw [ha] at hm
    have hidle : k1.threads[x.thread]? = some .idle := by
      generalize x.log = lg at hm
      cases hm; assumption
    rw [(h1.phase_iff.mp hidle).2] at hf
    simp [Local.call] at hf

theorem removed_before (h : KReach asserts n m tr kw) {i e : Nat} {x : KEntry α}
    (hp : (tr.before i).phase x.thread = .removed e) :
    ∃ (r : Nat) (z : KEntry α), r < i ∧ tr[r]? = some z ∧ z.act = .remove e ∧ z.thread = x.thread := by
  obtain ⟨k1, h1⟩ := h.take i
  obtain ⟨r, z, hz, h2, h3⟩ := removed_at h1 hp
  have hr : r < i := by
    have := (List.getElem?_eq_some_iff.mp hz).1
    simp at this
    omega
  exact ⟨r, z, hr, by rw [List.getElem?_take_of_lt hr] at hz; exact hz, h2, h3⟩

/-- Steps that use expectation `e` and hold the guard of its mock. -/
theorem guarded_use {g : Nat → Nat} (h : KReach asserts n m tr kw) (hg : tr.Guarded g) {i e : Nat} {x : KEntry α}
    (hx : tr[i]? = some x) (hu : Use tr e i x) :
    (∃ d, tr.decl e = some d ∧ (tr.before i).decl e = some d ∧ (tr.before i).holder (g d.mock) = some x.thread) ∨
    (∃ d, tr.decl e = some d ∧ (∀ d, (tr.before i).decl e ≠ some d) ∧ Event.created e ∈ x.log.ev ∧
      x.log.locks (.storage d.mock)) ∨
    (x.act = .release ∧ (tr.before i).phase x.thread = .removed e) := by
  cases hu with
  | create c d hn hd hdm hev hlk => right; left; exact ⟨d, hd, hn, hev, by rw [hdm]; exact hlk⟩
  | scan c a d ha hd hdm _ _ _ =>
    left; exact ⟨d, h.decl_take hd, hd, by rw [hdm]; exact guarded_scan hg hx ha⟩
  | consume c ha hf =>
    obtain ⟨k1, h1⟩ := h.take i
    obtain ⟨d, hd, hdm⟩ := flight_decl h1 hf
    left; exact ⟨d, h.decl_take hd, hd, by rw [hdm]; exact guarded_flight h hg hf⟩
  | remove d ha hd _ _ _ => left; exact ⟨d, h.decl_take hd, hd, guarded_remove hg hx ha hd⟩
  | release ha hp => right; right; exact ⟨ha, hp⟩
  | query d ha hd _ _ => left; exact ⟨d, h.decl_take hd, hd, guarded_query hg hx ha hd⟩

theorem guarded_hb {g : Nat → Nat} (h : KReach asserts n m tr kw) (hg : tr.Guarded g) (hho : tr.HandedOver) {i j e : Nat}
    {x y : KEntry α} (hij : i < j) (hx : tr[i]? = some x) (hy : tr[j]? = some y) (ht : x.thread ≠ y.thread)
    (hux : Use tr e i x) (huy : Use tr e j y) (hw : Loc.exp e ∈ x.log.writes ∨ Loc.exp e ∈ y.log.writes) : HB tr i j := by
  by_cases hall : x.act ≠ .consume ∧ y.act ≠ .consume ∧ x.act ≠ .query e ∧ y.act ≠ .query e
  · exact locked_hb h hij hx hy hux huy hw hall.1 hall.2.1 hall.2.2.1 hall.2.2.2
  have dmono : ∀ {a b : Nat} {d : Decl α}, a ≤ b → (tr.before a).decl e = some d → (tr.before b).decl e = some d :=
    fun hab hd => kdecl_mono (take_prefix_take hab) hd
  have hgx := guarded_use h hg hx hux
  have hgy := guarded_use h hg hy huy
  rcases hgx with ⟨d, hd, hdi, hhx⟩ | ⟨d, hd, hn, hev, hlk⟩ | ⟨hax, hpx⟩
  · rcases hgy with ⟨d', hd', hdj, hhy⟩ | ⟨d', hd', hn', hev', hlk'⟩ | ⟨hay, hpy⟩
    · rw [hd, Option.some.injEq] at hd'
      subst hd'
      exact held_hb h hij hx hy ht hhx hhy
    · exact absurd (dmono (Nat.le_of_lt hij) hdi) (hn' d)
    · -- the end of the expectation
      obtain ⟨r, z, hr, hz, h2, h3⟩ := removed_before h hpy
      obtain ⟨d', hd', hg', hlk', _, hgone⟩ := remove_use h hz h2
      have hdd : d' = d := by
        have := (h.decl_take hd').symm.trans hd
        simpa using this
      subst hdd
      have hir : i < r := by
        rcases Nat.lt_trichotomy i r with hlt | heq | hgt
        · exact hlt
        · subst heq
          rw [hx, Option.some.injEq] at hz
          subst hz
          exact absurd h3 ht
        · exfalso
          cases hux with
          | create c d' hn => exact hn _ hdi
          | scan c a d' _ _ _ hh => exact hh (hgone i hgt)
          | consume c ha hf => exact guarded_no_remove h hg hf hz h2 hgt
          | remove d' _ _ hh => exact hh (hgone i hgt)
          | release hh => exact hall (by rw [hh, hay]; simp)
          | query d' _ _ hh => exact hh (hgone i hgt)
      exact .trans (held_hb h hir hx hz (by rw [h3]; exact ht) hhx (guarded_remove hg hz h2 hd')) (.thread hr hz hy h3)
  · -- the creation
    cases huy with
    | create c' d' hn' hd' hdm' hev' hlk' =>
      refine locks_hb hij hx hy hlk ?_
      rw [hd, Option.some.injEq] at hd'
      rw [hd', hdm']
      exact hlk'
    | scan c' a d' ha hd' hdm' hgo hlk' hnw =>
      refine locks_hb hij hx hy hlk ?_
      have := (h.decl_take hd').symm.trans hd
      simp only [Option.some.injEq] at this
      rw [← this, hdm']
      exact hlk'
    | consume c ha hf =>
      obtain ⟨s, z, a, h1, h2, h3, h4, h5, h6⟩ := flight_from h hf
      have hu := use_exp h h2 (Or.inl h5)
      cases hu with
      | scan c' a' d' ha' hd' hdm' hgo hlk' hnw =>
        have his : i < s := by
          apply Nat.lt_of_not_le
          intro hle
          exact hn _ (dmono hle hd')
        have := (h.decl_take hd').symm.trans hd
        simp only [Option.some.injEq] at this
        refine .trans (locks_hb his hx h2 hlk ?_) (.thread h1 h2 hy h4)
        rw [← this, hdm']
        exact hlk'
      | create c' d' hn' hd' hdm' hev' hlk' =>
        obtain ⟨k1, k2, hk1, hm⟩ := h.move h2
        rw [h3] at hm
        obtain ⟨zt, za, zl⟩ := z
        simp only at h3 h4 h5 hm hev'
        subst h3
        cases hm with
        | hit hl hc hf =>
          have := (hk1.stored hc e).mp (by simpa using h5)
          obtain ⟨⟨⟨d'', hd''⟩, _⟩, _⟩ := this
          exact absurd hd'' (hn' d'')
        | inapplicable hl hc hf _ =>
          have := (hk1.stored hc e).mp (by simpa using h5)
          obtain ⟨⟨⟨d'', hd''⟩, _⟩, _⟩ := this
          exact absurd hd'' (hn' d'')
        | noMatch hl hc hf _ =>
          have := (hk1.stored hc e).mp (by simpa using h5)
          obtain ⟨⟨⟨d'', hd''⟩, _⟩, _⟩ := this
          exact absurd hd'' (hn' d'')
      | consume c' hh => rw [h3] at hh; simp at hh
      | remove d' hh => rw [h3] at hh; simp at hh
      | release hh => rw [h3] at hh; simp at hh
      | query d' hh => rw [h3] at hh; simp at hh
    | remove d' ha hd' hgo hlk' hnw =>
      refine locks_hb hij hx hy hlk ?_
      have := (h.decl_take hd').symm.trans hd
      simp only [Option.some.injEq] at this
      rw [← this]
      exact hlk'
    | release ha hp =>
      obtain ⟨r, z, hr, hz, h2, h3⟩ := removed_before h hp
      obtain ⟨d', hd', hg', hlk', _, hgone⟩ := remove_use h hz h2
      have hir : i < r := by
        apply Nat.lt_of_not_le
        intro hle
        exact hn _ (dmono hle hd')
      have := (h.decl_take hd').symm.trans hd
      simp only [Option.some.injEq] at this
      refine .trans (locks_hb hir hx hz hlk ?_) (.thread hr hz hy h3)
      rw [← this]
      exact hlk'
    | query d' ha hd' hgo hnw => exact hho i j e x y hx hy hev ha
  · obtain ⟨r, z, hr, hz, h2, h3⟩ := removed_before h hpx
    obtain ⟨d', hd', hg', hlk', _, hgone⟩ := remove_use h hz h2
    exfalso
    cases huy with
    | create c' d'' hn' => exact hn' _ (dmono (by omega) hd')
    | scan c' a d' _ _ _ hh => exact hh (hgone j (by omega))
    | consume c ha hf => exact guarded_no_remove h hg hf hz h2 (by omega)
    | remove d' _ _ hh => exact hh (hgone j (by omega))
    | release hh =>
      apply hall
      rw [hax, hh]
      simp
    | query d' _ _ hh => exact hh (hgone j (by omega))

/-- Data races are about expectations. -/
theorem race_use (h : KReach asserts n m tr kw) {i j : Nat} (hr : Race tr i j) :
    ∃ e x y, i < j ∧ tr[i]? = some x ∧ tr[j]? = some y ∧ x.thread ≠ y.thread ∧ ¬ HB tr i j ∧ Use tr e i x ∧ Use tr e j y ∧
      (Loc.exp e ∈ x.log.writes ∨ Loc.exp e ∈ y.log.writes) := by
  obtain ⟨hij, x, y, hx, hy, ht, ⟨l, hl⟩, hnb⟩ := hr
  cases l with
  | storage c =>
    exfalso
    apply hnb
    refine locks_hb hij hx hy (use_storage h hx (c := c) ?_) (use_storage h hy ?_)
    · rcases hl with ⟨h1, _⟩ | ⟨h1, _⟩
      · exact Or.inr h1
      · exact Or.inl h1
    · rcases hl with ⟨_, h1⟩ | ⟨_, h1⟩
      · exact h1
      · exact Or.inr h1
  | exp e =>
    have hux : Use tr e i x := use_exp h hx (by
      rcases hl with ⟨h1, _⟩ | ⟨h1, _⟩
      · exact Or.inr h1
      · exact Or.inl h1)
    have huy : Use tr e j y := use_exp h hy (by
      rcases hl with ⟨_, h1⟩ | ⟨_, h1⟩
      · exact h1
      · exact Or.inr h1)
    refine ⟨e, x, y, hij, hx, hy, ht, hnb, hux, huy, ?_⟩
    rcases hl with ⟨h1, _⟩ | ⟨_, h1⟩
    · exact Or.inl h1
    · exact Or.inr h1

/-! ### Schedules in which every step happens before the next -/

/-- Neighbouring steps are ordered. -/
def Linked (tr : KTrace α) : Prop :=
  ∀ (i : Nat) (x y : KEntry α), tr[i]? = some x → tr[i + 1]? = some y →
    x.thread = y.thread ∨ ∃ mx, x.log.releases = some mx ∧ y.log.acquires = some mx

theorem Linked.hb (h : Linked tr) {i j : Nat} (hij : i < j) (hj : j < tr.length) : HB tr i j := by
  induction j with
  | zero => omega
  | succ j ih =>
    have hx : tr[j]? = some tr[j] := List.getElem?_eq_getElem (by omega)
    have hy : tr[j + 1]? = some tr[j + 1] := List.getElem?_eq_getElem hj
    have hb : HB tr j (j + 1) := by
      rcases h j _ _ hx hy with ht | ⟨mx, h1, h2⟩
      · exact .thread (by omega) hx hy ht
      · exact .mutex (by omega) hx hy h1 h2
    by_cases hij' : i = j
    · subst hij'; exact hb
    · exact .trans (ih (by omega) (by omega)) hb

theorem Linked.raceFree (h : Linked tr) : RaceFree tr := by
  rintro i j ⟨hij, x, y, hx, hy, _, _, hnb⟩
  exact hnb (h.hb hij (List.getElem?_eq_some_iff.mp hy).1)

end Mimic
