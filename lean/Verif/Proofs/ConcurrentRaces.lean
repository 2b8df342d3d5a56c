import Verif.Proofs.ConcurrentStep

/-!
# Helper lemmas about schedules: accesses, the order of steps, data races
-/

set_option autoImplicit false

namespace Mimic

variable {α : Type}

variable {asserts : Bool} {n m : Nat} {tr : KTrace α} {kw : KWorld α}

/-! ### Prefixes -/

theorem kdecl_mono {p q : KTrace α} (h : p <+: q) {e : Nat} {d : Decl α} (hd : p.decl e = some d) : q.decl e = some d := by
  obtain ⟨r, rfl⟩ := h
  simp only [KTrace.decl, List.findSome?_append]
  simp only [KTrace.decl] at hd
  rw [hd]
  rfl

theorem kevents_mono {p q : KTrace α} (h : p <+: q) {v : Event} (hv : v ∈ p.events) : v ∈ q.events := by
  obtain ⟨r, rfl⟩ := h
  simp only [KTrace.events, List.flatMap_append, List.mem_append]
  exact Or.inl hv

theorem take_prefix_take {l : KTrace α} {i j : Nat} (h : i ≤ j) : l.take i <+: l.take j := by
  have : l.take i = (l.take j).take i := by rw [List.take_take, Nat.min_eq_left h]
  rw [this]
  exact List.take_prefix _ _

theorem snoc_prefix {l p : KTrace α} {x : KEntry α} (h : p ++ [x] <+: l) :
    l[p.length]? = some x ∧ l.take p.length = p := by
  obtain ⟨r, rfl⟩ := h
  simp

theorem prefix_snoc_of {l : KTrace α} {i : Nat} {x : KEntry α} (h : l[i]? = some x) : l.take i ++ [x] <+: l := by
  rw [← take_snoc h]
  exact List.take_prefix _ _

theorem before_snoc {i : Nat} {x : KEntry α} (hx : tr[i]? = some x) : tr.before (i + 1) = tr.before i ++ [x] := take_snoc hx

theorem before_all {i : Nat} (h : tr.length ≤ i) : tr.before i = tr := List.take_of_length_le h

/-! ### Moves at a position -/

theorem KReach.move (h : KReach asserts n m tr kw) {i : Nat} {x : KEntry α} (hx : tr[i]? = some x) :
    ∃ kw₁ kw₂, KReach asserts n m (tr.take i) kw₁ ∧ KMove asserts kw₁ x.thread x.act kw₂ x.log := by
  obtain ⟨k1, k2, h1, h2, _⟩ := h.split hx
  exact ⟨k1, k2, h1, kmove h1.inv.ok h2⟩

/-- The step takes and gives back a mutex. -/
def KLog.locks (l : KLog) (mx : Mutex) : Prop := l.acquires = some mx ∧ l.releases = some mx

/-- Ways of using expectation `e` at a position. -/
inductive Use (tr : KTrace α) (e : Nat) (i : Nat) (x : KEntry α) : Prop where
  | create (c : Nat) (d : Decl α) : (∀ d, (tr.before i).decl e ≠ some d) → tr.decl e = some d → d.mock = c →
    Event.created e ∈ x.log.ev → x.log.locks (.storage c) → Use tr e i x
  | scan (c : Nat) (a : α) (d : Decl α) : x.act = .scan c a → (tr.before i).decl e = some d → d.mock = c →
    Event.destroyed e ∉ (tr.before i).events → x.log.locks (.storage c) → Loc.exp e ∉ x.log.writes → Use tr e i x
  | consume (c : Nat) : x.act = .consume → (tr.before i).flight x.thread = some (c, e) → Use tr e i x
  | remove (d : Decl α) : x.act = .remove e → (tr.before i).decl e = some d → Event.destroyed e ∉ (tr.before i).events →
    x.log.locks (.storage d.mock) → Loc.exp e ∉ x.log.writes → Use tr e i x
  | release : x.act = .release → (tr.before i).phase x.thread = .removed e → Use tr e i x
  | query (d : Decl α) : x.act = .query e → (tr.before i).decl e = some d → Event.destroyed e ∉ (tr.before i).events →
    Loc.exp e ∉ x.log.writes → Use tr e i x

theorem KReach.decl_take (_h : KReach asserts n m tr kw) {i : Nat} {e : Nat} {d : Decl α} (hd : (tr.before i).decl e = some d) :
    tr.decl e = some d := kdecl_mono (List.take_prefix _ _) hd

theorem use_exp (h : KReach asserts n m tr kw) {i e : Nat} {x : KEntry α} (hx : tr[i]? = some x)
    (ha : Loc.exp e ∈ x.log.reads ∨ Loc.exp e ∈ x.log.writes) : Use tr e i x := by
  obtain ⟨k1, k2, h1, hm⟩ := h.move hx
  obtain ⟨t, act, log⟩ := x
  simp only at hm ha
  cases hm with
  | rejected hl => simp at ha
  | @create c mn mx ps es hl hc h0 hle hmx =>
    simp only [List.not_mem_nil, false_or, List.mem_cons, reduceCtorEq, Loc.exp.injEq, or_false] at ha
    subst ha
    refine .create c { mock := c, min := mn, max := mx, seqs := [], policies := ps } ?_ ?_ rfl (by simp) ⟨rfl, rfl⟩
    · intro d hd
      obtain ⟨y, hy, _⟩ := h1.decl_some.mp hd
      simp at hy
    · apply kdecl_mono (prefix_snoc_of hx)
      have hn : (tr.before i).decl k1.w.exps.length = none := by
        have := h1.inv.decl k1.w.exps.length
        simpa [KTrace.sum] using this
      rw [kdecl_snoc, hn]
      simp [KTrace.decl]
  | @hit c e' a es rest hl hc hf =>
    simp only [List.mem_cons, reduceCtorEq, List.mem_map, Loc.exp.injEq, exists_eq_right, false_or, List.not_mem_nil,
      or_false] at ha
    obtain ⟨⟨_, hg⟩, d, hd, hdm⟩ := (h1.stored hc e).mp ha
    exact .scan c a d rfl hd hdm hg ⟨rfl, rfl⟩ (by simp)
  | @inapplicable c a es hl hc hf hn =>
    simp only [List.mem_cons, reduceCtorEq, List.mem_map, Loc.exp.injEq, exists_eq_right, false_or, List.not_mem_nil,
      or_false] at ha
    obtain ⟨⟨_, hg⟩, d, hd, hdm⟩ := (h1.stored hc e).mp ha
    exact .scan c a d rfl hd hdm hg ⟨rfl, rfl⟩ (by simp)
  | @noMatch c a es hl hc hf hn =>
    simp only [List.mem_cons, reduceCtorEq, List.mem_map, Loc.exp.injEq, exists_eq_right, false_or, List.not_mem_nil,
      or_false] at ha
    obtain ⟨⟨_, hg⟩, d, hd, hdm⟩ := (h1.stored hc e).mp ha
    exact .scan c a d rfl hd hdm hg ⟨rfl, rfl⟩ (by simp)
  | report hl => simp at ha
  | @consume c e' y hl hy hal ho hs =>
    simp only [List.mem_cons, Loc.exp.injEq, List.not_mem_nil, or_false, or_self] at ha
    subst ha
    exact .consume c rfl (h1.inv.flight t _ hl)
  | @remove e' y es hl hr hy hal hc hmem =>
    simp only [List.mem_cons, Loc.exp.injEq, List.not_mem_nil, or_false, reduceCtorEq] at ha
    subst ha
    obtain ⟨⟨_, hg⟩, d, hd, hdm⟩ := (h1.stored hc e).mp hmem
    refine .remove d rfl hd hg ?_ (by simp)
    rw [hdm]
    exact ⟨rfl, rfl⟩
  | @release e' hl =>
    simp only [List.mem_cons, Loc.exp.injEq, List.not_mem_nil, or_false, false_or] at ha
    subst ha
    exact .release rfl (h1.phase_iff.mp hl).2
  | @query e' y hl hr hy hal =>
    simp only [List.mem_cons, Loc.exp.injEq, List.not_mem_nil, or_false] at ha
    subst ha
    refine .query (declOf y) rfl (h1.decl_some.mpr ⟨y, hy, rfl⟩) ?_ (by simp)
    intro hd
    rcases (h1.inv.gone e y hy).mp hd with h' | h'
    · rw [hal] at h'; simp at h'
    · exact hr h'
  | lock ht hk => simp at ha
  | unlock hk => simp at ha

theorem use_storage (h : KReach asserts n m tr kw) {i c : Nat} {x : KEntry α} (hx : tr[i]? = some x)
    (ha : Loc.storage c ∈ x.log.reads ∨ Loc.storage c ∈ x.log.writes) : x.log.locks (.storage c) := by
  obtain ⟨k1, k2, h1, hm⟩ := h.move hx
  obtain ⟨t, act, log⟩ := x
  simp only at hm ha
  cases hm <;> simp only [KLog.locks] <;> simp_all

/-- Withdrawals: the first half of the end of an expectation, as made by thread `t` at position `r`. -/
theorem removed_at (h : KReach asserts n m tr kw) {t e : Nat} (hp : tr.phase t = .removed e) :
    ∃ (r : Nat) (x : KEntry α), tr[r]? = some x ∧ x.act = .remove e ∧ x.thread = t := by
  induction h with
  | init => simp [KTrace.phase] at hp
  | @step tr kw kw' t' act log h hs ih =>
    rw [kphase_snoc] at hp
    by_cases hold : tr.phase t = .removed e
    · obtain ⟨r, x, hx, h1, h2⟩ := ih hold
      exact ⟨r, x, by rw [List.getElem?_append_left (List.getElem?_eq_some_iff.mp hx).1]; exact hx, h1, h2⟩
    · refine ⟨tr.length, ⟨t', act, log⟩, by simp, ?_⟩
      simp only [phaseStep] at hp
      grind

/-- A remove step at `r` in detail. -/
theorem remove_use (h : KReach asserts n m tr kw) {r e : Nat} {x : KEntry α} (hx : tr[r]? = some x) (ha : x.act = .remove e) :
    ∃ d, (tr.before r).decl e = some d ∧ Event.destroyed e ∉ (tr.before r).events ∧ x.log.locks (.storage d.mock) ∧
      (tr.before r).phase x.thread = .idle ∧ ∀ j, r < j → Event.destroyed e ∈ (tr.before j).events := by
  obtain ⟨k1, k2, h1, hm⟩ := h.move hx
  obtain ⟨t, act, log⟩ := x
  simp only at hm ha
  subst ha
  cases hm with
  | @remove e y es hl hr hy hal hc hmem =>
    obtain ⟨⟨_, hg⟩, d, hd, hdm⟩ := (h1.stored hc e).mp hmem
    refine ⟨d, hd, hg, ?_, (h1.phase_iff.mp hl).2, ?_⟩
    · rw [hdm]; exact ⟨rfl, rfl⟩
    · intro j hj
      apply kevents_mono (take_prefix_take (l := tr) (i := r + 1) (j := j) hj)
      rw [take_snoc hx, kevents_snoc]
      simp

/-- A call in flight began at some position and has been in flight since. -/
theorem flight_from (h : KReach asserts n m tr kw) {j t c e : Nat} (hf : (tr.before j).flight t = some (c, e)) :
    ∃ (s : Nat) (x : KEntry α) (a : α), s < j ∧ tr[s]? = some x ∧ x.act = .scan c a ∧ x.thread = t ∧ Loc.exp e ∈ x.log.reads ∧
      (∀ k, s < k → k ≤ j → (tr.before k).flight t = some (c, e)) := by
  induction j with
  | zero => simp [KTrace.flight] at hf
  | succ j ih =>
    cases hx : tr[j]? with
    | none =>
      have hlen : tr.length ≤ j := by simpa using hx
      rw [before_all (by omega)] at hf
      have hf' : (tr.before j).flight t = some (c, e) := by rw [before_all hlen]; exact hf
      obtain ⟨s, x, a, h1, h2, h3, h4, h5, h6⟩ := ih hf'
      refine ⟨s, x, a, by omega, h2, h3, h4, h5, ?_⟩
      intro k hk hkj
      by_cases hkj' : k ≤ j
      · exact h6 k hk hkj'
      · rw [before_all (by omega)]
        exact hf
    | some x =>
      rw [before_snoc hx, kflight_snoc] at hf
      by_cases hnew : ∃ a, x.act = .scan c a ∧ x.thread = t ∧ x.log.chosen = some e
      · obtain ⟨a, h1, h2, h3⟩ := hnew
        refine ⟨j, x, a, by omega, hx, h1, h2, ?_, ?_⟩
        · obtain ⟨k1, k2, hk1, hm⟩ := h.move hx
          obtain ⟨t', act, log⟩ := x
          simp only at hm h1 h2 h3 ⊢
          subst h1
          cases hm with
          | hit hl hc hfull =>
            simp only [Option.some.injEq] at h3
            subst h3
            simp [fulls_mem hfull]
          | inapplicable => simp at h3
          | noMatch => simp at h3
        · intro k hk hkj
          have : k = j + 1 := by omega
          subst this
          rw [before_snoc hx, kflight_snoc]
          exact hf
      · have hold : (tr.before j).flight t = some (c, e) := by
          simp only [flightStep] at hf
          split at hf
          · split at hf
            · rename_i ht _ c' a' ha
              exfalso
              cases hch : x.log.chosen with
              | none => simp [hch] at hf
              | some e' =>
                simp only [hch, Option.map_some, Option.some.injEq, Prod.mk.injEq] at hf
                exact hnew ⟨a', by rw [ha, hf.1], ht, by rw [hch, hf.2]⟩
            · simp at hf
            · exact hf
          · exact hf
        obtain ⟨s, y, a, h1, h2, h3, h4, h5, h6⟩ := ih hold
        refine ⟨s, y, a, by omega, h2, h3, h4, h5, ?_⟩
        intro k hk hkj
        by_cases hkj' : k ≤ j
        · exact h6 k hk hkj'
        · have : k = j + 1 := by omega
          subst this
          rw [before_snoc hx, kflight_snoc]
          exact hf

/-! ### The order of steps -/

theorem HB.lt {i j : Nat} (h : HB tr i j) : i < j := by
  induction h with
  | thread h => exact h
  | mutex h => exact h
  | trans _ _ h1 h2 => omega

theorem locks_hb {i j : Nat} {x y : KEntry α} {mx : Mutex} (hij : i < j) (hx : tr[i]? = some x) (hy : tr[j]? = some y)
    (h1 : x.log.locks mx) (h2 : y.log.locks mx) : HB tr i j := .mutex hij hx hy h1.2 h2.1

/-- Steps of different threads are ordered only if the earlier thread has given back a mutex. -/
theorem hb_needs_release {i j : Nat} (h : HB tr i j) {x y : KEntry α} (hx : tr[i]? = some x) (hy : tr[j]? = some y) :
    x.thread = y.thread ∨ ∃ (k : Nat) (z : KEntry α), i ≤ k ∧ k < j ∧ tr[k]? = some z ∧ z.thread = x.thread ∧ z.log.releases ≠ none := by
  induction h generalizing x y with
  | @thread i j x' y' hij hx' hy' ht => grind
  | @mutex i j x' y' mx hij hx' hy' h1 h2 =>
    right
    exact ⟨i, x', Nat.le_refl _, hij, hx', by grind, by rw [h1]; simp⟩
  | @trans i j k h1 h2 ih1 ih2 =>
    have hlt1 := h1.lt
    have hlt2 := h2.lt
    have hklen := (List.getElem?_eq_some_iff.mp hy).1
    obtain ⟨z, hz⟩ : ∃ z, tr[j]? = some z := ⟨_, List.getElem?_eq_getElem (by omega)⟩
    rcases ih1 hx hz with h | ⟨k', z', h1', h2', h3', h4', h5'⟩
    · rcases ih2 hz hy with h' | ⟨k', z', h1', h2', h3', h4', h5'⟩
      · left; rw [h, h']
      · right; exact ⟨k', z', by omega, h2', h3', by rw [h4', h], h5'⟩
    · right; exact ⟨k', z', h1', by omega, h3', h4', h5'⟩

/-- Steps of different threads are ordered only if the later thread has taken a mutex. -/
theorem hb_needs_acquire {i j : Nat} (h : HB tr i j) {x y : KEntry α} (hx : tr[i]? = some x) (hy : tr[j]? = some y) :
    x.thread = y.thread ∨ ∃ (k : Nat) (z : KEntry α), i < k ∧ k ≤ j ∧ tr[k]? = some z ∧ z.thread = y.thread ∧ z.log.acquires ≠ none := by
  induction h generalizing x y with
  | @thread i j x' y' hij hx' hy' ht => grind
  | @mutex i j x' y' mx hij hx' hy' h1 h2 =>
    right
    exact ⟨j, y', hij, Nat.le_refl _, hy', by grind, by rw [h2]; simp⟩
  | @trans i j k h1 h2 ih1 ih2 =>
    have hlt1 := h1.lt
    have hlt2 := h2.lt
    have hklen := (List.getElem?_eq_some_iff.mp hy).1
    obtain ⟨z, hz⟩ : ∃ z, tr[j]? = some z := ⟨_, List.getElem?_eq_getElem (by omega)⟩
    rcases ih2 hz hy with h | ⟨k', z', h1', h2', h3', h4', h5'⟩
    · rcases ih1 hx hz with h' | ⟨k', z', h1', h2', h3', h4', h5'⟩
      · left; rw [h', h]
      · right; exact ⟨k', z', h1', by omega, h3', by rw [h4', h], h5'⟩
    · right; exact ⟨k', z', by omega, h2', h3', h4', h5'⟩

/-- Counting writes the expectation. -/
theorem consume_writes (h : KReach asserts n m tr kw) {i c e : Nat} {x : KEntry α} (hx : tr[i]? = some x) (ha : x.act = .consume)
    (hf : (tr.before i).flight x.thread = some (c, e)) : Loc.exp e ∈ x.log.writes := by
  obtain ⟨k1, k2, h1, hm⟩ := h.move hx
  rw [h1.flight_phase] at hf
  obtain ⟨t, act, log⟩ := x
  simp only at hm ha hf ⊢
  subst ha
  cases hm with
  | consume hl hy hal ho hab =>
    rw [(h1.phase_iff.mp hl).2] at hf
    simp only [Local.call, Option.some.injEq, Prod.mk.injEq] at hf
    simp [hf.2]

theorem created_not_consume (h : KReach asserts n m tr kw) {i e : Nat} {x : KEntry α} (hx : tr[i]? = some x)
    (hc : Event.created e ∈ x.log.ev) : x.act ≠ .consume := by
  obtain ⟨k1, k2, h1, hm⟩ := h.move hx
  obtain ⟨t, act, log⟩ := x
  simp only at hm hc ⊢
  rintro rfl
  cases hm with
  | consume hl hy hal ho hab => simp at hc

/-- Matching reads every living expectation of the mock. -/
theorem scan_reads (h : KReach asserts n m tr kw) {i c e : Nat} {a : α} {d : Decl α} {x : KEntry α} (hx : tr[i]? = some x)
    (ha : x.act = .scan c a) (hl : (tr.before i).live e) (hd : (tr.before i).decl e = some d) (hc : d.mock = c) :
    Loc.exp e ∈ x.log.reads := by
  obtain ⟨k1, k2, h1, hm⟩ := h.move hx
  have hst := fun {es} (hes : k1.w.colls[c]? = some es) => (h1.stored hes e).mpr ⟨hl, d, hd, hc⟩
  obtain ⟨t, act, log⟩ := x
  simp only at hm ha ⊢
  subst ha
  cases hm with
  | hit _ hes => simp [hst hes]
  | inapplicable _ hes => simp [hst hes]
  | noMatch _ hes => simp [hst hes]

/-- Uses of an expectation other than counting and querying are always ordered, if one of them writes. -/
theorem locked_hb (h : KReach asserts n m tr kw) {i j e : Nat} {x y : KEntry α} (hij : i < j) (hx : tr[i]? = some x)
    (hy : tr[j]? = some y) (hux : Use tr e i x) (huy : Use tr e j y)
    (hw : Loc.exp e ∈ x.log.writes ∨ Loc.exp e ∈ y.log.writes)
    (hxc : x.act ≠ .consume) (hyc : y.act ≠ .consume) (hxq : x.act ≠ .query e) (hyq : y.act ≠ .query e) : HB tr i j := by
  have dmono : ∀ {a b : Nat} {d : Decl α}, a ≤ b → (tr.before a).decl e = some d → (tr.before b).decl e = some d :=
    fun hab hd => kdecl_mono (take_prefix_take hab) hd
  have emono : ∀ {a b : Nat}, a ≤ b → Event.destroyed e ∈ (tr.before a).events → Event.destroyed e ∈ (tr.before b).events :=
    fun hab hd => kevents_mono (take_prefix_take hab) hd
  have rel : ∀ {i : Nat} {x : KEntry α}, tr[i]? = some x → (tr.before i).phase x.thread = .removed e →
      ∃ (r : Nat) (z : KEntry α), r < i ∧ tr[r]? = some z ∧ z.act = .remove e ∧ z.thread = x.thread := by
    intro i x hx hp
    obtain ⟨k1, h1⟩ := h.take i
    obtain ⟨r, z, hz, h2, h3⟩ := removed_at h1 hp
    have hr : r < i := by
      have := (List.getElem?_eq_some_iff.mp hz).1
      simp at this
      omega
    exact ⟨r, z, hr, by rw [List.getElem?_take_of_lt hr] at hz; exact hz, h2, h3⟩
  cases hux with
  | create c d hn hd hdm hev hlk =>
    cases huy with
    | create c' d' hn' hd' hdm' hev' hlk' =>
      exact locks_hb hij hx hy hlk (by
        rw [hd, Option.some.injEq] at hd'
        rw [← hdm, hd', hdm']
        exact hlk')
    | scan c' a d' ha hd' hdm' hg hlk' hnw =>
      refine locks_hb hij hx hy hlk ?_
      have := kdecl_mono (List.take_prefix _ _) hd'
      rw [hd, Option.some.injEq] at this
      rw [← hdm, this, hdm']
      exact hlk'
    | consume c' ha hf => exact absurd ha hyc
    | remove d' ha hd' hg hlk' hnw =>
      refine locks_hb hij hx hy hlk ?_
      have := kdecl_mono (List.take_prefix _ _) hd'
      rw [hd, Option.some.injEq] at this
      rw [← hdm, this]
      exact hlk'
    | release ha hp =>
      obtain ⟨r, z, hr, hz, h2, h3⟩ := rel hy hp
      obtain ⟨d', hd', hg', hlk', _, _⟩ := remove_use h hz h2
      have hir : i < r := by
        apply Nat.lt_of_not_le
        intro hle
        exact hn _ (dmono hle hd')
      have := kdecl_mono (List.take_prefix _ _) hd'
      rw [hd, Option.some.injEq] at this
      refine .trans (locks_hb hir hx hz hlk ?_) (.thread hr hz hy h3)
      rw [← hdm, this]
      exact hlk'
    | query d' ha => exact absurd ha hyq
  | scan c a d ha hd hdm hg hlk hnw =>
    cases huy with
    | create c' d' hn' => exact absurd (dmono (Nat.le_of_lt hij) hd) (hn' d)
    | scan c' a' d' ha' hd' hdm' hg' hlk' hnw' => simp [hnw, hnw'] at hw
    | consume c' ha' hf => exact absurd ha' hyc
    | remove d' ha' hd' hg' hlk' hnw' => simp [hnw, hnw'] at hw
    | release ha' hp =>
      obtain ⟨r, z, hr, hz, h2, h3⟩ := rel hy hp
      obtain ⟨d', hd', hg', hlk', _, hgone⟩ := remove_use h hz h2
      have hir : i < r := by
        apply Nat.lt_of_not_le
        intro hle
        rcases Nat.lt_or_eq_of_le hle with hlt | heq
        · exact hg (hgone i hlt)
        · subst heq
          rw [hz, Option.some.injEq] at hx
          subst hx
          rw [ha] at h2
          simp at h2
      have e1 := kdecl_mono (List.take_prefix _ _) hd'
      have e2 := kdecl_mono (List.take_prefix _ _) hd
      rw [e1, Option.some.injEq] at e2
      refine .trans (locks_hb hir hx hz hlk ?_) (.thread hr hz hy h3)
      rw [← hdm, ← e2]
      exact hlk'
    | query d' ha' => exact absurd ha' hyq
  | consume c ha hf => exact absurd ha hxc
  | remove d ha hd hg hlk hnw =>
    obtain ⟨_, _, _, _, _, hgone⟩ := remove_use h hx ha
    cases huy with
    | create c' d' hn' => exact absurd (dmono (Nat.le_of_lt hij) hd) (hn' d)
    | scan c' a' d' ha' hd' hdm' hg' hlk' hnw' => simp [hnw, hnw'] at hw
    | consume c' ha' hf => exact absurd ha' hyc
    | remove d' ha' hd' hg' hlk' hnw' => simp [hnw, hnw'] at hw
    | release ha' hp =>
      obtain ⟨r, z, hr, hz, h2, h3⟩ := rel hy hp
      obtain ⟨d', hd', hg', hlk', _, hgone'⟩ := remove_use h hz h2
      have hir : i = r := by
        rcases Nat.lt_trichotomy i r with hlt | heq | hgt
        · exact absurd (hgone r hlt) hg'
        · exact heq
        · exact absurd (hgone' i hgt) hg
      subst hir
      rw [hz, Option.some.injEq] at hx
      subst hx
      exact .thread hij hz hy h3
    | query d' ha' => exact absurd ha' hyq
  | release ha hp =>
    obtain ⟨r, z, hr, hz, h2, h3⟩ := rel hx hp
    obtain ⟨d, hd, hg, hlk, _, hgone⟩ := remove_use h hz h2
    cases huy with
    | create c' d' hn' => exact absurd (dmono (by omega) hd) (hn' d)
    | scan c' a' d' ha' hd' hdm' hg' hlk' hnw' => exact absurd (hgone j (by omega)) hg'
    | consume c' ha' hf => exact absurd ha' hyc
    | remove d' ha' hd' hg' hlk' hnw' => exact absurd (hgone j (by omega)) hg'
    | release ha' hp' =>
      obtain ⟨r', z', hr', hz', h2', h3'⟩ := rel hy hp'
      obtain ⟨d', hd', hg', hlk', _, hgone'⟩ := remove_use h hz' h2'
      have hrr : r = r' := by
        rcases Nat.lt_trichotomy r r' with hlt | heq | hgt
        · exact absurd (hgone r' hlt) hg'
        · exact heq
        · exact absurd (hgone' r hgt) hg
      subst hrr
      rw [hz', Option.some.injEq] at hz
      subst hz
      exact .thread hij hx hy (by rw [← h3, ← h3'])
    | query d' ha' => exact absurd ha' hyq
  | query d ha => exact absurd ha hxq

end Mimic
