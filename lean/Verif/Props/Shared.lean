import Verif.Proofs.Shared

/-!
# C85: The reporter and several threads
-/

set_option autoImplicit false

namespace Mimic.Shared

/-- However the threads are scheduled, the default reporter is made at most once, and before any other thread gets to the pointer. -/
theorem C85_once {tr : Schedule} {s : State} (h : Leads tr s) {i j : Nat} {x y : Entry} (hx : tr[i]? = some x) (hy : tr[j]? = some y)
    (hi : x.log.inits.isSome) :
    (y.log.inits.isSome → i = j) ∧ (y.log.visits = true → i = j ∨ Before tr i j) := by
  have inv := leads_inv h
  have sy := leads_shape h y (List.mem_of_getElem? hy)
  have sx := leads_shape h x (List.mem_of_getElem? hx)
  have vis : ∀ z : Entry, Shape z → z.log.inits.isSome → z.log.visits = true := by
    intro z sz hz
    cases ha : z.act with
    | enter => exact (sz.1 ha).1
    | assign => exact (sz.2.1 ha).1
    | deliver => rw [(sz.2.2.1 ha).2.2] at hz; cases hz
    | make => rw [(sz.2.2.2.1 (.inl ha)).2] at hz; cases hz
    | destroy => rw [(sz.2.2.2.1 (.inr ha)).2] at hz; cases hz
    | release c => rw [sz.2.2.2.2 ⟨c, .inl ha⟩] at hz; cases hz
    | acquire c => rw [sz.2.2.2.2 ⟨c, .inr ha⟩] at hz; cases hz
  constructor
  · intro hj
    have h1 := inv.first i j x y hx hy hi (vis y sy hj)
    have h2 := inv.first j i y x hy hx hj (vis x sx hi)
    omega
  · intro hv
    have h1 := inv.first i j x y hx hy hi hv
    by_cases hij : i = j
    · exact .inl hij
    · exact .inr (.static (by omega) hx hy hi hv)

/-- If the client keeps its installations apart from everything else, there is no data race. -/
theorem C85_race_free {tr : Schedule} {s : State} (h : Leads tr s) (ha : Apart tr) (i j : Nat) : ¬ Race tr i j := race_free h ha i j

/-- Threads that only report need no synchronisation, not even for the first report. -/
theorem C85_reports_only {tr : Schedule} {s : State} (h : Leads tr s) (hn : NoInstall tr) (i j : Nat) : ¬ Race tr i j :=
  race_free h (fun i _ x _ hx _ _ hm _ => absurd hm (hn x (List.mem_of_getElem? hx))) i j

/-- It is necessary that installations are kept apart: a thread that exchanges the reporter while another one begins a report, or
exchanges the reporter, is a data race. -/
theorem C85_needed {tr : Schedule} {s : State} (h : Leads tr s) {i j : Nat} {x y : Entry} (hx : tr[i]? = some x) (hy : tr[j]? = some y)
    (hn : x.thread ≠ y.thread) (ha : x.act = .assign) (hb : y.act = .enter ∨ y.act = .assign)
    (h1 : ¬ Before tr i j) (h2 : ¬ Before tr j i) : Race tr i j := by
  have sx := leads_shape h x (List.mem_of_getElem? hx)
  have sy := leads_shape h y (List.mem_of_getElem? hy)
  refine ⟨x, y, hx, hy, hn, ⟨.pointer, (sx.2.1 ha).2.2, .inl ?_⟩, h1, h2⟩
  rcases hb with hb | hb
  · rw [(sy.1 hb).2.1]; simp
  · rw [(sy.2.1 hb).2.1]; simp

/-- Every report goes to the reporter that was in force when the report began. -/
theorem C85_reported_to {tr : Schedule} {s : State} (h : Leads tr s) {j : Nat} {y : Entry} (hy : tr[j]? = some y)
    (ha : y.act = .deliver) : ∃ i, InReport tr i j ∧ inForce (tr.take (i + 1)) = y.log.whom ∧ y.log.whom.isSome := by
  obtain ⟨i, x, _, _, _, _, h5, h6⟩ := ((leads_inv h).formed j y hy).1 ha
  exact ⟨i, h5, h6, deliver_whom h hy ha⟩

/-- If installations are kept apart, this one is still in force when it is used. -/
theorem C85_still_in_force {tr : Schedule} {s : State} (h : Leads tr s) (hap : Apart tr) {j : Nat} {y : Entry} (hy : tr[j]? = some y)
    (ha : y.act = .deliver) : inForce (tr.take j) = y.log.whom := by
  obtain ⟨i, hir, hf, hsome⟩ := C85_reported_to h hy ha
  obtain ⟨k, hk⟩ := Option.isSome_iff_exists.mp hsome
  rw [hk] at hf ⊢
  have hlt : i < j := by
    obtain ⟨x, y', h1, h2, h3, h4, h5 | h5⟩ := hir
    · subst h5; rw [h1, Option.some.injEq] at h2; subst h2
      rw [hy, Option.some.injEq] at h1; subst h1; rw [h4] at ha; cases ha
    · exact h5.1
  refine inForce_stable hf (by omega) ?_
  intro p z hp hpj hz hza
  obtain ⟨i₀, iz⟩ := ((leads_inv h).formed p z hz).2 (.inl hza)
  have hir' := hir
  obtain ⟨x, hx, hxt, _⟩ := hir.thread hy
  have hne : z.thread ≠ y.thread := by
    obtain ⟨x', y', h1, h2, h3, h4, h5 | ⟨_, _, h5⟩⟩ := hir'
    · omega
    · rw [hx, Option.some.injEq] at h1; subst h1
      rw [← hxt]
      exact h5 p z (by omega) hpj hz
  have hself : InReport tr i i := by
    obtain ⟨x', y', h1, h2, h3, h4, h5⟩ := hir'
    exact ⟨x', x', h1, h1, rfl, h4, .inl rfl⟩
  obtain ⟨w, hw, hwt, hwa⟩ := iz.thread hz
  obtain ⟨x', hx', hxt', hxa'⟩ := hir'.thread hy
  rcases hap i₀ i w x' hw hx' (by rw [hwt, hxt']; exact hne) hwa (.inl hxa') with hh | hh
  · have := (hh p i iz (.inl hself)).lt; omega
  · have := (hh p j iz (.inl hir')).lt; omega

/-- Nothing is ever destroyed twice, and a reporter is used after its destruction only if the client does not keep its installations
apart. -/
theorem C85_defined {tr : Schedule} {s : State} (h : Leads tr s) {t : Nat} {a : Act} (hu : s.step t a = .undefined) :
    a = .deliver ∧ ¬ Apart (tr ++ [⟨t, .deliver, {}⟩]) := by
  have inv := leads_inv h
  unfold State.step at hu
  cases a with
  | enter => simp only at hu; split at hu <;> cases hu
  | make => simp only at hu; split at hu <;> cases hu
  | assign => simp only at hu; split at hu <;> cases hu
  | release c => simp only at hu; split at hu <;> cases hu
  | acquire c => simp only at hu; split at hu <;> cases hu
  | destroy =>
    simp only at hu
    split at hu
    · rename_i old ht
      split at hu
      · rename_i hd
        exact absurd hd (inv.apart₂ t old (by rw [ht]; rfl))
      · cases hu
    · cases hu
  | deliver =>
    refine ⟨rfl, fun hap => ?_⟩
    simp only at hu
    split at hu
    · rename_i k ht
      split at hu
      · rename_i hd
        have hp := inv.place t
        rw [ht] at hp
        obtain ⟨e, x, h1, h2, h3, h4, h5, h6⟩ := hp
        obtain ⟨i, p, d, y, g1, g2, g3, g4, g5, g6⟩ := inv.dead k hd
        have hel := at_lt h1
        have hep : e + 1 ≤ p := by
          by_cases hh : p < e + 1
          · exact absurd h6 (g5 (e + 1) hh (by omega))
          · omega
        obtain ⟨w, hw, hwt, hwa⟩ := g6.thread g1
        have hne : w.thread ≠ x.thread := by
          rw [hwt, h2]; exact h5 p y (by omega) g1
        have hr : InReport (tr ++ [⟨t, .deliver, {}⟩]) e tr.length := by
          refine ⟨x, _, at_snoc.mpr (.inl h1), at_snoc.mpr (.inr ⟨rfl, rfl⟩), h2, h3, .inr ⟨hel, rfl, ?_⟩⟩
          intro j z hj hj' hz
          rcases at_snoc.mp hz with hz' | ⟨hz', _⟩
          · rw [h2]; exact h5 j z hj hz'
          · omega
        have hr' : InReport (tr ++ [⟨t, .deliver, {}⟩]) e e :=
          ⟨x, x, at_snoc.mpr (.inl h1), at_snoc.mpr (.inl h1), rfl, h3, .inl rfl⟩
        have := at_lt g1
        rcases hap i e w x (at_snoc.mpr (.inl hw)) (at_snoc.mpr (.inl h1)) hne hwa (.inl h3) with hh | hh
        · have := (hh p e (g6.snoc _) (.inl hr')).lt; omega
        · have := (hh p tr.length (g6.snoc _) (.inl hr)).lt; omega
      · cases hu
    · cases hu

/-- The usual way to keep installations apart: one thread installs reporters, and the others are started afterwards. -/
theorem C85_startup {tr : Schedule} {u r c : Nat} (hr : ∃ l, tr[r]? = some ⟨u, .release c, l⟩)
    (hinst : ∀ (i : Nat) x, tr[i]? = some x → x.act = .make → x.thread = u ∧ i < r)
    (hothers : ∀ (j : Nat) y, tr[j]? = some y → y.thread ≠ u →
      ∃ (a : Nat) (z : Entry), r < a ∧ a ≤ j ∧ tr[a]? = some z ∧ z.thread = y.thread ∧ z.act = .acquire c) :
    Apart tr := by
  obtain ⟨l, hr⟩ := hr
  intro i i' x x' hx hx' hn hm _
  obtain ⟨hxu, hir⟩ := hinst i x hx hm
  refine .inl (fun j j' hj hj' => ?_)
  obtain ⟨y', hy', hyt⟩ : ∃ y', tr[j']? = some y' ∧ x'.thread = y'.thread := by
    rcases hj' with ⟨a, b, h1, h2, h3, _⟩ | ⟨a, b, h1, h2, h3, _⟩ <;>
      (rw [hx', Option.some.injEq] at h1; subst h1; exact ⟨b, h2, h3⟩)
  obtain ⟨a, z, h1, h2, h3, h4, h5⟩ := hothers j' y' hy' (by rw [← hyt, ← hxu]; exact Ne.symm hn)
  obtain ⟨w, y, g1, g2, g3, g4, g5⟩ := hj
  rw [hx, Option.some.injEq] at g1
  subst g1
  have hjr : j < r := by
    rcases g5 with rfl | ⟨g5, _, g6⟩
    · exact hir
    · rcases Nat.lt_trichotomy j r with hh | hh | hh
      · exact hh
      · subst hh; rw [hr, Option.some.injEq] at g2; subst g2; simp at *
      · have := g6 r _ hir hh hr (by rw [hxu]); cases this
  have hb : Before tr j a := .trans (.thread hjr g2 hr (by rw [← g3, hxu])) (.client h1 hr h3 rfl h5)
  by_cases haj : a = j'
  · rw [← haj]; exact hb
  · exact .trans hb (.thread (by omega) h3 hy' h4)

/-! ### Examples -/

theorem perform_leads {as : List (Nat × Act)} : ∀ {s s' : State} {tr tr' : Schedule}, Leads tr s → perform as s tr = some (tr', s') →
    Leads tr' s' := by
  induction as with
  | nil =>
    intro s s' tr tr' h hp
    simp only [perform, Option.some.injEq, Prod.mk.injEq] at hp
    obtain ⟨rfl, rfl⟩ := hp
    exact h
  | cons ta as ih =>
    intro s s' tr tr' h hp
    obtain ⟨t, a⟩ := ta
    unfold perform at hp
    split at hp
    · rename_i l s₁ hs
      exact ih (.step h hs) hp
    · cases hp

/-- Thread 0 installs a reporter and starts threads 1 and 2, which both report. -/
def started : List (Nat × Act) :=
  [(0, .make), (0, .assign), (0, .destroy), (0, .release 7), (1, .acquire 7), (2, .acquire 7), (1, .enter), (2, .enter), (2, .deliver),
    (1, .deliver)]

def startedSchedule : Schedule := ((perform started {} []).map (·.1)).getD []

example : startedSchedule.map (fun x => (x.thread, x.act, x.log.whom)) =
    [(0, .make, some 0), (0, .assign, some 0), (0, .destroy, some 1), (0, .release 7, none), (1, .acquire 7, none),
      (2, .acquire 7, none), (1, .enter, none), (2, .enter, none), (2, .deliver, some 0), (1, .deliver, some 0)] := by decide +kernel

theorem started_leads : ∃ s, Leads startedSchedule s := by
  refine ⟨((perform started {} []).map (·.2)).getD {}, ?_⟩
  exact perform_leads (as := started) .start rfl

theorem started_apart : Apart startedSchedule := by
  refine C85_startup (u := 0) (r := 3) (c := 7) ⟨_, rfl⟩ ?_ ?_
  · intro i x hx hm
    have hl : i < 10 := at_lt hx
    have key : ∀ i : Fin 10, ∀ x, startedSchedule[i.val]? = some x → x.act = .make → x.thread = 0 ∧ i.val < 3 := by decide +kernel
    exact key ⟨i, hl⟩ x hx hm
  · intro j y hy hn
    have hl : j < 10 := at_lt hy
    have key : ∀ j : Fin 10, ∀ y, startedSchedule[j.val]? = some y → y.thread ≠ 0 →
        ∃ a : Fin 10, 3 < a.val ∧ a.val ≤ j.val ∧
          startedSchedule[a.val]?.map (fun z => (z.thread, z.act)) = some (y.thread, .acquire 7) := by
      decide +kernel
    obtain ⟨a, h1, h2, h3⟩ := key ⟨j, hl⟩ y hy hn
    obtain ⟨z, hz, h4⟩ := Option.map_eq_some_iff.mp h3
    simp only [Prod.mk.injEq] at h4
    exact ⟨a.val, z, h1, h2, hz, h4.1, h4.2⟩

example (i j : Nat) : ¬ Race startedSchedule i j := by
  obtain ⟨s, h⟩ := started_leads
  exact C85_race_free h started_apart i j

/-- Thread 2 has reported; now thread 0 reports while thread 1 installs a reporter. -/
def clash : List (Nat × Act) :=
  [(2, .enter), (2, .deliver), (0, .enter), (1, .make), (1, .assign), (1, .destroy)]

def clashSchedule : Schedule := ((perform clash {} []).map (·.1)).getD []
def clashState : State := ((perform clash {} []).map (·.2)).getD {}

theorem clash_leads : Leads clashSchedule clashState := perform_leads (as := clash) .start rfl

/-- Nothing comes after the report of thread 0, and nothing before the assignment of thread 1 but its own steps and the first use. -/
theorem clash_order {i j : Nat} (h : Before clashSchedule i j) : i ≠ 2 := by
  induction h with
  | @thread i j x y hlt hx hy ht =>
    rintro rfl
    have hl : j < 6 := at_lt hy
    obtain rfl | rfl | rfl : j = 3 ∨ j = 4 ∨ j = 5 := by omega
    all_goals (cases hx; cases hy; cases ht)
  | @static i j x y hlt hx hy hi hv => rintro rfl; cases hx; cases hi
  | @client i j x y c hlt hx hy hr ha => rintro rfl; cases hx; cases hr
  | trans _ _ ih _ => exact ih

/-- Without synchronisation there is a data race, and the reporter is destroyed while it is about to be used. -/
theorem C85_unsynchronised : ∃ tr s, Leads tr s ∧ (∃ i j, Race tr i j) ∧ ∃ t, s.step t .deliver = .undefined := by
  refine ⟨clashSchedule, clashState, clash_leads, ⟨4, 2, ?_⟩, 0, rfl⟩
  refine C85_needed clash_leads (x := clashSchedule[4]'(by decide +kernel)) (y := clashSchedule[2]'(by decide +kernel)) rfl rfl
    (by decide +kernel) (by decide +kernel) (.inl (by decide +kernel)) ?_ ?_
  · intro h; have := h.lt; omega
  · intro h; exact clash_order h rfl

/-- Two threads report for the first time at once: no race, and both reach the one default reporter. -/
def firstUse : List (Nat × Act) := [(1, .enter), (2, .enter), (2, .deliver), (1, .deliver)]

example : ((perform firstUse {} []).map (fun r => r.1.map (fun x => (x.thread, x.log.inits, x.log.whom)))) =
    some [(1, some 0, none), (2, none, none), (2, none, some 0), (1, none, some 0)] := by decide +kernel

def firstUseSchedule : Schedule := ((perform firstUse {} []).map (·.1)).getD []

example (i j : Nat) : ¬ Race firstUseSchedule i j :=
  C85_reports_only (perform_leads (as := firstUse) (s' := ((perform firstUse {} []).map (·.2)).getD {}) .start rfl)
    (by intro x hx; revert x; decide +kernel) i j

end Mimic.Shared
