import Verif.Spec.Shared

/-!
# Proofs about reports and installations by several threads
-/

set_option autoImplicit false

namespace Mimic.Shared

/-! ### The reporter in force -/

theorem inForce_snoc_assign (tr : Schedule) (x : Entry) (h : x.act = .assign) : inForce (tr ++ [x]) = x.log.whom := by
  simp [inForce, h]

theorem inForce_snoc_other (tr : Schedule) (x : Entry) (h : x.act ≠ .assign) :
    inForce (tr ++ [x]) = match inForce tr with
      | some k => some k
      | none => if (tr.filter (fun x => x.act = .assign)) = [] then x.log.inits else none := by
  unfold inForce
  simp only [List.filter_append, List.findSome?_append]
  have : List.filter (fun x => decide (x.act = Act.assign)) [x] = [] := by simp [h]
  rw [this, List.append_nil]
  cases hf : (tr.filter (fun x => decide (x.act = Act.assign))).getLast? with
  | some y =>
    have : tr.filter (fun x => decide (x.act = Act.assign)) ≠ [] := by intro h0; rw [h0] at hf; simp at hf
    simp only [this, if_false]
    cases y.log.whom <;> rfl
  | none =>
    have : tr.filter (fun x => decide (x.act = Act.assign)) = [] := by
      simpa [List.getLast?_eq_none_iff] using hf
    simp only [this, if_true]
    cases tr.findSome? (·.log.inits) <;> simp [List.findSome?] <;> cases x.log.inits <;> rfl

/-! ### Lookups -/

theorem at_snoc {tr : Schedule} {x y : Entry} {i : Nat} :
    (tr ++ [x])[i]? = some y ↔ tr[i]? = some y ∨ (i = tr.length ∧ y = x) := by
  rcases Nat.lt_trichotomy i tr.length with h | h | h
  · rw [List.getElem?_append_left h]; grind
  · subst h; simp [eq_comm]
  · rw [List.getElem?_eq_none (by simp; omega), List.getElem?_eq_none (by omega)]; grind

theorem at_lt {tr : Schedule} {y : Entry} {i : Nat} (h : tr[i]? = some y) : i < tr.length := by
  rw [List.getElem?_eq_some_iff] at h; exact h.1

theorem Before.lt {tr : Schedule} {i j : Nat} (h : Before tr i j) : i < j := by
  induction h with
  | thread h => exact h
  | static h => exact h
  | client h => exact h
  | trans _ _ h1 h2 => omega

theorem InReport.snoc {tr : Schedule} {i j : Nat} (x : Entry) (h : InReport tr i j) : InReport (tr ++ [x]) i j := by
  obtain ⟨a, b, ha, hb, ht, hact, h⟩ := h
  refine ⟨a, b, at_snoc.mpr (.inl ha), at_snoc.mpr (.inl hb), ht, hact, ?_⟩
  rcases h with h | ⟨h1, h2, h3⟩
  · exact .inl h
  · refine .inr ⟨h1, h2, fun k z hk hk' hz => ?_⟩
    rcases at_snoc.mp hz with hz | ⟨hz, _⟩
    · exact h3 k z hk hk' hz
    · have := at_lt hb; omega

theorem InInstall.snoc {tr : Schedule} {i j : Nat} (x : Entry) (h : InInstall tr i j) : InInstall (tr ++ [x]) i j := by
  obtain ⟨a, b, ha, hb, ht, hact, h⟩ := h
  refine ⟨a, b, at_snoc.mpr (.inl ha), at_snoc.mpr (.inl hb), ht, hact, ?_⟩
  rcases h with h | ⟨h1, h2, h3⟩
  · exact .inl h
  · refine .inr ⟨h1, h2, fun k z hk hk' hz => ?_⟩
    rcases at_snoc.mp hz with hz | ⟨hz, _⟩
    · exact h3 k z hk hk' hz
    · have := at_lt hb; omega

/-- No step of thread `t` after step `i`. -/
def Last (tr : Schedule) (t i : Nat) : Prop := ∀ (j : Nat) y, i < j → tr[j]? = some y → y.thread ≠ t

theorem Last.snoc {tr : Schedule} {t i : Nat} {x : Entry} (h : Last tr t i) (hx : x.thread ≠ t) : Last (tr ++ [x]) t i := by
  intro j y hj hy
  rcases at_snoc.mp hy with hy | ⟨_, rfl⟩
  · exact h j y hj hy
  · exact hx

/-- From step `p` on, reporter `k` is not in force. -/
def Over (tr : Schedule) (p k : Nat) : Prop := ∀ j, p < j → j ≤ tr.length → inForce (tr.take j) ≠ some k

theorem Over.snoc {tr : Schedule} {p k : Nat} {x : Entry} (h : Over tr p k) (hx : inForce (tr ++ [x]) ≠ some k) :
    Over (tr ++ [x]) p k := by
  intro j hj hl
  by_cases hj' : j ≤ tr.length
  · rw [List.take_append_of_le_length hj']; exact h j hj hj'
  · have : j = (tr ++ [x]).length := by simp at hl ⊢; omega
    rw [this, List.take_length]; exact hx

theorem Over.last {tr : Schedule} {x : Entry} {k : Nat} (hx : inForce (tr ++ [x]) ≠ some k) : Over (tr ++ [x]) tr.length k := by
  intro j hj hl
  have : j = (tr ++ [x]).length := by simp at hl ⊢; omega
  rw [this, List.take_length]; exact hx

/-- What is known where a thread is. -/
def Place (tr : Schedule) (t : Nat) : Where → Prop
  | .idle => True
  | .reporting k => ∃ (i : Nat) (x : Entry), tr[i]? = some x ∧ x.thread = t ∧ x.act = .enter ∧ x.log.visits = true ∧ Last tr t i ∧
      inForce (tr.take (i + 1)) = some k
  | .made k => ∃ (i : Nat) (x : Entry), tr[i]? = some x ∧ x.thread = t ∧ x.act = .make ∧ x.log.whom = some k ∧ Last tr t i
  | .replaced k => ∃ (i p : Nat) (x : Entry), tr[p]? = some x ∧ x.thread = t ∧ InInstall tr i p ∧ x.act = .assign ∧ i < p ∧
      Last tr t p ∧ Over tr p k

/-- Who is responsible for a reporter that is alive and not in force. -/
def Where.holds : Where → Option Nat
  | .made k => some k
  | .replaced k => some k
  | _ => none

/-- The steps of a thread form reports and installations. -/
def Formed (tr : Schedule) (j : Nat) (y : Entry) : Prop :=
  (y.act = .deliver → ∃ (i : Nat) (x : Entry), i < j ∧ tr[i]? = some x ∧ x.act = .enter ∧ x.log.visits = true ∧ InReport tr i j ∧
      inForce (tr.take (i + 1)) = y.log.whom) ∧
  ((y.act = .assign ∨ y.act = .destroy) → ∃ i, InInstall tr i j)

structure Inv (tr : Schedule) (s : State) : Prop where
  slot : s.slot = inForce tr
  unset : s.slot = none ↔ ∀ x ∈ tr, x.log.visits = false
  first : ∀ (i j : Nat) x y, tr[i]? = some x → tr[j]? = some y → x.log.inits.isSome → y.log.visits = true → i ≤ j
  place : ∀ t, Place tr t (s.threads t)
  fresh : ∀ k, (s.slot = some k ∨ k ∈ s.dead ∨ ∃ t, (s.threads t).holds = some k) → k < s.count
  apart₁ : ∀ k, s.slot = some k → k ∉ s.dead ∧ ∀ t, (s.threads t).holds ≠ some k
  apart₂ : ∀ t k, (s.threads t).holds = some k → k ∉ s.dead
  apart₃ : ∀ t u k, (s.threads t).holds = some k → (s.threads u).holds = some k → t = u
  dead : ∀ k ∈ s.dead, ∃ (i p d : Nat) (x : Entry), tr[p]? = some x ∧ x.act = .assign ∧ p < d ∧ InInstall tr i d ∧ Over tr p k ∧
    InInstall tr i p
  formed : ∀ (j : Nat) y, tr[j]? = some y → Formed tr j y

/-! ### One step -/

/-- What the steps look like. -/
def Shape (y : Entry) : Prop :=
  (y.act = .enter → y.log.visits = true ∧ y.log.reads = [.pointer] ∧ (y.log.inits = none → y.log.writes = [])) ∧
  (y.act = .assign → y.log.visits = true ∧ y.log.reads = [.pointer] ∧ .pointer ∈ y.log.writes) ∧
  (y.act = .deliver → y.log.visits = false ∧ y.log.writes = [] ∧ y.log.inits = none) ∧
  (y.act = .make ∨ y.act = .destroy → y.log.visits = false ∧ y.log.inits = none) ∧
  ((∃ c, y.act = .release c ∨ y.act = .acquire c) → y.log = {})

theorem step_shape {s s' : State} {t : Nat} {a : Act} {l : Log} (h : s.step t a = .next l s') : Shape ⟨t, a, l⟩ := by
  unfold State.step State.get at h
  cases a <;> simp only [] at h <;> (repeat' split at h) <;> simp only [reduceCtorEq, Result.next.injEq] at h <;>
    obtain ⟨rfl, rfl⟩ := h <;> simp_all [Shape] <;> grind

theorem leads_shape {tr : Schedule} {s : State} (h : Leads tr s) : ∀ x ∈ tr, Shape x := by
  induction h with
  | start => simp
  | step h hs ih =>
    intro x hx
    simp only [List.mem_append, List.mem_singleton] at hx
    rcases hx with hx | rfl
    · exact ih x hx
    · exact step_shape hs

/-- `get_reporter` and the schedule. -/
theorem visit_first {tr : Schedule} {s : State} (h : Inv tr s) (x : Entry) (hv : x.log.visits = true → x.log.inits.isSome → s.slot = none)
    (hi : x.log.inits.isSome → x.log.visits = true) (hn : x.log.visits = true → s.slot = none → x.log.inits.isSome) :
    ∀ (i j : Nat) y z, (tr ++ [x])[i]? = some y → (tr ++ [x])[j]? = some z → y.log.inits.isSome → z.log.visits = true → i ≤ j := by
  intro i j y z hy hz hyi hzv
  rcases at_snoc.mp hy with hy' | ⟨hi', hy'⟩ <;> rcases at_snoc.mp hz with hz' | ⟨hj', hz'⟩
  · exact h.first i j y z hy' hz' hyi hzv
  · have := at_lt hy'; omega
  · subst hy'
    have := h.unset.mp (hv (hi hyi) hyi) z (List.mem_of_getElem? hz')
    rw [hzv] at this; cases this
  · omega

/-- What stays as it is for the other threads. -/
theorem place_other {tr : Schedule} {t : Nat} {l : Where} {x : Entry} (h : Place tr t l) (hx : x.thread ≠ t)
    (hf : ∀ k, l = .replaced k → inForce (tr ++ [x]) ≠ some k) : Place (tr ++ [x]) t l := by
  cases l with
  | idle => trivial
  | reporting k =>
    obtain ⟨i, y, h1, h2, h3, h4, h5, h6⟩ := h
    refine ⟨i, y, at_snoc.mpr (.inl h1), h2, h3, h4, h5.snoc hx, ?_⟩
    rw [List.take_append_of_le_length (by have := at_lt h1; omega)]; exact h6
  | made k =>
    obtain ⟨i, y, h1, h2, h3, h4, h5⟩ := h
    exact ⟨i, y, at_snoc.mpr (.inl h1), h2, h3, h4, h5.snoc hx⟩
  | replaced k =>
    obtain ⟨i, p, y, h1, h2, h3, h4, h5, h6, h7⟩ := h
    exact ⟨i, p, y, at_snoc.mpr (.inl h1), h2, h3.snoc x, h4, h5, h6.snoc hx, h7.snoc (hf k rfl)⟩

theorem formed_snoc {tr : Schedule} {j : Nat} {x y : Entry} (h : Formed tr j y) : Formed (tr ++ [x]) j y := by
  refine ⟨fun ha => ?_, fun ha => ?_⟩
  · obtain ⟨i, z, h1, h2, h3, h4, h5, h6⟩ := h.1 ha
    refine ⟨i, z, h1, at_snoc.mpr (.inl h2), h3, h4, h5.snoc x, ?_⟩
    rw [List.take_append_of_le_length (by have := at_lt h2; omega)]; exact h6
  · obtain ⟨i, h1⟩ := h.2 ha
    exact ⟨i, h1.snoc x⟩

theorem formed_all {tr : Schedule} {s : State} {x : Entry} (h : Inv tr s) (hx : Formed (tr ++ [x]) tr.length x) :
    ∀ (j : Nat) y, (tr ++ [x])[j]? = some y → Formed (tr ++ [x]) j y := by
  intro j y hy
  rcases at_snoc.mp hy with hy | ⟨rfl, rfl⟩
  · exact formed_snoc (h.formed j y hy)
  · exact hx

theorem dead_snoc {tr : Schedule} {s : State} {x : Entry} (h : Inv tr s) (hx : ∀ k ∈ s.dead, inForce (tr ++ [x]) ≠ some k) :
    ∀ k ∈ s.dead, ∃ (i p d : Nat) (y : Entry), (tr ++ [x])[p]? = some y ∧ y.act = .assign ∧ p < d ∧ InInstall (tr ++ [x]) i d ∧
      Over (tr ++ [x]) p k ∧ InInstall (tr ++ [x]) i p := by
  intro k hk
  obtain ⟨i, p, d, y, h1, h2, h3, h4, h5, h6⟩ := h.dead k hk
  exact ⟨i, p, d, y, at_snoc.mpr (.inl h1), h2, h3, h4.snoc x, h5.snoc (hx k hk), h6.snoc x⟩

/-- A step that does not visit `get_reporter` leaves the reporter in force as it is. -/
theorem inForce_quiet {tr : Schedule} {x : Entry} (h1 : x.act ≠ .assign) (h2 : x.log.inits = none) :
    inForce (tr ++ [x]) = inForce tr := by
  rw [inForce_snoc_other tr x h1, h2]
  cases inForce tr <;> simp

theorem go_threads (s : State) (t u : Nat) (l : Where) : (s.go t l).threads u = if u = t then l else s.threads u := rfl

theorem Inv.quiet {tr : Schedule} {s : State} {x : Entry} (h : Inv tr s) (h1 : x.act ≠ .assign) (h2 : x.log.inits = none)
    (h3 : x.log.visits = false) :
    s.slot = inForce (tr ++ [x]) ∧ (s.slot = none ↔ ∀ y ∈ tr ++ [x], y.log.visits = false) ∧
    (∀ (i j : Nat) y z, (tr ++ [x])[i]? = some y → (tr ++ [x])[j]? = some z → y.log.inits.isSome → z.log.visits = true → i ≤ j) := by
  refine ⟨by rw [inForce_quiet h1 h2]; exact h.slot, ?_, ?_⟩
  · rw [h.unset]
    constructor
    · intro hh y hy
      simp only [List.mem_append, List.mem_singleton] at hy
      rcases hy with hy | rfl
      · exact hh y hy
      · exact h3
    · intro hh y hy
      exact hh y (List.mem_append_left _ hy)
  · exact visit_first h x (by rw [h3]; intro hh; cases hh) (by rw [h2]; intro hh; cases hh) (by rw [h3]; intro hh; cases hh)

theorem Inv.dead_quiet {tr : Schedule} {s : State} {x : Entry} (h : Inv tr s) (hq : s.slot = inForce (tr ++ [x])) :
    ∀ k ∈ s.dead, ∃ (i p d : Nat) (y : Entry), (tr ++ [x])[p]? = some y ∧ y.act = .assign ∧ p < d ∧ InInstall (tr ++ [x]) i d ∧
      Over (tr ++ [x]) p k ∧ InInstall (tr ++ [x]) i p := by
  refine dead_snoc h (fun k hk => ?_)
  rw [← hq]
  exact fun hs => (h.apart₁ k hs).1 hk

/-- The client synchronises. -/
theorem Inv.release {tr : Schedule} {s : State} {t : Nat} {a : Act} (h : Inv tr s) (ht : s.threads t = .idle)
    (ha : ∃ c, a = .release c ∨ a = .acquire c) : Inv (tr ++ [⟨t, a, {}⟩]) s := by
  have hq := h.quiet (x := ⟨t, a, {}⟩) (by grind) rfl rfl
  refine ⟨hq.1, hq.2.1, hq.2.2, ?_, h.fresh, h.apart₁, h.apart₂, h.apart₃, ?_, ?_⟩
  · intro u
    by_cases hu : u = t
    · subst hu; rw [ht]; trivial
    · refine place_other (h.place u) (by simpa [eq_comm] using hu) ?_
      intro k hk
      rw [← hq.1]
      intro hs
      exact (h.apart₁ k hs).2 u (by rw [hk]; rfl)
  · refine dead_snoc h (fun k hk => ?_)
    rw [← hq.1]
    exact fun hs => (h.apart₁ k hs).1 hk
  · exact formed_all h ⟨by grind, by grind⟩

theorem Inv.deliver {tr : Schedule} {s : State} {t k : Nat} (h : Inv tr s) (ht : s.threads t = .reporting k) :
    Inv (tr ++ [⟨t, .deliver, { reads := [.reporter k], whom := some k }⟩]) (s.go t .idle) := by
  have hq := h.quiet (x := ⟨t, .deliver, { reads := [.reporter k], whom := some k }⟩) (by simp) rfl rfl
  refine ⟨hq.1, hq.2.1, hq.2.2, ?_, ?_, ?_, ?_, ?_, ?_, ?_⟩
  · intro u
    rw [go_threads]
    split
    · trivial
    · rename_i hu
      refine place_other (h.place u) (by simpa [eq_comm] using hu) ?_
      intro k hk
      rw [← hq.1]
      intro hs
      exact (h.apart₁ k hs).2 u (by rw [hk]; rfl)
  · intro j hj
    refine h.fresh j ?_
    rcases hj with hj | hj | ⟨u, hj⟩
    · exact .inl hj
    · exact .inr (.inl hj)
    · rw [go_threads] at hj
      split at hj
      · cases hj
      · exact .inr (.inr ⟨u, hj⟩)
  · intro j hj
    refine ⟨(h.apart₁ j hj).1, fun u => ?_⟩
    rw [go_threads]
    split
    · intro hh; cases hh
    · exact (h.apart₁ j hj).2 u
  · intro u j hj
    rw [go_threads] at hj
    split at hj
    · cases hj
    · exact h.apart₂ u j hj
  · intro u v j hu hv
    rw [go_threads] at hu hv
    split at hu
    · cases hu
    · split at hv
      · cases hv
      · exact h.apart₃ u v j hu hv
  · exact h.dead_quiet hq.1
  · refine formed_all h ⟨fun _ => ?_, by grind⟩
    have hp := h.place t
    rw [ht] at hp
    obtain ⟨i, y, h1, h2, h3, h4, h5, h6⟩ := hp
    have hl := at_lt h1
    refine ⟨i, y, hl, at_snoc.mpr (.inl h1), h3, h4, ?_, ?_⟩
    · refine ⟨y, _, at_snoc.mpr (.inl h1), at_snoc.mpr (.inr ⟨rfl, rfl⟩), h2, h3, .inr ⟨hl, rfl, ?_⟩⟩
      intro k' z hk hk' hz
      rcases at_snoc.mp hz with hz' | ⟨hz', _⟩
      · rw [h2]; exact h5 k' z hk hz'
      · omega
    · rw [List.take_append_of_le_length (by omega)]; exact h6

theorem Inv.make {tr : Schedule} {s : State} {t : Nat} (h : Inv tr s) (ht : s.threads t = .idle) :
    Inv (tr ++ [⟨t, .make, { writes := [.reporter s.count], whom := some s.count }⟩])
      ({ s with count := s.count + 1 }.go t (.made s.count)) := by
  have hq := h.quiet (x := ⟨t, .make, { writes := [.reporter s.count], whom := some s.count }⟩) (by simp) rfl rfl
  refine ⟨hq.1, hq.2.1, hq.2.2, ?_, ?_, ?_, ?_, ?_, ?_, ?_⟩
  · intro u
    rw [go_threads]
    split
    · rename_i hu
      refine ⟨tr.length, _, at_snoc.mpr (.inr ⟨rfl, rfl⟩), hu.symm, rfl, rfl, ?_⟩
      intro j y hj hy
      have := at_lt hy
      simp at this
      omega
    · rename_i hu
      refine place_other (h.place u) (by simpa [eq_comm] using hu) ?_
      intro k hk
      rw [← hq.1]
      intro hs
      exact (h.apart₁ k hs).2 u (by rw [hk]; rfl)
  · intro j hj
    simp only [State.go]
    have : (s.slot = some j ∨ j ∈ s.dead ∨ ∃ t, (s.threads t).holds = some j) ∨ j = s.count := by
      rcases hj with hj | hj | ⟨u, hj⟩
      · exact .inl (.inl hj)
      · exact .inl (.inr (.inl hj))
      · rw [go_threads] at hj
        split at hj
        · simp only [Where.holds, Option.some.injEq] at hj; exact .inr hj.symm
        · exact .inl (.inr (.inr ⟨u, hj⟩))
    rcases this with this | this
    · have := h.fresh j this; omega
    · omega
  · intro j hj
    refine ⟨(h.apart₁ j hj).1, fun u => ?_⟩
    rw [go_threads]
    split
    · intro hh
      simp only [Where.holds, Option.some.injEq] at hh
      have := h.fresh j (.inl hj)
      omega
    · exact (h.apart₁ j hj).2 u
  · intro u j hj
    rw [go_threads] at hj
    split at hj
    · simp only [Where.holds, Option.some.injEq] at hj
      intro hd
      have := h.fresh j (.inr (.inl hd))
      omega
    · exact h.apart₂ u j hj
  · intro u v j hu hv
    rw [go_threads] at hu hv
    split at hu <;> split at hv
    · omega
    · simp only [Where.holds, Option.some.injEq] at hu
      have := h.fresh j (.inr (.inr ⟨v, hv⟩))
      omega
    · simp only [Where.holds, Option.some.injEq] at hv
      have := h.fresh j (.inr (.inr ⟨u, hu⟩))
      omega
    · exact h.apart₃ u v j hu hv
  · exact h.dead_quiet hq.1
  · exact formed_all h ⟨by grind, by grind⟩

theorem Inv.destroy {tr : Schedule} {s : State} {t old : Nat} (h : Inv tr s) (ht : s.threads t = .replaced old) :
    Inv (tr ++ [⟨t, .destroy, { writes := [.reporter old], whom := some old }⟩]) ({ s with dead := old :: s.dead }.go t .idle) := by
  have hq := h.quiet (x := ⟨t, .destroy, { writes := [.reporter old], whom := some old }⟩) (by simp) rfl rfl
  have hold : (s.threads t).holds = some old := by rw [ht]; rfl
  have hp := h.place t
  rw [ht] at hp
  obtain ⟨i, p, y, h1, h2, h3, h4, h5, h6, h7⟩ := hp
  have hin : InInstall (tr ++ [⟨t, .destroy, { writes := [.reporter old], whom := some old }⟩]) i tr.length := by
    obtain ⟨a, b, ha, hb, hab, hact, hrest⟩ := h3
    rw [h1, Option.some.injEq] at hb
    subst hb
    have := at_lt h1
    refine ⟨a, _, at_snoc.mpr (.inl ha), at_snoc.mpr (.inr ⟨rfl, rfl⟩), by rw [hab, h2], hact, .inr ⟨by omega, .inr rfl, ?_⟩⟩
    intro k z hk hk' hz hzt
    rcases at_snoc.mp hz with hz' | ⟨hz', _⟩
    · rcases Nat.lt_trichotomy k p with hkp | hkp | hkp
      · rcases hrest with hr | ⟨_, _, hr⟩
        · omega
        · exact hr k z hk hkp hz' hzt
      · subst hkp; rw [h1, Option.some.injEq] at hz'; subst hz'; exact h4
      · exact absurd (by rw [hzt, hab, h2]) (h6 k z hkp hz')
    · omega
  have hforce : inForce (tr ++ [⟨t, .destroy, { writes := [.reporter old], whom := some old }⟩]) ≠ some old := by
    rw [← hq.1]; exact fun hs => (h.apart₁ old hs).2 t hold
  refine ⟨hq.1, hq.2.1, hq.2.2, ?_, ?_, ?_, ?_, ?_, ?_, ?_⟩
  · intro u
    rw [go_threads]
    split
    · trivial
    · rename_i hu
      refine place_other (h.place u) (by simpa [eq_comm] using hu) ?_
      intro k hk
      rw [← hq.1]
      intro hs
      exact (h.apart₁ k hs).2 u (by rw [hk]; rfl)
  · intro j hj
    refine h.fresh j ?_
    rcases hj with hj | hj | ⟨u, hj⟩
    · exact .inl hj
    · rcases List.mem_cons.mp hj with rfl | hj
      · exact .inr (.inr ⟨t, hold⟩)
      · exact .inr (.inl hj)
    · rw [go_threads] at hj
      split at hj
      · cases hj
      · exact .inr (.inr ⟨u, hj⟩)
  · intro j hj
    refine ⟨?_, fun u => ?_⟩
    · intro hm
      rcases List.mem_cons.mp hm with rfl | hm
      · exact (h.apart₁ j hj).2 t hold
      · exact (h.apart₁ j hj).1 hm
    · rw [go_threads]
      split
      · intro hh; cases hh
      · exact (h.apart₁ j hj).2 u
  · intro u j hj hm
    rw [go_threads] at hj
    split at hj
    · cases hj
    · rename_i hu
      rcases List.mem_cons.mp hm with rfl | hm
      · exact hu (h.apart₃ u t j hj hold)
      · exact h.apart₂ u j hj hm
  · intro u v j hu hv
    rw [go_threads] at hu hv
    split at hu
    · cases hu
    · split at hv
      · cases hv
      · exact h.apart₃ u v j hu hv
  · intro k hk
    rcases List.mem_cons.mp hk with rfl | hk
    · exact ⟨i, p, tr.length, y, at_snoc.mpr (.inl h1), h4, at_lt h1, hin, h7.snoc hforce, h3.snoc _⟩
    · refine dead_snoc h (fun k hk => ?_) k hk
      rw [← hq.1]
      exact fun hs => (h.apart₁ k hs).1 hk
  · exact formed_all h ⟨by grind, fun _ => ⟨i, hin⟩⟩

/-! ### `get_reporter` -/

theorem get_spec (s : State) {k : Nat} {new : Option Nat} {ws : List Mem} {s' : State} (h : s.get = (k, new, ws, s')) :
    s'.dead = s.dead ∧ s'.threads = s.threads ∧ s'.slot = some k ∧
      ((s.slot = some k ∧ new = none ∧ s'.count = s.count) ∨ (s.slot = none ∧ new = some k ∧ k = s.count ∧ s'.count = s.count + 1)) := by
  unfold State.get at h
  split at h <;> simp only [Prod.mk.injEq] at h <;> obtain ⟨rfl, rfl, rfl, rfl⟩ := h <;> simp_all

/-- The reporter that `get_reporter` leads to. -/
structure Got (s s' : State) (k : Nat) : Prop where
  dead : s'.dead = s.dead
  threads : s'.threads = s.threads
  slot : s'.slot = some k
  count : s.count ≤ s'.count
  lt : k < s'.count
  was : ∀ j, s.slot = some j → j = k
  new : s.slot = none → k = s.count

theorem Inv.got {tr : Schedule} {s : State} (hi : Inv tr s) {k : Nat} {new : Option Nat} {ws : List Mem} {s' : State}
    (h : s.get = (k, new, ws, s')) : Got s s' k := by
  obtain ⟨h1, h2, h3, h4⟩ := get_spec s h
  rcases h4 with ⟨h4, h5, h6⟩ | ⟨h4, h5, h6, h7⟩
  · have := hi.fresh k (.inl h4)
    exact ⟨h1, h2, h3, by omega, by omega, by grind, by grind⟩
  · exact ⟨h1, h2, h3, by omega, by omega, by grind, by grind⟩

theorem Got.free {tr : Schedule} {s s' : State} {k : Nat} (g : Got s s' k) (h : Inv tr s) :
    k ∉ s.dead ∧ ∀ t, (s.threads t).holds ≠ some k := by
  cases hs : s.slot with
  | some j =>
    obtain rfl := g.was j hs
    exact h.apart₁ j hs
  | none =>
    have hk := g.new hs
    exact ⟨fun hd => by have := h.fresh k (.inr (.inl hd)); omega,
      fun t ht => by have := h.fresh k (.inr (.inr ⟨t, ht⟩)); omega⟩

theorem Inv.visit {tr : Schedule} {s : State} (h : Inv tr s) {k : Nat} {new : Option Nat} {ws : List Mem} {s' : State}
    (hg : s.get = (k, new, ws, s')) (x : Entry) (hv : x.log.visits = true) (hn : x.log.inits = new) :
    (∀ (i j : Nat) y z, (tr ++ [x])[i]? = some y → (tr ++ [x])[j]? = some z → y.log.inits.isSome → z.log.visits = true → i ≤ j) ∧
    ¬ ∀ y ∈ tr ++ [x], y.log.visits = false := by
  obtain ⟨_, _, _, h4⟩ := get_spec s hg
  refine ⟨visit_first h x (fun _ hh => ?_) (fun _ => hv) (fun _ hh => ?_), fun hh => ?_⟩
  · rcases h4 with ⟨h4, h5, _⟩ | ⟨h4, _⟩
    · rw [hn, h5] at hh; cases hh
    · exact h4
  · rcases h4 with ⟨h4, h5, _⟩ | ⟨h4, h5, _⟩
    · rw [h4] at hh; cases hh
    · rw [hn, h5]; rfl
  · have := hh x (by simp)
    rw [hv] at this; cases this

theorem Inv.visit_force {tr : Schedule} {s : State} (h : Inv tr s) (hsh : ∀ y ∈ tr, Shape y) {k : Nat} {new : Option Nat}
    {ws : List Mem} {s' : State} (hg : s.get = (k, new, ws, s')) (x : Entry) (ha : x.act ≠ .assign) (hn : x.log.inits = new) :
    inForce (tr ++ [x]) = some k := by
  obtain ⟨_, _, _, h4⟩ := get_spec s hg
  rw [inForce_snoc_other tr x ha, ← h.slot]
  rcases h4 with ⟨h4, h5, _⟩ | ⟨h4, h5, _⟩
  · rw [h4]
  · rw [h4]
    have : tr.filter (fun x => decide (x.act = Act.assign)) = [] := by
      rw [List.filter_eq_nil_iff]
      intro y hy hya
      have h1 := h.unset.mp h4 y hy
      have h2 := ((hsh y hy).2.1 (by simpa using hya)).1
      rw [h1] at h2; cases h2
    simp only [this, if_true]
    rw [hn, h5]

theorem Inv.enter {tr : Schedule} {s : State} {t : Nat} (h : Inv tr s) (hsh : ∀ y ∈ tr, Shape y)
    {k : Nat} {new : Option Nat} {ws : List Mem} {s' : State} (hg : s.get = (k, new, ws, s')) :
    Inv (tr ++ [⟨t, .enter, { reads := [.pointer], writes := ws, inits := new, visits := true }⟩]) (s'.go t (.reporting k)) := by
  have hv := h.visit hg ⟨t, .enter, { reads := [.pointer], writes := ws, inits := new, visits := true }⟩ rfl rfl
  have hf := h.visit_force hsh hg ⟨t, .enter, { reads := [.pointer], writes := ws, inits := new, visits := true }⟩ (by simp) rfl
  have g := h.got hg
  have gf := g.free h
  refine ⟨by rw [hf]; exact g.slot, ?_, hv.1, ?_, ?_, ?_, ?_, ?_, ?_, ?_⟩
  · simp only [State.go, g.slot]
    exact ⟨fun hh => (by cases hh), fun hh => absurd hh hv.2⟩
  · intro u
    rw [go_threads]
    split
    · rename_i hu
      refine ⟨tr.length, _, at_snoc.mpr (.inr ⟨rfl, rfl⟩), hu.symm, rfl, rfl, ?_, ?_⟩
      · intro j y hj hy
        have := at_lt hy
        simp at this
        omega
      · rw [List.take_of_length_le (by simp)]; exact hf
    · rename_i hu
      rw [g.threads]
      refine place_other (h.place u) (by simpa [eq_comm] using hu) ?_
      intro j hj
      rw [hf]
      intro hjk
      rw [Option.some.injEq] at hjk
      subst hjk
      exact gf.2 u (by rw [hj]; rfl)
  · intro j hj
    have : j = k ∨ (j ∈ s.dead ∨ ∃ t, (s.threads t).holds = some j) := by
      rcases hj with hj | hj | ⟨u, hj⟩
      · simp only [State.go, g.slot, Option.some.injEq] at hj; exact .inl hj.symm
      · simp only [State.go, g.dead] at hj; exact .inr (.inl hj)
      · rw [go_threads] at hj
        split at hj
        · cases hj
        · rw [g.threads] at hj; exact .inr (.inr ⟨u, hj⟩)
    simp only [State.go]
    rcases this with rfl | hh
    · exact g.lt
    · have := h.fresh j (.inr hh); have := g.count; omega
  · intro j hj
    simp only [State.go, g.slot, Option.some.injEq] at hj
    subst hj
    refine ⟨by simp only [State.go, g.dead]; exact gf.1, fun u => ?_⟩
    rw [go_threads]
    split
    · intro hh; cases hh
    · rw [g.threads]; exact gf.2 u
  · intro u j hj
    rw [go_threads] at hj
    split at hj
    · cases hj
    · rw [g.threads] at hj
      simp only [State.go, g.dead]
      exact h.apart₂ u j hj
  · intro u v j hu hv
    rw [go_threads] at hu hv
    split at hu
    · cases hu
    · split at hv
      · cases hv
      · rw [g.threads] at hu hv; exact h.apart₃ u v j hu hv
  · intro j hj
    simp only [State.go, g.dead] at hj
    refine dead_snoc h (fun j hj => ?_) j hj
    rw [hf]
    intro hh
    rw [Option.some.injEq] at hh
    subst hh
    exact gf.1 hj
  · exact formed_all h ⟨by grind, by grind⟩

/-- The entry of an assignment. -/
def assigned (t m : Nat) (new : Option Nat) (ws : List Mem) : Entry where
  thread := t
  act := .assign
  log := { reads := [.pointer], writes := .pointer :: ws, inits := new, visits := true, whom := some m }

theorem Inv.assign {tr : Schedule} {s : State} {t m : Nat} (h : Inv tr s) (ht : s.threads t = .made m)
    {k : Nat} {new : Option Nat} {ws : List Mem} {s' : State} (hg : s.get = (k, new, ws, s')) :
    Inv (tr ++ [assigned t m new ws])
      ({ s' with slot := some m }.go t (.replaced k)) := by
  have hv := h.visit hg (assigned t m new ws) rfl rfl
  have hf := inForce_snoc_assign tr (assigned t m new ws) rfl
  have g := h.got hg
  have gf := g.free h
  have hm : (s.threads t).holds = some m := by rw [ht]; rfl
  have hmk : m ≠ k := fun hmk => gf.2 t (by rw [hm, hmk])
  have hp := h.place t
  rw [ht] at hp
  obtain ⟨i, y, h1, h2, h3, h4, h5⟩ := hp
  have hin : InInstall (tr ++ [assigned t m new ws]) i tr.length := by
    refine ⟨y, _, at_snoc.mpr (.inl h1), at_snoc.mpr (.inr ⟨rfl, rfl⟩), h2, h3, .inr ⟨at_lt h1, .inl rfl, ?_⟩⟩
    intro j z hj hj' hz hzt
    rcases at_snoc.mp hz with hz' | ⟨hz', _⟩
    · exact absurd (by rw [hzt, h2]) (h5 j z hj hz')
    · omega
  refine ⟨by rw [hf]; rfl, ?_, hv.1, ?_, ?_, ?_, ?_, ?_, ?_, ?_⟩
  · simp only [State.go]
    exact ⟨fun hh => (by cases hh), fun hh => absurd hh hv.2⟩
  · intro u
    rw [go_threads]
    split
    · rename_i hu
      refine ⟨i, tr.length, _, at_snoc.mpr (.inr ⟨rfl, rfl⟩), hu.symm, hin, rfl, at_lt h1, ?_, ?_⟩
      · intro j y hj hy
        have := at_lt hy
        simp at this
        omega
      · refine Over.last ?_
        rw [hf]
        simpa [assigned] using hmk
    · rename_i hu
      rw [g.threads]
      refine place_other (h.place u) (by simpa [assigned, eq_comm] using hu) ?_
      intro j hj
      rw [hf]
      intro hjk
      simp only [assigned, Option.some.injEq] at hjk
      subst hjk
      exact hu (h.apart₃ u t m (by rw [hj]; rfl) hm)
  · intro j hj
    have : j = k ∨ (j ∈ s.dead ∨ ∃ t, (s.threads t).holds = some j) := by
      rcases hj with hj | hj | ⟨u, hj⟩
      · simp only [State.go, Option.some.injEq] at hj; exact .inr (.inr ⟨t, by rw [hm, hj]⟩)
      · simp only [State.go, g.dead] at hj; exact .inr (.inl hj)
      · rw [go_threads] at hj
        split at hj
        · simp only [Where.holds, Option.some.injEq] at hj; exact .inl hj.symm
        · rw [g.threads] at hj; exact .inr (.inr ⟨u, hj⟩)
    simp only [State.go]
    rcases this with rfl | hh
    · exact g.lt
    · have := h.fresh j (.inr hh); have := g.count; omega
  · intro j hj
    simp only [State.go, Option.some.injEq] at hj
    subst hj
    refine ⟨by simp only [State.go, g.dead]; exact h.apart₂ t m hm, fun u => ?_⟩
    rw [go_threads]
    split
    · simp only [Where.holds]; intro hh; simp only [Option.some.injEq] at hh; exact hmk hh.symm
    · rename_i hu
      rw [g.threads]; intro hh; exact hu (h.apart₃ u t m hh hm)
  · intro u j hj
    rw [go_threads] at hj
    split at hj
    · simp only [Where.holds, Option.some.injEq] at hj
      subst hj
      simp only [State.go, g.dead]; exact gf.1
    · rw [g.threads] at hj
      simp only [State.go, g.dead]
      exact h.apart₂ u j hj
  · intro u v j hu hv
    rw [go_threads] at hu hv
    split at hu <;> split at hv
    · omega
    · simp only [Where.holds, Option.some.injEq] at hu
      subst hu
      rw [g.threads] at hv
      exact absurd hv (gf.2 v)
    · simp only [Where.holds, Option.some.injEq] at hv
      subst hv
      rw [g.threads] at hu
      exact absurd hu (gf.2 u)
    · rw [g.threads] at hu hv; exact h.apart₃ u v j hu hv
  · intro j hj
    simp only [State.go, g.dead] at hj
    refine dead_snoc h (fun j hj => ?_) j hj
    rw [hf]
    intro hh
    simp only [assigned, Option.some.injEq] at hh
    subst hh
    exact h.apart₂ t m hm hj
  · exact formed_all h ⟨fun hh => (by cases hh), fun _ => ⟨i, hin⟩⟩

theorem Inv.start : Inv [] {} := by
  refine ⟨rfl, by simp, by simp, fun _ => trivial, ?_, ?_, ?_, ?_, by simp, by simp⟩ <;> simp [Where.holds]

theorem leads_inv {tr : Schedule} {s : State} (h : Leads tr s) : Inv tr s := by
  induction h with
  | start => exact Inv.start
  | @step tr s s' t a l h hs ih =>
    have hsh := leads_shape h
    unfold State.step at hs
    cases a with
    | enter =>
      simp only at hs
      split at hs
      · rename_i ht
        rcases hg : s.get with ⟨k, new, ws, s₁⟩
        rw [hg] at hs
        simp only [Result.next.injEq] at hs
        obtain ⟨rfl, rfl⟩ := hs
        exact ih.enter hsh hg
      · cases hs
    | deliver =>
      simp only at hs
      split at hs
      · rename_i k ht
        split at hs
        · cases hs
        · simp only [Result.next.injEq] at hs
          obtain ⟨rfl, rfl⟩ := hs
          exact ih.deliver ht
      · cases hs
    | make =>
      simp only at hs
      split at hs
      · rename_i ht
        simp only [Result.next.injEq] at hs
        obtain ⟨rfl, rfl⟩ := hs
        exact ih.make ht
      · cases hs
    | assign =>
      simp only at hs
      split at hs
      · rename_i m ht
        rcases hg : s.get with ⟨k, new, ws, s₁⟩
        rw [hg] at hs
        simp only [Result.next.injEq] at hs
        obtain ⟨rfl, rfl⟩ := hs
        exact ih.assign ht hg
      · cases hs
    | destroy =>
      simp only at hs
      split at hs
      · rename_i old ht
        split at hs
        · cases hs
        · simp only [Result.next.injEq] at hs
          obtain ⟨rfl, rfl⟩ := hs
          exact ih.destroy ht
      · cases hs
    | release c =>
      simp only at hs
      split at hs
      · rename_i ht
        simp only [Result.next.injEq] at hs
        obtain ⟨rfl, rfl⟩ := hs
        exact ih.release ht ⟨c, .inl rfl⟩
      · cases hs
    | acquire c =>
      simp only at hs
      split at hs
      · rename_i ht
        simp only [Result.next.injEq] at hs
        obtain ⟨rfl, rfl⟩ := hs
        exact ih.release ht ⟨c, .inr rfl⟩
      · cases hs

/-! ### Operations -/

/-- Every step that uses memory belongs to a report or an installation. -/
theorem belongs {tr : Schedule} {s : State} (h : Leads tr s) {j : Nat} {y : Entry} (hj : tr[j]? = some y)
    (hm : y.log.reads ≠ [] ∨ y.log.writes ≠ []) :
    (y.act = .enter ∨ y.act = .deliver) ∧ (∃ i, InReport tr i j) ∨
    (y.act = .make ∨ y.act = .assign ∨ y.act = .destroy) ∧ ∃ i, InInstall tr i j := by
  have hf := (leads_inv h).formed j y hj
  have hs := (leads_shape h) y (List.mem_of_getElem? hj)
  cases ha : y.act with
  | enter => exact .inl ⟨.inl rfl, j, y, y, hj, hj, rfl, ha, .inl rfl⟩
  | deliver =>
    obtain ⟨i, x, _, _, _, _, h5, _⟩ := hf.1 ha
    exact .inl ⟨.inr rfl, i, h5⟩
  | make => exact .inr ⟨.inl rfl, j, y, y, hj, hj, rfl, ha, .inl rfl⟩
  | assign => exact .inr ⟨.inr (.inl rfl), hf.2 (.inl ha)⟩
  | destroy => exact .inr ⟨.inr (.inr rfl), hf.2 (.inr ha)⟩
  | release c => have := hs.2.2.2.2 ⟨c, .inl ha⟩; simp [this] at hm
  | acquire c => have := hs.2.2.2.2 ⟨c, .inr ha⟩; simp [this] at hm

theorem InReport.thread {tr : Schedule} {i j : Nat} {y : Entry} (h : InReport tr i j) (hj : tr[j]? = some y) :
    ∃ x, tr[i]? = some x ∧ x.thread = y.thread ∧ x.act = .enter := by
  obtain ⟨x, y', h1, h2, h3, h4, _⟩ := h
  rw [hj, Option.some.injEq] at h2
  subst h2
  exact ⟨x, h1, h3, h4⟩

theorem InInstall.thread {tr : Schedule} {i j : Nat} {y : Entry} (h : InInstall tr i j) (hj : tr[j]? = some y) :
    ∃ x, tr[i]? = some x ∧ x.thread = y.thread ∧ x.act = .make := by
  obtain ⟨x, y', h1, h2, h3, h4, _⟩ := h
  rw [hj, Option.some.injEq] at h2
  subst h2
  exact ⟨x, h1, h3, h4⟩

/-- Steps of installations are ordered with the steps of other threads. -/
theorem Apart.order {tr : Schedule} (ha : Apart tr) {i j i' j' : Nat} {y y' : Entry} (h : InInstall tr i j)
    (h' : InReport tr i' j' ∨ InInstall tr i' j') (hj : tr[j]? = some y) (hj' : tr[j']? = some y') (hn : y.thread ≠ y'.thread) :
    Before tr j j' ∨ Before tr j' j := by
  obtain ⟨x, h1, h2, h3⟩ := h.thread hj
  have : ∃ x', tr[i']? = some x' ∧ x'.thread = y'.thread ∧ (x'.act = .enter ∨ x'.act = .make) := by
    rcases h' with h' | h'
    · obtain ⟨x', h4, h5, h6⟩ := h'.thread hj'
      exact ⟨x', h4, h5, .inl h6⟩
    · obtain ⟨x', h4, h5, h6⟩ := h'.thread hj'
      exact ⟨x', h4, h5, .inr h6⟩
  obtain ⟨x', h4, h5, h6⟩ := this
  rcases ha i i' x x' h1 h4 (by rw [h2, h5]; exact hn) h3 h6 with hh | hh
  · exact .inl (hh j j' h h')
  · exact .inr (hh j j' h h')

theorem race_free {tr : Schedule} {s : State} (h : Leads tr s) (ha : Apart tr) (i j : Nat) : ¬ Race tr i j := by
  rintro ⟨x, y, hx, hy, hn, ⟨m, hmx, hmy⟩, hb, hb'⟩
  have bx := belongs h hx (.inr (fun h0 => by rw [h0] at hmx; cases hmx))
  have by' := belongs h hy (by
    rcases hmy with hm | hm
    · exact .inl (fun h0 => by rw [h0] at hm; cases hm)
    · exact .inr (fun h0 => by rw [h0] at hm; cases hm))
  have inv := leads_inv h
  have sx := leads_shape h x (List.mem_of_getElem? hx)
  have sy := leads_shape h y (List.mem_of_getElem? hy)
  rcases bx with ⟨ax, i₀, ix⟩ | ⟨ax, i₀, ix⟩
  · rcases by' with ⟨ay, j₀, iy⟩ | ⟨ay, j₀, iy⟩
    · -- two reports: the first one initialises
      have hxi : x.log.inits.isSome := by
        rcases ax with ax | ax
        · cases hi : x.log.inits with
          | some _ => rfl
          | none => have := (sx.1 ax).2.2 hi; rw [this] at hmx; cases hmx
        · have := (sx.2.2.1 ax).2.1; rw [this] at hmx; cases hmx
      rcases ay with ay | ay
      · have hv := (sy.1 ay).1
        have := inv.first i j x y hx hy hxi hv
        have hne : i ≠ j := by rintro rfl; rw [hx, Option.some.injEq] at hy; subst hy; exact hn rfl
        exact hb (.static (by omega) hx hy hxi hv)
      · obtain ⟨j₁, z, hlt, hz, hza, hzv, hir, _⟩ := (inv.formed j y hy).1 ay
        have := inv.first i j₁ x z hx hz hxi hzv
        obtain ⟨z', hz', hzt, _⟩ := hir.thread hy
        rw [hz, Option.some.injEq] at hz'
        subst hz'
        have hne : i ≠ j₁ := by rintro rfl; rw [hx, Option.some.injEq] at hz; subst hz; exact hn hzt
        exact hb (.trans (.static (by omega) hx hz hxi hzv) (.thread hlt hz hy hzt))
    · rcases ha.order iy (.inl ix) hy hx (Ne.symm hn) with hh | hh
      · exact hb' hh
      · exact hb hh
  · have iy' : ∃ j₀, InReport tr j₀ j ∨ InInstall tr j₀ j := by
      rcases by' with ⟨_, j₀, iy⟩ | ⟨_, j₀, iy⟩
      · exact ⟨j₀, .inl iy⟩
      · exact ⟨j₀, .inr iy⟩
    obtain ⟨j₀, iy⟩ := iy'
    rcases ha.order ix iy hx hy hn with hh | hh
    · exact hb hh
    · exact hb' hh

/-- The reporter in force stays the same while nothing is assigned, once there is one. -/
theorem inForce_stable {tr : Schedule} {k i j : Nat} (h : inForce (tr.take i) = some k) (hij : i ≤ j)
    (hn : ∀ (p : Nat) x, i ≤ p → p < j → tr[p]? = some x → x.act ≠ .assign) : inForce (tr.take j) = some k := by
  induction j with
  | zero => obtain rfl : i = 0 := by omega
            exact h
  | succ j ih =>
    by_cases hj : i = j + 1
    · subst hj; exact h
    · have ih' := ih (by omega) (fun p x h1 h2 h3 => hn p x h1 (by omega) h3)
      by_cases hl : j < tr.length
      · rw [List.take_succ_eq_append_getElem hl, inForce_snoc_other _ _ (hn j _ (by omega) (by omega) (List.getElem?_eq_getElem hl)), ih']
      · rw [List.take_of_length_le (by omega)] at ih' ⊢
        exact ih'

theorem deliver_whom {tr : Schedule} {s : State} (h : Leads tr s) {j : Nat} {y : Entry} (hy : tr[j]? = some y)
    (ha : y.act = .deliver) : y.log.whom.isSome := by
  induction h with
  | start => simp at hy
  | @step tr s s' t a l h hs ih =>
    rcases at_snoc.mp hy with hy' | ⟨_, rfl⟩
    · exact ih hy'
    · simp only at ha
      subst ha
      unfold State.step at hs
      simp only at hs
      split at hs
      · split at hs
        · cases hs
        · simp only [Result.next.injEq] at hs
          obtain ⟨rfl, rfl⟩ := hs
          rfl
      · cases hs

end Mimic.Shared
