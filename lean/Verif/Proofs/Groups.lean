import Verif.Spec.Groups
import Verif.Proofs.Threads

/-! # A mutex for each group: lemmas -/

set_option autoImplicit false

namespace Mimic.Groups

open Threads
open Parts (Names part)

variable {α τ ι : Type} [DecidableEq τ] [DecidableEq ι]

/-- The steps, by group. -/
def acts (as : List (τ × Item ι α)) : List (ι × Act α) :=
  as.filterMap fun a =>
    match a.2 with
    | .act k b => some (k, b)
    | _ => none

/-- What was recorded, by group. -/
def entries (xs : List (Record τ ι)) : List (ι × Entry) :=
  xs.filterMap fun x =>
    match x with
    | .did _ k e => some (k, e)
    | _ => none

/-- The groups are like threads of their own. -/
structure Sim (g : Guarded τ ι α) (j : Joint ι α) : Prop where
  world : j.state.world = g.state.world
  names : j.names = g.names
  busy : ∀ t, g.state.phase t ≠ .idle → ∃ i, g.group t = some i ∧ g.held i = some t ∧ j.state.phase i = g.state.phase t
  owner : ∀ i, j.state.phase i ≠ .idle → ∃ t, g.group t = some i ∧ g.held i = some t ∧ g.state.phase t = j.state.phase i

theorem Sim.init : Sim (Guarded.init : Guarded τ ι α) Joint.init :=
  ⟨rfl, rfl, fun _ h => absurd rfl h, fun _ h => absurd rfl h⟩

theorem Sim.phase {g : Guarded τ ι α} {j : Joint ι α} (h : Sim g j) {t : τ} {i : ι} {a : Act α} (hp : g.proper t (.act i a)) :
    j.state.phase i = g.state.phase t := by
  obtain ⟨h1, h2⟩ := hp
  by_cases hi : g.state.phase t = .idle
  · rw [hi]
    apply Classical.byContradiction
    intro hj
    obtain ⟨u, h3, h4, h5⟩ := h.owner i hj
    rw [h1] at h4
    cases h4
    rw [hi] at h5
    exact hj h5.symm
  · obtain ⟨k, h3, h4, h5⟩ := h.busy t hi
    rcases h2 with h2 | h2
    · exact absurd h2 hi
    · rw [h2] at h3
      cases h3
      exact h5

theorem Sim.step {g : Guarded τ ι α} {j : Joint ι α} (h : Sim g j) {t : τ} {i : ι} {a : Act α} (hp : g.proper t (.act i a)) :
    (∃ x y, g.step t (.act i a) = .error x ∧ j.step i a = .error y) ∨
    ∃ g' j' x, g.step t (.act i a) = .ok (g', .did t i x) ∧ j.step i a = .ok (j', x) ∧ Sim g' j' := by
  have hph := h.phase hp
  simp only [Guarded.step, Joint.step, h.names]
  cases ha : act (g.names i) a with
  | none => exact Or.inl ⟨_, _, rfl, rfl⟩
  | some b =>
    simp only [State.step, h.world, hph]
    cases hs : Threads.step g.state.world (g.state.phase t) b with
    | error x => exact Or.inl ⟨x, x, rfl, rfl⟩
    | ok r =>
      obtain ⟨w, p, log⟩ := r
      refine Or.inr ⟨_, _, _, rfl, rfl, ?_⟩
      refine ⟨rfl, ?_, ?_, ?_⟩
      · simp only [h.names]
      · intro u hu
        by_cases hut : u = t
        · subst hut
          exact ⟨i, by simp, hp.1, by simp⟩
        · simp only [hut, if_false] at hu ⊢
          obtain ⟨k, h1, h2, h3⟩ := h.busy u hu
          have hk : k ≠ i := by
            rintro rfl
            rw [hp.1] at h2
            exact hut (Option.some.inj h2).symm
          exact ⟨k, h1, h2, by simp [hk, h3]⟩
      · intro k hk
        by_cases hki : k = i
        · subst hki
          exact ⟨t, by simp, hp.1, by simp⟩
        · simp only [hki, if_false] at hk ⊢
          obtain ⟨u, h1, h2, h3⟩ := h.owner k hk
          have hut : u ≠ t := by
            rintro rfl
            rcases hp.2 with h4 | h4
            · rw [h4] at h3
              exact hk h3.symm
            · rw [h4] at h1
              exact hki (Option.some.inj h1).symm
          exact ⟨u, by simp [hut, h1], h2, by simp [hut, h3]⟩

theorem Sim.lock {g : Guarded τ ι α} {j : Joint ι α} (h : Sim g j) {t : τ} {i : ι} (hp : g.proper t (.lock i)) :
    Sim { g with held := fun k => if k = i then some t else g.held k } j := by
  refine ⟨h.world, h.names, ?_, ?_⟩
  · intro u hu
    obtain ⟨k, h1, h2, h3⟩ := h.busy u hu
    have hk : k ≠ i := by
      rintro rfl
      rw [show g.held k = none from hp] at h2
      cases h2
    exact ⟨k, h1, by simp [hk, h2], h3⟩
  · intro k hk
    obtain ⟨u, h1, h2, h3⟩ := h.owner k hk
    have hk : k ≠ i := by
      rintro rfl
      rw [show g.held k = none from hp] at h2
      cases h2
    exact ⟨u, h1, by simp [hk, h2], h3⟩

theorem Sim.unlock {g : Guarded τ ι α} {j : Joint ι α} (h : Sim g j) {t : τ} {i : ι} (hp : g.proper t (.unlock i)) :
    Sim { g with held := fun k => if k = i then none else g.held k } j := by
  have key : ∀ (u : τ) (k : ι), g.group u = some k → g.held k = some u → g.state.phase u ≠ .idle → k ≠ i := by
    rintro u k h1 h2 h3 rfl
    rw [hp.1] at h2
    cases h2
    rcases hp.2 with h4 | h4
    · exact h3 h4
    · exact h4 h1
  refine ⟨h.world, h.names, ?_, ?_⟩
  · intro u hu
    obtain ⟨k, h1, h2, h3⟩ := h.busy u hu
    have hk := key u k h1 h2 hu
    exact ⟨k, h1, by simp [hk, h2], h3⟩
  · intro k hk
    obtain ⟨u, h1, h2, h3⟩ := h.owner k hk
    have hki := key u k h1 h2 (by rw [h3]; exact hk)
    exact ⟨u, h1, by simp [hki, h2], h3⟩

/-- The groups see the same as if they were threads of their own. -/
theorem Sim.run {as : List (τ × Item ι α)} {g : Guarded τ ι α} {j : Joint ι α} (h : Sim g j) (hp : g.Proper as) :
    (∃ x y, g.run as = .error x ∧ j.run (acts as) = .error y) ∨
    ∃ g' j' xs, g.run as = .ok (g', xs) ∧ j.run (acts as) = .ok (j', entries xs) ∧ Sim g' j' := by
  induction as generalizing g j with
  | nil => exact Or.inr ⟨g, j, [], rfl, rfl, h⟩
  | cons a as ih =>
    obtain ⟨t, a⟩ := a
    obtain ⟨hp1, hp2⟩ := hp
    cases a with
    | lock i =>
      have h1 := hp2 _ _ rfl
      rcases ih (h.lock hp1) h1 with ⟨x, y, h2, h3⟩ | ⟨g', j', xs, h2, h3, h4⟩
      · left
        refine ⟨x, y, ?_, h3⟩
        simp only [Guarded.run, Guarded.step, bind, Except.bind, h2]
      · right
        refine ⟨g', j', .locked t i :: xs, ?_, h3, h4⟩
        simp only [Guarded.run, Guarded.step, bind, Except.bind, h2]
        rfl
    | unlock i =>
      have h1 := hp2 _ _ rfl
      rcases ih (h.unlock hp1) h1 with ⟨x, y, h2, h3⟩ | ⟨g', j', xs, h2, h3, h4⟩
      · left
        refine ⟨x, y, ?_, h3⟩
        simp only [Guarded.run, Guarded.step, bind, Except.bind, h2]
      · right
        refine ⟨g', j', .unlocked t i :: xs, ?_, h3, h4⟩
        simp only [Guarded.run, Guarded.step, bind, Except.bind, h2]
        rfl
    | act i a =>
      have hacts : acts ((t, Item.act i a) :: as) = (i, a) :: acts as := rfl
      rw [hacts]
      rcases h.step hp1 with ⟨x, y, h1, h2⟩ | ⟨g1, j1, x, h1, h2, h3⟩
      · left
        refine ⟨x, y, ?_, ?_⟩
        · simp only [Guarded.run, bind, Except.bind, h1]
        · simp only [Joint.run, bind, Except.bind, h2]
      · rcases ih h3 (hp2 _ _ h1) with ⟨x', y, h4, h5⟩ | ⟨g', j', xs, h4, h5, h6⟩
        · left
          refine ⟨x', y, ?_, ?_⟩
          · simp only [Guarded.run, bind, Except.bind, h1, h4]
          · simp only [Joint.run, bind, Except.bind, h2, h5]
        · right
          refine ⟨g', j', .did t i x :: xs, ?_, ?_, h6⟩
          · simp only [Guarded.run, bind, Except.bind, h1, h4]
            rfl
          · simp only [Joint.run, bind, Except.bind, h2, h5]
            rfl

theorem part_acts (i : ι) (as : List (τ × Item ι α)) : part i (acts as) = within i as := by
  induction as with
  | nil => rfl
  | cons a as ih =>
    obtain ⟨t, a⟩ := a
    cases a with
    | lock k => exact ih
    | unlock k => exact ih
    | act k a =>
      have h1 : acts ((t, Item.act k a) :: as) = (k, a) :: acts as := rfl
      rw [h1]
      by_cases hk : k = i
      · subst hk
        rw [part_cons_self, ih]
        simp [within]
      · rw [part_cons_ne (fun e => hk e.symm), ih]
        simp [within, hk]

theorem part_entries (i : ι) (xs : List (Record τ ι)) : (part i (entries xs)).flatMap (fun x => x.seen.1) = seenIn i xs := by
  induction xs with
  | nil => rfl
  | cons x xs ih =>
    cases x with
    | locked t k => exact ih
    | unlocked t k => exact ih
    | did t k x =>
      have h1 : entries (Record.did t k x :: xs) = (k, x) :: entries xs := rfl
      rw [h1]
      by_cases hk : k = i
      · subst hk
        rw [part_cons_self, List.flatMap_cons, ih]
        simp [seenIn]
      · rw [part_cons_ne (fun e => hk e.symm), ih]
        simp [seenIn, hk]

theorem mem_entries {xs : List (Record τ ι)} {t : τ} {i : ι} {x : Entry} (h : .did t i x ∈ xs) : (i, x) ∈ entries xs :=
  List.mem_filterMap.mpr ⟨_, h, rfl⟩

/-- Who makes a step holds the mutex: it was locked before, or held from the start. -/
theorem held_since {as : List (τ × Item ι α)} {g g' : Guarded τ ι α} {xs : List (Record τ ι)} (hp : g.Proper as) (hr : g.run as = .ok (g', xs))
    {m : Nat} {u : τ} {i : ι} {y : Entry} (hm : xs[m]? = some (.did u i y)) :
    (g.held i = some u ∨ ∃ b < m, xs[b]? = some (.locked u i)) ∧
    ∀ t, g.held i = some t → t ≠ u → ∃ a b : Nat, a < b ∧ b < m ∧ xs[a]? = some (.unlocked t i) ∧ xs[b]? = some (.locked u i) := by
  induction as generalizing g xs m with
  | nil =>
    simp only [Guarded.run, Except.ok.injEq, Prod.mk.injEq] at hr
    rw [← hr.2] at hm
    simp at hm
  | cons a as ih =>
    obtain ⟨t0, a⟩ := a
    obtain ⟨hp1, hp2⟩ := hp
    simp only [Guarded.run] at hr
    cases hs : g.step t0 a with
    | error x => rw [hs] at hr; cases hr
    | ok r =>
      obtain ⟨g1, x⟩ := r
      rw [hs] at hr
      simp only [bind, Except.bind] at hr
      cases ht : g1.run as with
      | error x => rw [ht] at hr; cases hr
      | ok r =>
        obtain ⟨g2, ys⟩ := r
        rw [ht] at hr
        simp only [pure, Except.pure, Except.ok.injEq, Prod.mk.injEq] at hr
        obtain ⟨rfl, rfl⟩ := hr
        cases m with
        | zero =>
          simp only [List.getElem?_cons_zero, Option.some.injEq] at hm
          subst hm
          cases a with
          | lock k => simp [Guarded.step] at hs
          | unlock k => simp [Guarded.step] at hs
          | act k a =>
            have hk : t0 = u ∧ k = i := by
              simp only [Guarded.step] at hs
              split at hs
              · cases hs
              · simp only [bind, Except.bind] at hs
                split at hs
                · cases hs
                · simp only [pure, Except.pure, Except.ok.injEq, Prod.mk.injEq, Record.did.injEq] at hs
                  exact ⟨hs.2.1, hs.2.2.1⟩
            obtain ⟨rfl, rfl⟩ := hk
            refine ⟨Or.inl hp1.1, ?_⟩
            intro t h1 h2
            rw [hp1.1] at h1
            exact absurd (Option.some.inj h1).symm h2
        | succ m =>
          simp only [List.getElem?_cons_succ] at hm
          obtain ⟨i1, i2⟩ := ih (hp2 _ _ hs) ht hm
          have up : ∀ t, g1.held i = some t → t ≠ u →
              ∃ a b : Nat, a < b ∧ b < m + 1 ∧ (x :: ys)[a]? = some (.unlocked t i) ∧ (x :: ys)[b]? = some (.locked u i) := by
            intro t h1 h2
            obtain ⟨a, b, h3, h4, h5, h6⟩ := i2 t h1 h2
            exact ⟨a + 1, b + 1, by omega, by omega, h5, h6⟩
          have up1 : (∃ b < m, ys[b]? = some (.locked u i)) → ∃ b < m + 1, (x :: ys)[b]? = some (.locked u i) := by
            rintro ⟨b, h1, h2⟩
            exact ⟨b + 1, by omega, h2⟩
          cases a with
          | lock k =>
            simp only [Guarded.step, Except.ok.injEq, Prod.mk.injEq] at hs
            obtain ⟨rfl, rfl⟩ := hs
            by_cases hk : i = k
            · subst hk
              have hfree : g.held i = none := hp1
              refine ⟨?_, fun t h1 => by rw [hfree] at h1; cases h1⟩
              rcases i1 with h1 | h1
              · simp only [if_true, Option.some.injEq] at h1
                subst h1
                exact Or.inr ⟨0, by omega, rfl⟩
              · exact Or.inr (up1 h1)
            · simp only [hk, if_false] at i1 up
              exact ⟨i1.imp id up1, up⟩
          | unlock k =>
            simp only [Guarded.step, Except.ok.injEq, Prod.mk.injEq] at hs
            obtain ⟨rfl, rfl⟩ := hs
            by_cases hk : i = k
            · subst hk
              simp only [if_true, reduceCtorEq, false_or] at i1
              refine ⟨Or.inr (up1 i1), ?_⟩
              intro t h1 h2
              have : t0 = t := by
                have := hp1.1
                rw [h1] at this
                exact (Option.some.inj this).symm
              subst this
              obtain ⟨b, h3, h4⟩ := i1
              exact ⟨0, b + 1, by omega, by omega, rfl, h4⟩
            · simp only [hk, if_false] at i1 up
              exact ⟨i1.imp id up1, up⟩
          | act k a =>
            have hh : g1.held = g.held := by
              simp only [Guarded.step] at hs
              split at hs
              · cases hs
              · simp only [bind, Except.bind] at hs
                split at hs
                · cases hs
                · simp only [pure, Except.pure, Except.ok.injEq, Prod.mk.injEq] at hs
                  rw [← hs.1]
            rw [hh] at i1 up
            exact ⟨i1.imp id up1, up⟩

/-- Between steps of different threads in one group, the first thread unlocks the mutex and the second one locks it. -/
theorem handed_over {as : List (τ × Item ι α)} {g g' : Guarded τ ι α} {xs : List (Record τ ι)} (hp : g.Proper as) (hr : g.run as = .ok (g', xs))
    {n m : Nat} (hnm : n < m) {t u : τ} (htu : t ≠ u) {i : ι} {x y : Entry} (hn : xs[n]? = some (.did t i x))
    (hm : xs[m]? = some (.did u i y)) :
    ∃ a b : Nat, n < a ∧ a < b ∧ b < m ∧ xs[a]? = some (.unlocked t i) ∧ xs[b]? = some (.locked u i) := by
  induction as generalizing g xs n m with
  | nil =>
    simp only [Guarded.run, Except.ok.injEq, Prod.mk.injEq] at hr
    rw [← hr.2] at hm
    simp at hm
  | cons a as ih =>
    obtain ⟨t0, a⟩ := a
    obtain ⟨hp1, hp2⟩ := hp
    simp only [Guarded.run] at hr
    cases hs : g.step t0 a with
    | error x => rw [hs] at hr; cases hr
    | ok r =>
      obtain ⟨g1, z⟩ := r
      rw [hs] at hr
      simp only [bind, Except.bind] at hr
      cases ht : g1.run as with
      | error x => rw [ht] at hr; cases hr
      | ok r =>
        obtain ⟨g2, ys⟩ := r
        rw [ht] at hr
        simp only [pure, Except.pure, Except.ok.injEq, Prod.mk.injEq] at hr
        obtain ⟨rfl, rfl⟩ := hr
        obtain ⟨m, rfl⟩ : ∃ k, m = k + 1 := ⟨m - 1, by omega⟩
        simp only [List.getElem?_cons_succ] at hm
        cases n with
        | succ n =>
          obtain ⟨a, b, h1, h2, h3, h4, h5⟩ := ih (hp2 _ _ hs) ht (n := n) (m := m) (by omega) hn hm
          exact ⟨a + 1, b + 1, by omega, by omega, by omega, h4, h5⟩
        | zero =>
          simp only [List.getElem?_cons_zero, Option.some.injEq] at hn
          subst hn
          cases a with
          | lock k => simp [Guarded.step] at hs
          | unlock k => simp [Guarded.step] at hs
          | act k a =>
            have hk : t0 = t ∧ k = i ∧ g1.held = g.held := by
              simp only [Guarded.step] at hs
              split at hs
              · cases hs
              · simp only [bind, Except.bind] at hs
                split at hs
                · cases hs
                · simp only [pure, Except.pure, Except.ok.injEq, Prod.mk.injEq, Record.did.injEq] at hs
                  exact ⟨hs.2.1, hs.2.2.1, by rw [← hs.1]⟩
            obtain ⟨rfl, rfl, hh⟩ := hk
            obtain ⟨a, b, h1, h2, h3, h4⟩ := (held_since (hp2 _ _ hs) ht hm).2 t0 (by rw [hh]; exact hp1.1) htu
            exact ⟨a + 1, b + 1, by omega, by omega, by omega, h3, h4⟩

end Mimic.Groups
