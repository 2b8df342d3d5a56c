import Verif.Proofs.Assign
import Verif.Proofs.Demo

/-!
# C100: special expectations after general ones
-/

set_option autoImplicit false

namespace Mimic.Assign

variable {α : Type}

/-- C100: if special expectations are declared after general ones, and no sequences are involved, then the library resolves all calls
whenever they can be distributed among the expectations at all. -/
theorem C100_resolved {tr : Trace α} {w : World α} (h : Reach tr w) {cs : List (Call α)} (hf : Free tr cs) (hs : SpecialLast tr) :
    (∃ tr', Resolved tr cs tr') ↔ ∃ ps, Distributes tr cs ps := by
  constructor
  · rintro ⟨tr', h'⟩
    obtain ⟨ps, h1, -⟩ := own h'
    exact ⟨ps, h1⟩
  · rintro ⟨ps, h'⟩
    obtain ⟨tr', h1, -⟩ := greedy h hf hs h'
    exact ⟨tr', h1⟩

theorem tight {tr : Trace α} (hx : SpecialExact tr) {cs : List (Call α)} {ps : List (Call α × Nat)} (h : Satisfies tr cs ps) :
    ∀ e' e d, e' < e → Overlap tr e e' → tr.decl e = some d → ((tr.matched e + uses ps e : Nat) : Int) = d.max := by
  intro e' e d hlt ho hd
  obtain ⟨m, a, ⟨hl, -⟩, -⟩ := id ho
  have h1 := hx e' e d hlt ho hd
  have h2 := h.limit e d hl hd
  have h3 := h.enough e d hl hd
  omega

/-- C100: if, in addition, the special ones want exact numbers of calls, then also all expectations get enough calls whenever that is
possible. -/
theorem C100_passes {tr : Trace α} {w : World α} (h : Reach tr w) {cs : List (Call α)} (hf : Free tr cs) (hs : SpecialLast tr)
    (hx : SpecialExact tr) :
    (∃ tr', Resolved tr cs tr' ∧ ∀ e d, tr.live e → tr.decl e = some d → d.min ≤ (Trace.matched (tr ++ tr') e : Int)) ↔
      ∃ ps, Satisfies tr cs ps := by
  constructor
  · rintro ⟨tr', h', hmin⟩
    obtain ⟨ps, h1, h2⟩ := own h'
    exact ⟨ps, h1, fun e d hl hd => by rw [← h2 e]; exact hmin e d hl hd⟩
  · rintro ⟨ps, h'⟩
    obtain ⟨tr', h1, h2⟩ := greedy h hf hs h'.toDistributes
    have h3 := h2 (tight hx h')
    exact ⟨tr', h1, fun e d hl hd => by rw [h3 e]; exact h'.enough e d hl hd⟩

/-- C100: then there is no choice how often each expectation is used: all ways of distributing the calls agree. -/
theorem C100_counts {tr : Trace α} {w : World α} (h : Reach tr w) {cs : List (Call α)} (hf : Free tr cs) (hs : SpecialLast tr)
    (hx : SpecialExact tr) {ps : List (Call α × Nat)} (hp : Satisfies tr cs ps) {tr' : Trace α} (ht : Resolved tr cs tr') (e : Nat) :
    Trace.matched (tr ++ tr') e = tr.matched e + uses ps e := by
  obtain ⟨tr'', h1, h2⟩ := greedy h hf hs hp.toDistributes
  obtain ⟨w1, r1⟩ := h1.1
  obtain ⟨w2, r2⟩ := ht.1
  have : Trace.events (tr ++ tr'') = Trace.events (tr ++ tr') := by
    have a1 := (runProgram_iff ((tr ++ tr'').map (·.1)) w1 _).mpr ⟨_, r1, rfl, rfl⟩
    have a2 := (runProgram_iff ((tr ++ tr').map (·.1)) w2 _).mpr ⟨_, r2, rfl, rfl⟩
    rw [List.map_append, h1.2.1, ← ht.2.1, ← List.map_append, a2] at a1
    simp only [Except.ok.injEq, Prod.mk.injEq] at a1
    exact a1.2.symm
  have hm := h2 (tight hx hp) e
  unfold Trace.matched at hm ⊢
  rw [← this]
  exact hm

/-- C100: in which order the calls are made does not matter. -/
theorem C100_order {tr : Trace α} {w : World α} (h : Reach tr w) {cs cs' : List (Call α)} (hf : Free tr cs) (hs : SpecialLast tr)
    (hp : cs.Perm cs') : (∃ tr', Resolved tr cs tr') ↔ ∃ tr', Resolved tr cs' tr' := by
  have hf' : Free tr cs' := fun c hc => hf c (hp.mem_iff.mpr hc)
  have key : ∀ {cs cs' : List (Call α)}, cs.Perm cs' → (∃ ps, Distributes tr cs ps) → ∃ ps, Distributes tr cs' ps := by
    rintro cs cs' hp ⟨ps, h1, h2, h3⟩
    have : ∃ qs : List (Call α × Nat), qs.Perm ps ∧ qs.map (·.1) = cs' := by
      clear h2 h3
      subst h1
      induction ps generalizing cs' with
      | nil =>
        have : cs' = [] := by simpa using hp.symm
        subst this
        exact ⟨[], .refl _, rfl⟩
      | cons p ps ih =>
        have hm : p.1 ∈ cs' := hp.mem_iff.mp (by simp)
        obtain ⟨l, r, rfl⟩ := List.append_of_mem hm
        have hp' : (ps.map (·.1)).Perm (l ++ r) := by
          have := hp.trans List.perm_middle
          exact (List.perm_cons _).mp this
        obtain ⟨qs, hq1, hq2⟩ := ih hp'
        obtain ⟨ql, qr, rfl, hl, hr⟩ := List.map_eq_append_iff.mp hq2
        refine ⟨ql ++ p :: qr, List.perm_middle.trans (hq1.cons _), by simp [hl, hr]⟩
    obtain ⟨qs, hq, hc⟩ := this
    refine ⟨qs, hc, fun p hp => h2 p (hq.mem_iff.mp hp), fun e d hl hd => ?_⟩
    have : uses qs e = uses ps e := (hq.map _).count_eq e
    rw [this]
    exact h3 e d hl hd
  rw [C100_resolved h hf hs, C100_resolved h hf' hs]
  exact ⟨key hp, key hp.symm⟩

/-! ## What is needed for it -/

/-- Accepts everything. -/
def anything : Policy Nat := { accepts := fun _ => some true }

/-- Accepts just `n`. -/
def just (n : Nat) : Policy Nat := { accepts := fun a => some (a == n) }

/-- Two expectations of one mock: the older one wants one call, the younger one at least `lo` and at most one. -/
def two (p q : Policy Nat) (lo : Int) : Trace Nat :=
  [(.newMock, [.mockCreated 0]), (.expect 0 1 1 [] [p], [.created 0]), (.expect 0 lo 1 [] [q], [.created 1])]

theorem two_decl (p q : Policy Nat) (lo : Int) (e : Nat) :
    (two p q lo).decl e = if e = 0 then some ⟨0, 1, 1, [], [p]⟩ else if e = 1 then some ⟨0, lo, 1, [], [q]⟩ else none := by
  simp only [Trace.decl, two, List.findSome?]
  by_cases h0 : e = 0
  · subst h0; simp
  · by_cases h1 : e = 1
    · subst h1; simp
    · simp [h0, h1]

theorem two_live (p q : Policy Nat) (lo : Int) (e : Nat) : (two p q lo).live e ↔ e = 0 ∨ e = 1 := by
  unfold Trace.live
  rw [two_decl]
  have : Event.destroyed e ∉ (two p q lo).events := by simp [Trace.events, two]
  by_cases h0 : e = 0
  · simp [h0]; subst h0; exact this
  · by_cases h1 : e = 1
    · simp [h1]; subst h1; exact this
    · simp [h0, h1]

theorem two_accepts (p q : Policy Nat) (lo : Int) (m a e : Nat) :
    (two p q lo).accepts m a e ↔ m = 0 ∧ (e = 0 ∧ p.accepts a = some true ∨ e = 1 ∧ q.accepts a = some true) := by
  unfold Trace.accepts
  rw [two_live, two_decl]
  by_cases h0 : e = 0
  · simp [h0]
    exact fun _ => eq_comm
  · by_cases h1 : e = 1
    · simp [h1]
      exact fun _ => eq_comm
    · simp [h0, h1]

theorem two_matched (p q : Policy Nat) (lo : Int) (e : Nat) : (two p q lo).matched e = 0 := by
  simp [Trace.matched, two, Trace.events]

theorem two_free (p q : Policy Nat) (lo : Int) {cs : List (Call Nat)} (h : ∀ c ∈ cs, c.1 = 0) : Free (two p q lo) cs := by
  intro c hc
  rw [h c hc]
  refine ⟨by simp [Trace.events, two], fun e d hl hd _ => ?_⟩
  rw [two_decl] at hd
  rw [two_live] at hl
  rcases hl with rfl | rfl
  · simp at hd; rw [← hd]
  · simp at hd; rw [← hd]

theorem two_reach (p q : Policy Nat) : (∃ w, Reach (two p q 1) w) ∧ ∃ w, Reach (two p q 0) w :=
  ⟨⟨_, (reach_final [.newMock, .expect 0 1 1 [] [p], .expect 0 1 1 [] [q]] : _)⟩,
    ⟨_, (reach_final [.newMock, .expect 0 1 1 [] [p], .expect 0 0 1 [] [q]] : _)⟩⟩

theorem two_last (lo : Int) : SpecialLast (two anything (just 1) lo) := by
  intro e' e hlt _ m a h
  rw [two_accepts] at h ⊢
  refine ⟨h.1, .inl ⟨by omega, rfl⟩⟩

/-- The hypotheses can be met: the calls are resolved in both orders. -/
example : (∃ tr', Resolved (two anything (just 1) 1) [(0, 1), (0, 2)] tr' ∧
      ∀ e d, (two anything (just 1) 1).live e → (two anything (just 1) 1).decl e = some d →
        d.min ≤ (Trace.matched (two anything (just 1) 1 ++ tr') e : Int)) ∧
    ∃ tr', Resolved (two anything (just 1) 1) [(0, 2), (0, 1)] tr' := by
  obtain ⟨w, hw⟩ := (two_reach anything (just 1)).1
  have hf : Free (two anything (just 1) 1) [(0, 1), (0, 2)] := two_free _ _ _ (by simp)
  have hx : SpecialExact (two anything (just 1) 1) := by
    intro e' e d _ _ hd
    rw [two_decl] at hd
    by_cases h0 : e = 0
    · simp [h0] at hd; rw [← hd]
    · by_cases h1 : e = 1
      · simp [h1] at hd; rw [← hd]
      · simp [h0, h1] at hd
  have hp := (C100_passes hw hf (two_last 1) hx).mpr ⟨[((0, 1), 1), ((0, 2), 0)], ⟨rfl, ?_, ?_⟩, ?_⟩
  · refine ⟨hp, (C100_order hw hf (two_last 1) (.swap ..)).mp ?_⟩
    obtain ⟨tr', h, -⟩ := hp
    exact ⟨tr', h⟩
  · intro p hp
    simp only [List.mem_cons, List.not_mem_nil, or_false] at hp
    rcases hp with rfl | rfl
    · rw [two_accepts]; exact ⟨rfl, .inr ⟨rfl, rfl⟩⟩
    · rw [two_accepts]; exact ⟨rfl, .inl ⟨rfl, rfl⟩⟩
  · intro e d hl hd
    rw [two_live] at hl
    rw [two_decl] at hd
    rw [two_matched]
    rcases hl with rfl | rfl <;> simp at hd <;> subst hd <;> decide
  · intro e d hl hd
    rw [two_live] at hl
    rw [two_decl] at hd
    rw [two_matched]
    rcases hl with rfl | rfl <;> simp at hd <;> subst hd <;> decide

/-- C100, the order of declarations matters: here the general expectation is the younger one, it takes the call that the special one is
meant for, and the other call fails, although the calls could be distributed. -/
theorem C100_general_last : ∃ (tr : Trace Nat) (w : World Nat) (cs : List (Call Nat)) (ps : List (Call Nat × Nat)),
    Reach tr w ∧ Free tr cs ∧ SpecialExact tr ∧ Satisfies tr cs ps ∧ ¬ ∃ tr', Resolved tr cs tr' := by
  obtain ⟨w, hw⟩ := (two_reach (just 1) anything).1
  refine ⟨two (just 1) anything 1, w, [(0, 1), (0, 2)], [((0, 1), 0), ((0, 2), 1)], hw, two_free _ _ _ (by simp), ?_, ⟨⟨rfl, ?_, ?_⟩, ?_⟩, ?_⟩
  · intro e' e d _ _ hd
    rw [two_decl] at hd
    by_cases h0 : e = 0
    · simp [h0] at hd; rw [← hd]
    · by_cases h1 : e = 1
      · simp [h1] at hd; rw [← hd]
      · simp [h0, h1] at hd
  · intro p hp
    simp only [List.mem_cons, List.not_mem_nil, or_false] at hp
    rcases hp with rfl | rfl
    · rw [two_accepts]; exact ⟨rfl, .inl ⟨rfl, rfl⟩⟩
    · rw [two_accepts]; exact ⟨rfl, .inr ⟨rfl, rfl⟩⟩
  · intro e d hl hd
    rw [two_live] at hl
    rw [two_decl] at hd
    rw [two_matched]
    rcases hl with rfl | rfl <;> simp at hd <;> subst hd <;> decide
  · intro e d hl hd
    rw [two_live] at hl
    rw [two_decl] at hd
    rw [two_matched]
    rcases hl with rfl | rfl <;> simp at hd <;> subst hd <;> decide
  · rintro ⟨tr', h⟩
    have hlen := resolved_total h
    obtain ⟨⟨w', hw'⟩, hops, -⟩ := h
    have hrun := (runProgram_iff _ _ _).mpr ⟨_, hw', rfl, rfl⟩
    rw [List.map_append, hops] at hrun
    have hev : ((runProgram ((two (just 1) anything 1).map (·.1) ++ [((0, 1) : Call Nat), (0, 2)].map (fun c => Op.call c.1 c.2))).map
        (·.2)).toOption = some [.mockCreated 0, .created 0, .created 1, .fullMatch 1, .inapplicable [1]] := by decide +kernel
    rw [hrun] at hev
    simp only [Except.map, Except.toOption, Option.some.injEq] at hev
    rw [hev] at hlen
    revert hlen
    decide

/-- C100, exact numbers matter: the special expectation is the younger one, but does not insist on its call. It is used nevertheless, and
the general one does not get the call it insists on. -/
theorem C100_not_exact : ∃ (tr : Trace Nat) (w : World Nat) (cs : List (Call Nat)) (ps : List (Call Nat × Nat)),
    Reach tr w ∧ Free tr cs ∧ SpecialLast tr ∧ Satisfies tr cs ps ∧
    ¬ ∃ tr', Resolved tr cs tr' ∧ ∀ e d, tr.live e → tr.decl e = some d → d.min ≤ (Trace.matched (tr ++ tr') e : Int) := by
  obtain ⟨w, hw⟩ := (two_reach anything (just 1)).2
  refine ⟨two anything (just 1) 0, w, [(0, 1)], [((0, 1), 0)], hw, two_free _ _ _ (by simp), two_last 0, ⟨⟨rfl, ?_, ?_⟩, ?_⟩, ?_⟩
  · intro p hp
    simp only [List.mem_cons, List.not_mem_nil, or_false] at hp
    subst hp
    rw [two_accepts]; exact ⟨rfl, .inl ⟨rfl, rfl⟩⟩
  · intro e d hl hd
    rw [two_live] at hl
    rw [two_decl] at hd
    rw [two_matched]
    rcases hl with rfl | rfl <;> simp at hd <;> subst hd <;> decide
  · intro e d hl hd
    rw [two_live] at hl
    rw [two_decl] at hd
    rw [two_matched]
    rcases hl with rfl | rfl <;> simp at hd <;> subst hd <;> decide
  · rintro ⟨tr', h, hmin⟩
    obtain ⟨⟨w', hw'⟩, hops, -⟩ := h
    have hrun := (runProgram_iff _ _ _).mpr ⟨_, hw', rfl, rfl⟩
    rw [List.map_append, hops] at hrun
    have hev : ((runProgram ((two anything (just 1) 0).map (·.1) ++ [((0, 1) : Call Nat)].map (fun c => Op.call c.1 c.2))).map
        (·.2)).toOption = some [.mockCreated 0, .created 0, .created 1, .fullMatch 1] := by decide +kernel
    rw [hrun] at hev
    simp only [Except.map, Except.toOption, Option.some.injEq] at hev
    have := hmin 0 ⟨0, 1, 1, [], [anything]⟩ (by rw [two_live]; simp) (by rw [two_decl]; simp)
    unfold Trace.matched at this
    rw [hev] at this
    revert this
    decide

end Mimic.Assign
