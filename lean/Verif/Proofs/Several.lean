import Verif.Spec.Several
import Verif.Proofs.Language

/-! # Tests with any number of sequences: lemmas -/

set_option autoImplicit false

namespace Mimic.Several

variable {α : Type}

/-- Expectation number `i` after the calls distributed as `who` says. -/
def cell (who : List Nat) (i : Nat) (p : Part α) : Spec.Exp α :=
  { id := i, mock := p.mock, min := p.min, max := p.max, seqs := p.seqs, policies := p.policies, count := who.count i, alive := true }

/-- The state after these calls. -/
def state (kinds : List Strategy) (mocks : Nat) (parts : List (Part α)) (who : List Nat) : Spec.State α :=
  { seqs := kinds.map (fun st => { strategy := st, handle := true }), exps := parts.mapIdx (cell who), mocks := mocks }

variable {kinds : List Strategy} {mocks : Nat} {parts : List (Part α)} {who : List Nat}

/-- Expectation number `e` can get the next call. -/
def Ready (parts : List (Part α)) (who : List Nat) (e : Nat) : Prop :=
  ∃ p, parts[e]? = some p ∧ (who.count e : Int) < p.max ∧
    ∀ (e' : Nat) (p' : Part α), parts[e']? = some p' → share p p' = true →
      (e' < e → p'.min ≤ (who.count e' : Int)) ∧ (e < e' → who.count e' = 0)

theorem mem_state {x : Spec.Exp α} : x ∈ (state kinds mocks parts who).exps ↔ ∃ p, parts[x.id]? = some p ∧ x = cell who x.id p := by
  unfold state
  simp only [List.mem_mapIdx]
  constructor
  · rintro ⟨i, hi, rfl⟩
    exact ⟨parts[i], by simp [cell, hi], rfl⟩
  · rintro ⟨p, hp, hx⟩
    obtain ⟨hi, rfl⟩ := List.getElem?_eq_some_iff.mp hp
    exact ⟨x.id, hi, hx.symm⟩

theorem countMatch (e : Nat) : (state kinds mocks parts who).countMatch e = state kinds mocks parts (who ++ [e]) := by
  unfold Spec.State.countMatch state
  simp only [List.mapIdx_eq_zipIdx_map, List.map_map]
  congr 1
  apply List.map_congr_left
  rintro ⟨p, i⟩ _
  by_cases h : i = e
  · subst h; simp [cell]
  · simp [cell, h, List.count_append, List.count_cons, List.count_nil, Ne.symm h]

theorem applicable_iff {e : Nat} {p : Part α} (hp : parts[e]? = some p) :
    (state kinds mocks parts who).applicable (cell who e p) = true ↔ Ready parts who e := by
  unfold Spec.State.applicable Ready
  have hsh : ∀ q : Part α, share p q = true ↔ ∃ s ∈ p.seqs, s ∈ q.seqs := by
    intro q; simp [share]
  simp only [Bool.and_eq_true, decide_eq_true_eq, List.all_eq_true, Spec.State.attached, List.mem_filter, List.contains_iff_mem]
  constructor
  · rintro ⟨h1, h2⟩
    refine ⟨p, hp, h1, ?_⟩
    intro e' p' hp' hs
    obtain ⟨s, hs1, hs2⟩ := (hsh p').mp hs
    have := h2 s hs1 (cell who e' p') ⟨mem_state.mpr ⟨p', hp', rfl⟩, hs2⟩
    simp only [cell] at this
    grind
  · rintro ⟨p0, hp0, h1, h2⟩
    rw [hp] at hp0
    obtain rfl := Option.some.inj hp0
    refine ⟨h1, ?_⟩
    rintro s hs x ⟨hx, hxs⟩
    obtain ⟨q, hq, hxq⟩ := mem_state.mp hx
    have hxs' : s ∈ q.seqs := by rw [hxq] at hxs; exact hxs
    have := h2 x.id q hq ((hsh q).mpr ⟨s, hs, hxs'⟩)
    have hc : x.count = who.count x.id := by rw [hxq]; rfl
    have hm : x.min = q.min := by rw [hxq]; rfl
    simp only [cell, hc, hm]
    grind

theorem mem_accepting {c : Nat × α} {x : Spec.Exp α} :
    x ∈ ((state kinds mocks parts who).candidates c.1).filter (·.accepts c.2) ↔
      ∃ p, parts[x.id]? = some p ∧ x = cell who x.id p ∧ p.takes c = true := by
  simp only [Spec.State.candidates, List.mem_filter, List.mem_reverse, mem_state, Bool.and_eq_true, beq_iff_eq, Part.takes]
  constructor
  · rintro ⟨⟨⟨p, hp, hx⟩, -, hm⟩, ha⟩
    refine ⟨p, hp, hx, ?_, ?_⟩
    · rw [hx] at hm; exact hm.symm
    · rw [hx] at ha; exact ha
  · rintro ⟨p, hp, hx, hm, ha⟩
    refine ⟨⟨⟨p, hp, hx⟩, ?_, ?_⟩, ?_⟩
    · rw [hx]; rfl
    · rw [hx]; exact hm.symm
    · rw [hx]; exact ha

theorem select_mem (S : Spec.State α) (x : Spec.Exp α) (l : List (Spec.Exp α)) : S.select x l ∈ x :: l := by
  induction l generalizing x with
  | nil => simp [Spec.State.select]
  | cons y ys ih =>
    simp only [Spec.State.select]
    split
    · exact List.mem_cons_of_mem _ (ih y)
    · rcases List.mem_cons.mp (ih x) with h | h
      · rw [h]; simp
      · simp [h]

theorem passes_call {us : List Nat} {last : Event} : Language.passes (us.map Event.unhandled ++ [last]) ↔ Language.failure last = false := by
  unfold Language.passes
  constructor
  · intro h; exact h last (by simp)
  · intro h ev hev
    rcases List.mem_append.mp hev with hev | hev
    · obtain ⟨u, -, rfl⟩ := List.mem_map.mp hev; rfl
    · rw [List.mem_singleton.mp hev]; exact h

/-- A call without a failure. -/
theorem call_sound {c : Nat × α} (h : Language.passes ((state kinds mocks parts who).call c.1 c.2).2.1) :
    ∃ e p, parts[e]? = some p ∧ p.takes c = true ∧ Ready parts who e ∧
      ((state kinds mocks parts who).call c.1 c.2).1 = state kinds mocks parts (who ++ [e]) := by
  obtain ⟨us, last, h1, -, h2⟩ := call_events (state kinds mocks parts who) c.1 c.2
  rw [h1, passes_call] at h
  rcases h2 with ⟨x, older, h3, -, h4⟩ | ⟨-, -, h3, -⟩ | ⟨-, -, h3, -⟩
  · generalize hb : (state kinds mocks parts who).select x older = b at h4
    have hm : b ∈ (((state kinds mocks parts who).candidates c.1).filter (·.accepts c.2)).filter (state kinds mocks parts who).applicable := by
      rw [h3, ← hb]; exact select_mem _ _ _
    obtain ⟨g1, g2⟩ := List.mem_filter.mp hm
    obtain ⟨p, hp, hx, ht⟩ := mem_accepting.mp g1
    rw [hx] at g2
    exact ⟨b.id, p, hp, ht, (applicable_iff hp).mp g2, by rw [h4, countMatch]⟩
  · rw [h3] at h; cases h
  · rw [h3] at h; cases h

/-- A call that fits only one expectation, which is ready. -/
theorem call_complete {c : Nat × α} {e : Nat} {p : Part α} (hp : parts[e]? = some p) (ht : p.takes c = true) (hr : Ready parts who e)
    (hu : ∀ (e' : Nat) (p' : Part α), parts[e']? = some p' → p'.takes c = true → e' = e) :
    Language.passes ((state kinds mocks parts who).call c.1 c.2).2.1 ∧
      ((state kinds mocks parts who).call c.1 c.2).1 = state kinds mocks parts (who ++ [e]) := by
  have hm : cell who e p ∈ (((state kinds mocks parts who).candidates c.1).filter (·.accepts c.2)).filter
      (state kinds mocks parts who).applicable :=
    List.mem_filter.mpr ⟨mem_accepting.mpr ⟨p, hp, rfl, ht⟩, (applicable_iff hp).mpr hr⟩
  obtain ⟨us, last, h1, -, h2⟩ := call_events (state kinds mocks parts who) c.1 c.2
  rw [h1, passes_call]
  rcases h2 with ⟨x, older, h3, h5, h4⟩ | ⟨h3, -⟩ | ⟨h3, -⟩
  · refine ⟨by rw [h5]; rfl, ?_⟩
    have hb : (state kinds mocks parts who).select x older ∈
        (((state kinds mocks parts who).candidates c.1).filter (·.accepts c.2)).filter (state kinds mocks parts who).applicable := by
      rw [h3]; exact select_mem _ _ _
    obtain ⟨p', hp', -, ht'⟩ := mem_accepting.mp (List.mem_filter.mp hb).1
    rw [h4, countMatch, hu _ _ hp' ht']
  · rw [h3] at hm; cases hm
  · rw [h3] at hm; cases hm

/-- The calls one after the other, each to an expectation that is ready. -/
inductive Stepwise (parts : List (Part α)) : List Nat → List (Nat × α) → List Nat → Prop where
  | nil (who : List Nat) : Stepwise parts who [] []
  | cons {who : List Nat} {c : Nat × α} {cs : List (Nat × α)} {e : Nat} {p : Part α} {rest : List Nat} :
    parts[e]? = some p → p.takes c = true → Ready parts who e → Stepwise parts (who ++ [e]) cs rest →
    Stepwise parts who (c :: cs) (e :: rest)

theorem calls_sound {calls : List (Nat × α)} {S : Spec.State α} {evs : List Event}
    (h : (state kinds mocks parts who).run (calls.map (fun c => .call c.1 c.2)) = some (S, evs)) (hp : Language.passes evs) :
    ∃ rest, Stepwise parts who calls rest ∧ S = state kinds mocks parts (who ++ rest) := by
  induction calls generalizing who evs with
  | nil =>
    simp only [List.map_nil, Spec.State.run, Option.some.injEq, Prod.mk.injEq] at h
    exact ⟨[], .nil who, by rw [← h.1, List.append_nil]⟩
  | cons c cs ih =>
    simp only [List.map_cons, Spec.State.run, Spec.State.step] at h
    split at h
    · cases h
    · rename_i S1 ev1 hs1
      split at hs1
      · simp only [Option.some.injEq, Prod.mk.injEq] at hs1
        obtain ⟨rfl, rfl⟩ := hs1
        split at h
        · cases h
        · rename_i S2 ev2 hs2
          simp only [Option.some.injEq, Prod.mk.injEq] at h
          obtain ⟨rfl, rfl⟩ := h
          rw [Language.passes_append] at hp
          obtain ⟨e, p, h1, h2, h3, h4⟩ := call_sound hp.1
          rw [h4] at hs2
          obtain ⟨rest, h5, h6⟩ := ih hs2 hp.2
          exact ⟨e :: rest, .cons h1 h2 h3 h5, by rw [h6]; simp⟩
      · cases hs1

theorem calls_complete {calls : List (Nat × α)} {rest : List Nat} (h : Stepwise parts who calls rest)
    (hu : Unambiguous parts calls) {S : Spec.State α} {evs : List Event}
    (hr : (state kinds mocks parts who).run (calls.map (fun c => .call c.1 c.2)) = some (S, evs)) :
    Language.passes evs ∧ S = state kinds mocks parts (who ++ rest) := by
  induction h generalizing evs with
  | nil who =>
    simp only [List.map_nil, Spec.State.run, Option.some.injEq, Prod.mk.injEq] at hr
    exact ⟨by rw [← hr.2]; simp [Language.passes], by rw [← hr.1, List.append_nil]⟩
  | @cons who c cs e p rest h1 h2 h3 h4 ih =>
    have huc : ∀ (e' : Nat) (p' : Part α), parts[e']? = some p' → p'.takes c = true → e' = e := by
      intro e' p' hp' ht'
      have := hu c (by simp)
      rw [List.pairwise_iff_getElem] at this
      obtain ⟨i1, rfl⟩ := List.getElem?_eq_some_iff.mp h1
      obtain ⟨i2, rfl⟩ := List.getElem?_eq_some_iff.mp hp'
      rcases Nat.lt_trichotomy e' e with hlt | heq | hgt
      · exact absurd ⟨ht', h2⟩ (this e' e i2 i1 hlt)
      · exact heq
      · exact absurd ⟨h2, ht'⟩ (this e e' i1 i2 hgt)
    obtain ⟨g1, g2⟩ := call_complete (kinds := kinds) (mocks := mocks) h1 h2 h3 huc
    simp only [List.map_cons, Spec.State.run, Spec.State.step] at hr
    split at hr
    · cases hr
    · rename_i S1 ev1 hs1
      split at hs1
      · simp only [Option.some.injEq, Prod.mk.injEq] at hs1
        obtain ⟨rfl, rfl⟩ := hs1
        split at hr
        · cases hr
        · rename_i S2 ev2 hs2
          simp only [Option.some.injEq, Prod.mk.injEq] at hr
          obtain ⟨rfl, rfl⟩ := hr
          rw [g2] at hs2
          obtain ⟨i1, i2⟩ := ih (fun c hc => hu c (by simp [hc])) hs2
          exact ⟨Language.passes_append.mpr ⟨g1, i1⟩, by rw [i2]; simp⟩
      · cases hs1

/-! ## Counting -/

/-- What holds of a distribution so far, apart from lower limits. -/
structure SoFar (parts : List (Part α)) (who : List Nat) : Prop where
  counts : ∀ (e : Nat) (p : Part α), parts[e]? = some p → (who.count e : Int) ≤ p.max
  order : ∀ (e e' : Nat) (p p' : Part α), parts[e]? = some p → parts[e']? = some p' → e < e' → share p p' = true →
    who.Pairwise (fun x y => ¬ (x = e' ∧ y = e))

theorem share_symm (p q : Part α) : share p q = share q p := by
  rw [Bool.eq_iff_iff]
  simp only [share, List.any_eq_true, List.contains_iff_mem]
  exact ⟨fun ⟨s, h1, h2⟩ => ⟨s, h2, h1⟩, fun ⟨s, h1, h2⟩ => ⟨s, h2, h1⟩⟩

theorem SoFar.snoc (h : SoFar parts who) {e : Nat} (hr : Ready parts who e) : SoFar parts (who ++ [e]) := by
  obtain ⟨p, hp, hc, ho⟩ := hr
  constructor
  · intro i q hq
    have := h.counts i q hq
    by_cases hi : i = e
    · subst hi
      rw [hp] at hq
      obtain rfl := Option.some.inj hq
      simp only [List.count_append, List.count_singleton_self]
      omega
    · have : [e].count i = 0 := List.count_eq_zero_of_not_mem (by simpa using hi)
      simp only [List.count_append, this]
      omega
  · intro i j q r hq hr hij hs
    rw [List.pairwise_append]
    refine ⟨h.order i j q r hq hr hij hs, by simp, ?_⟩
    intro x hx y hy ⟨h1, h2⟩
    rw [List.mem_singleton] at hy
    subst h1 h2 hy
    rw [hp] at hq
    obtain rfl := Option.some.inj hq
    have := (ho x r hr hs).2 hij
    exact absurd hx (List.count_eq_zero.mp this)

theorem stepwise_soFar {calls : List (Nat × α)} {rest : List Nat} (h : Stepwise parts who calls rest) (hs : SoFar parts who) :
    SoFar parts (who ++ rest) ∧ rest.length = calls.length ∧
      ∀ (k e : Nat) (c : Nat × α), rest[k]? = some e → calls[k]? = some c → ∃ p, parts[e]? = some p ∧ p.takes c = true := by
  induction h with
  | nil who => exact ⟨by simpa using hs, rfl, by simp⟩
  | @cons who c cs e p rest h1 h2 h3 h4 ih =>
    obtain ⟨i1, i2, i3⟩ := ih (hs.snoc h3)
    refine ⟨by simpa using i1, by simp [i2], ?_⟩
    intro k e' c' he hc
    cases k with
    | zero =>
      simp only [List.getElem?_cons_zero, Option.some.injEq] at he hc
      subst he hc
      exact ⟨p, h1, h2⟩
    | succ k => exact i3 k e' c' (by simpa using he) (by simpa using hc)

/-- A distribution can be followed step by step. -/
theorem distribution_stepwise {calls : List (Nat × α)} {rest : List Nat} (hl : rest.length = calls.length)
    (hf : ∀ (k e : Nat) (c : Nat × α), rest[k]? = some e → calls[k]? = some c → ∃ p, parts[e]? = some p ∧ p.takes c = true)
    (hc : ∀ (e : Nat) (p : Part α), parts[e]? = some p → p.min ≤ ((who ++ rest).count e : Int) ∧ ((who ++ rest).count e : Int) ≤ p.max)
    (ho : ∀ (e e' : Nat) (p p' : Part α), parts[e]? = some p → parts[e']? = some p' → e < e' → share p p' = true →
      (who ++ rest).Pairwise (fun x y => ¬ (x = e' ∧ y = e))) :
    Stepwise parts who calls rest := by
  induction calls generalizing who rest with
  | nil => rw [List.eq_nil_of_length_eq_zero hl]; exact .nil who
  | cons c cs ih =>
    match rest, hl with
    | e :: rest, hl =>
      obtain ⟨p, hp, ht⟩ := hf 0 e c rfl rfl
      refine .cons hp ht ?_ (ih (by simpa using hl) (fun k e' c' h1 h2 => hf (k + 1) e' c' (by simpa using h1) (by simpa using h2)) ?_ ?_)
      · refine ⟨p, hp, ?_, ?_⟩
        · have := (hc e p hp).2
          simp only [List.count_append, List.count_cons_self] at this
          omega
        · intro e' p' hp' hs
          refine ⟨fun hlt => ?_, fun hlt => ?_⟩
          · have h1 := (hc e' p' hp').1
            have h2 := ho e' e p' p hp' hp hlt (by rw [share_symm]; exact hs)
            rw [List.pairwise_append, List.pairwise_cons] at h2
            have h3 : rest.count e' = 0 := List.count_eq_zero.mpr fun hm => h2.2.1.1 e' hm ⟨rfl, rfl⟩
            have h4 : (e :: rest).count e' = 0 := by
              rw [List.count_cons_of_ne (by omega), h3]
            rw [List.count_append, h4] at h1
            simpa using h1
          · have h2 := ho e e' p p' hp hp' hlt hs
            rw [List.pairwise_append] at h2
            exact List.count_eq_zero.mpr fun hm => h2.2.2 e' hm e (by simp) ⟨rfl, rfl⟩
      · simpa using hc
      · simpa using ho

/-! ## The whole test -/

theorem kinds_run {S S' : Spec.State α} {l : List Strategy} {evs : List Event} (h : S.run (l.map .newSequence) = some (S', evs)) :
    S' = { S with seqs := S.seqs ++ l.map (fun st => { strategy := st, handle := true }) } ∧ Language.passes evs := by
  induction l generalizing S evs with
  | nil =>
    simp only [List.map_nil, Spec.State.run, Option.some.injEq, Prod.mk.injEq] at h
    obtain ⟨rfl, rfl⟩ := h
    exact ⟨by simp, by simp [Language.passes]⟩
  | cons st l ih =>
    simp only [List.map_cons, Spec.State.run, Spec.State.step] at h
    split at h
    · cases h
    · rename_i S2 ev2 hs2
      simp only [Option.some.injEq, Prod.mk.injEq] at h
      obtain ⟨rfl, rfl⟩ := h
      obtain ⟨rfl, h2⟩ := ih hs2
      refine ⟨by simp, ?_⟩
      rw [Language.passes_append]
      exact ⟨by simp [Language.passes, Language.failure], h2⟩

theorem kinds_exist {S : Spec.State α} (l : List Strategy) : ∃ evs, S.run (l.map .newSequence) =
    some ({ S with seqs := S.seqs ++ l.map (fun st => { strategy := st, handle := true }) }, evs) := by
  induction l generalizing S with
  | nil => exact ⟨[], by simp [Spec.State.run]⟩
  | cons st l ih =>
    obtain ⟨evs, h⟩ := ih (S := { S with seqs := S.seqs ++ [{ strategy := st, handle := true }] })
    refine ⟨[.sequenceCreated S.seqs.length st] ++ evs, ?_⟩
    simp only [List.map_cons, Spec.State.run, Spec.State.step, h]
    simp

theorem state_snoc (pre : List (Part α)) (p : Part α) :
    (state kinds mocks (pre ++ [p]) []).exps = (state kinds mocks pre []).exps ++ [cell [] pre.length p] := by
  simp [state, List.mapIdx_append]

theorem parts_run {pre : List (Part α)} {S : Spec.State α} {evs : List Event}
    (hv : ∀ p ∈ parts, 0 ≤ p.min ∧ p.min ≤ p.max) (hn : ∀ p ∈ parts, p.seqs.Nodup)
    (h : (state kinds mocks pre []).run (parts.map (fun p => .expect p.mock p.min p.max p.seqs p.policies)) = some (S, evs)) :
    S = state kinds mocks (pre ++ parts) [] ∧ Language.passes evs := by
  induction parts generalizing pre evs with
  | nil =>
    simp only [List.map_nil, Spec.State.run, Option.some.injEq, Prod.mk.injEq] at h
    obtain ⟨rfl, rfl⟩ := h
    exact ⟨by simp, by simp [Language.passes]⟩
  | cons p ps ih =>
    simp only [List.map_cons, Spec.State.run, Spec.State.step] at h
    split at h
    · cases h
    · rename_i S1 ev1 hs1
      split at hs1
      · rw [if_pos ⟨hv p (by simp), hn p (by simp)⟩] at hs1
        simp only [Option.some.injEq, Prod.mk.injEq] at hs1
        obtain ⟨rfl, rfl⟩ := hs1
        split at h
        · cases h
        · rename_i S2 ev2 hs2
          simp only [Option.some.injEq, Prod.mk.injEq] at h
          obtain ⟨rfl, rfl⟩ := h
          have := ih (pre := pre ++ [p]) (evs := ev2) (fun q hq => hv q (by simp [hq])) (fun q hq => hn q (by simp [hq])) (by
            rw [← hs2]
            congr 1
            simp [state, List.mapIdx_append, cell])
          obtain ⟨h1, h2⟩ := this
          refine ⟨by simpa using h1, ?_⟩
          rw [Language.passes_append]
          exact ⟨by simp [Language.passes, Language.failure], h2⟩
      · cases hs1

theorem parts_exist {pre : List (Part α)}
    (hv : ∀ p ∈ parts, 0 ≤ p.min ∧ p.min ≤ p.max) (hn : ∀ p ∈ parts, p.seqs.Nodup) (hm : ∀ p ∈ parts, p.mock < mocks)
    (hs : ∀ p ∈ parts, ∀ s ∈ p.seqs, s < kinds.length) (hi : ∀ p ∈ parts, p.max ≤ intMax) :
    ∃ evs, (state kinds mocks pre []).run (parts.map (fun p => .expect p.mock p.min p.max p.seqs p.policies)) =
      some (state kinds mocks (pre ++ parts) [], evs) := by
  induction parts generalizing pre with
  | nil => exact ⟨[], by simp [Spec.State.run]⟩
  | cons p ps ih =>
    obtain ⟨evs, h⟩ := ih (pre := pre ++ [p]) (fun q hq => hv q (by simp [hq])) (fun q hq => hn q (by simp [hq]))
      (fun q hq => hm q (by simp [hq])) (fun q hq => hs q (by simp [hq])) (fun q hq => hi q (by simp [hq]))
    have h1 := hv p (by simp)
    have h3 := hi p (by simp)
    have hint : isInt p.min = true ∧ isInt p.max = true := by
      unfold intMax at h3
      have e1 : isInt p.min = true := by unfold isInt intMin intMax; grind
      have e2 : isInt p.max = true := by unfold isInt intMin intMax; grind
      exact ⟨e1, e2⟩
    have hh : p.seqs.all (state kinds mocks pre []).hasHandle = true := by
      rw [List.all_eq_true]
      intro s hs'
      have := hs p (by simp) s hs'
      simp [Spec.State.hasHandle, state, this]
    have hstep : (state kinds mocks pre []).step (.expect p.mock p.min p.max p.seqs p.policies) =
        some (state kinds mocks (pre ++ [p]) [], [.created pre.length]) := by
      have hc : p.mock < (state kinds mocks pre []).mocks ∧ p.seqs.all (state kinds mocks pre []).hasHandle ∧ isInt p.min ∧
          isInt p.max := ⟨hm p (by simp), hh, hint.1, hint.2⟩
      simp only [Spec.State.step]
      rw [if_pos hc, if_pos ⟨h1, hn p (by simp)⟩]
      simp [state, List.mapIdx_append, cell]
    refine ⟨[.created pre.length] ++ evs, ?_⟩
    simp only [List.map_cons, Spec.State.run, hstep, h]
    simp

/-- In the reference semantics: what a test that passes looks like, and when it passes. -/
theorem test_spec {calls : List (Nat × α)} {ends : List (Op α)}
    (hv : ∀ p ∈ parts, 0 ≤ p.min ∧ p.min ≤ p.max) (hn : ∀ p ∈ parts, p.seqs.Nodup)
    (hq : ∀ p ∈ parts, ∀ q ∈ p.policies, q.isSatisfied = true)
    (he : ends.Perm (allEnds kinds parts)) {S : Spec.State α} {evs : List Event}
    (h : Spec.State.init.run (test kinds mocks parts calls ends) = some (S, evs)) :
    (Language.passes evs → ∃ who, Distribution parts calls who) ∧
    (Unambiguous parts calls → (∃ who, Distribution parts calls who) → Language.passes evs) := by
  have hends : ∀ op ∈ ends, Language.isEnd op = true := by
    intro op hop
    have := he.mem_iff.mp hop
    simp only [allEnds, List.mem_append, List.mem_map] at this
    rcases this with ⟨i, -, rfl⟩ | ⟨i, -, rfl⟩ <;> rfl
  unfold test at h
  obtain ⟨S4, e4, e5, h4, h5, rfl⟩ := Language.spec_run_append h
  obtain ⟨S3, e3, e4, h3, h4, rfl⟩ := Language.spec_run_append h4
  obtain ⟨S2, e2, e3, h2, h3, rfl⟩ := Language.spec_run_append h3
  obtain ⟨S1, e1, e2, h1, h2, rfl⟩ := Language.spec_run_append h2
  obtain ⟨rfl, p1⟩ := kinds_run h1
  obtain ⟨rfl, p2⟩ := Language.mocks_run h2
  have hst : ({ seqs := kinds.map (fun st => { strategy := st, handle := true }), exps := [], mocks := 0 + mocks } : Spec.State α) =
      state kinds mocks [] [] := by simp [state]
  obtain ⟨rfl, p3⟩ := parts_run (kinds := kinds) (mocks := mocks) (pre := []) hv hn (by rw [← hst]; exact h3)
  rw [List.nil_append] at h4
  rw [Language.passes_append, Language.passes_append, Language.passes_append, Language.passes_append]
  constructor
  · rintro ⟨⟨-, p4⟩, p5⟩
    obtain ⟨who, hw, rfl⟩ := calls_sound h4 p4
    have h0 : SoFar parts ([] : List Nat) := by
      refine ⟨?_, by simp⟩
      intro e p hp
      have := hv p (List.mem_of_getElem? hp)
      simp; omega
    obtain ⟨i1, i2, i3⟩ := stepwise_soFar hw h0
    rw [List.nil_append] at i1 h5
    refine ⟨who, i2, i3, ?_, i1.order⟩
    intro e p hp
    refine ⟨?_, i1.counts e p hp⟩
    apply Classical.byContradiction
    intro hlt
    refine Language.end_missing hends h5 (e := e) ?_ ?_ p5
    · intro x hx hid
      obtain ⟨q, hq, hxq⟩ := mem_state.mp hx
      rw [hid, hp] at hq
      obtain rfl := Option.some.inj hq
      rw [hxq, hid]
      simp only [cell]; omega
    · refine he.mem_iff.mpr (List.mem_append_right _ (List.mem_map.mpr ⟨e, ?_, rfl⟩))
      rw [List.mem_range]
      exact (List.getElem?_eq_some_iff.mp hp).1
  · rintro hu ⟨who, hw⟩
    have hs := distribution_stepwise (who := []) hw.length hw.fits (by simpa using hw.counts) (by simpa using hw.order)
    obtain ⟨i1, rfl⟩ := calls_complete hs hu h4
    refine ⟨⟨⟨⟨p1, p2⟩, p3⟩, i1⟩, Language.end_clean hends h5 ?_⟩
    intro x hx
    obtain ⟨q, hq', hxq⟩ := mem_state.mp hx
    rw [List.nil_append] at hxq
    have hc := (hw.counts x.id q hq').1
    have e1 : x.min = q.min := by rw [hxq]; rfl
    have e2 : x.count = who.count x.id := by rw [hxq]; rfl
    have e3 : x.policies = q.policies := by rw [hxq]; rfl
    rw [e1, e2, e3]
    exact ⟨hc, hq q (List.mem_of_getElem? hq')⟩

/-! ## Without a choice -/

theorem takes_unique {calls : List (Nat × α)} (hu : Unambiguous parts calls) {c : Nat × α} (hc : c ∈ calls) {i j : Nat} {p q : Part α}
    (hi : parts[i]? = some p) (hj : parts[j]? = some q) (h1 : p.takes c = true) (h2 : q.takes c = true) : i = j := by
  have := hu c hc
  rw [List.pairwise_iff_getElem] at this
  obtain ⟨i1, rfl⟩ := List.getElem?_eq_some_iff.mp hi
  obtain ⟨i2, rfl⟩ := List.getElem?_eq_some_iff.mp hj
  rcases Nat.lt_trichotomy i j with hlt | heq | hgt
  · exact absurd ⟨h1, h2⟩ (this i j i1 i2 hlt)
  · exact heq
  · exact absurd ⟨h2, h1⟩ (this j i i2 i1 hgt)

/-- The number of the expectation that the call fits. -/
def label (parts : List (Part α)) (c : Nat × α) : Nat := parts.findIdx (fun p => p.takes c)

theorem label_of {calls : List (Nat × α)} (hu : Unambiguous parts calls) {c : Nat × α} (hc : c ∈ calls) {e : Nat} {p : Part α}
    (hp : parts[e]? = some p) (ht : p.takes c = true) : label parts c = e := by
  have hl : label parts c < parts.length := List.findIdx_lt_length_of_exists ⟨p, List.mem_of_getElem? hp, ht⟩
  exact takes_unique hu hc (List.getElem?_eq_getElem hl) hp (List.findIdx_getElem (w := hl)) ht

theorem labels {calls : List (Nat × α)} (hu : Unambiguous parts calls) {who : List Nat} (hw : Distribution parts calls who) :
    who = calls.map (label parts) := by
  apply List.ext_getElem?
  intro k
  rw [List.getElem?_map]
  by_cases hk : k < calls.length
  · have hk' : k < who.length := by rw [hw.length]; exact hk
    obtain ⟨p, hp, ht⟩ := hw.fits k _ _ (List.getElem?_eq_getElem hk') (List.getElem?_eq_getElem hk)
    rw [List.getElem?_eq_getElem hk', List.getElem?_eq_getElem hk, Option.map_some, label_of hu (List.getElem_mem hk) hp ht]
  · rw [List.getElem?_eq_none (by rw [hw.length]; omega), List.getElem?_eq_none (by omega)]
    rfl

theorem count_labels {calls : List (Nat × α)} (hu : Unambiguous parts calls) (hx : ∀ c ∈ calls, ∃ p ∈ parts, p.takes c = true)
    {e : Nat} {p : Part α} (hp : parts[e]? = some p) : (calls.map (label parts)).count e = calls.countP p.takes := by
  rw [List.count_eq_countP, List.countP_map]
  apply List.countP_congr
  intro c hc
  simp only [Function.comp, beq_iff_eq]
  constructor
  · intro h
    obtain ⟨q, hq, ht⟩ := hx c hc
    obtain ⟨i, hi, rfl⟩ := List.mem_iff_getElem.mp hq
    have := label_of hu hc (List.getElem?_eq_getElem hi) ht
    rw [h] at this
    subst this
    rw [List.getElem?_eq_getElem hi] at hp
    rw [← Option.some.inj hp]; exact ht
  · exact label_of hu hc hp

theorem fulfils_iff {calls : List (Nat × α)} (hu : Unambiguous parts calls) :
    (∃ who, Distribution parts calls who) ↔ Fulfils parts calls := by
  have hord : ∀ (e e' : Nat) (p p' : Part α), parts[e]? = some p → parts[e']? = some p' → (∀ c ∈ calls, ∃ p ∈ parts, p.takes c = true) →
      ((calls.map (label parts)).Pairwise (fun x y => ¬ (x = e' ∧ y = e)) ↔
        calls.Pairwise (fun c d => ¬ (p'.takes c = true ∧ p.takes d = true))) := by
    intro e e' p p' hp hp' hx
    have key : ∀ c ∈ calls, ∀ (i : Nat) (q : Part α), parts[i]? = some q → (label parts c = i ↔ q.takes c = true) := by
      intro c hc i q hq
      refine ⟨fun h => ?_, label_of hu hc hq⟩
      obtain ⟨r, hr, ht⟩ := hx c hc
      obtain ⟨j, hj, rfl⟩ := List.mem_iff_getElem.mp hr
      have := label_of hu hc (List.getElem?_eq_getElem hj) ht
      rw [h] at this
      subst this
      rw [List.getElem?_eq_getElem hj] at hq
      rw [← Option.some.inj hq]; exact ht
    rw [List.pairwise_map]
    constructor
    · intro h
      refine h.imp_of_mem ?_
      intro c d hc hd hn
      rw [← key c hc e' p' hp', ← key d hd e p hp]
      exact hn
    · intro h
      refine h.imp_of_mem ?_
      intro c d hc hd hn
      rw [key c hc e' p' hp', key d hd e p hp]
      exact hn
  constructor
  · rintro ⟨who, hw⟩
    have hx : ∀ c ∈ calls, ∃ p ∈ parts, p.takes c = true := by
      intro c hc
      obtain ⟨k, hk, rfl⟩ := List.mem_iff_getElem.mp hc
      have hk' : k < who.length := by rw [hw.length]; exact hk
      obtain ⟨p, hp, ht⟩ := hw.fits k _ _ (List.getElem?_eq_getElem hk') (List.getElem?_eq_getElem hk)
      exact ⟨p, List.mem_of_getElem? hp, ht⟩
    have hwl := labels hu hw
    subst hwl
    refine ⟨hx, ?_, ?_⟩
    · intro p hp
      obtain ⟨i, hi, rfl⟩ := List.mem_iff_getElem.mp hp
      rw [← count_labels hu hx (List.getElem?_eq_getElem hi)]
      exact hw.counts i _ (List.getElem?_eq_getElem hi)
    · rw [List.pairwise_iff_getElem]
      intro i j hi hj hij hs
      exact (hord i j _ _ (List.getElem?_eq_getElem hi) (List.getElem?_eq_getElem hj) hx).mp
        (hw.order i j _ _ (List.getElem?_eq_getElem hi) (List.getElem?_eq_getElem hj) hij hs)
  · intro hf
    refine ⟨calls.map (label parts), by simp, ?_, ?_, ?_⟩
    · intro k e c he hc
      rw [List.getElem?_map, hc, Option.map_some, Option.some.injEq] at he
      have hcm := List.mem_of_getElem? hc
      obtain ⟨p, hp, ht⟩ := hf.expected c hcm
      obtain ⟨i, hi, rfl⟩ := List.mem_iff_getElem.mp hp
      have := label_of hu hcm (List.getElem?_eq_getElem hi) ht
      rw [he] at this
      subst this
      exact ⟨_, List.getElem?_eq_getElem hi, ht⟩
    · intro e p hp
      rw [count_labels hu hf.expected hp]
      exact hf.counts p (List.mem_of_getElem? hp)
    · intro e e' p p' hp hp' hlt hs
      rw [hord e e' p p' hp hp' hf.expected]
      obtain ⟨i1, rfl⟩ := List.getElem?_eq_some_iff.mp hp
      obtain ⟨i2, rfl⟩ := List.getElem?_eq_some_iff.mp hp'
      exact (List.pairwise_iff_getElem.mp hf.order) e e' i1 i2 hlt hs

/-! ## Such tests run -/

theorem ends_exist {ends : List (Op α)} (he : ∀ op ∈ ends, (∃ s, op = .dropSequence s) ∨ ∃ e, op = .destroy e)
    (hn : ends.Pairwise (· ≠ ·)) {S : Spec.State α} (hs : ∀ s, .dropSequence s ∈ ends → S.hasHandle s = true)
    (hd : ∀ e, .destroy e ∈ ends → ∃ x ∈ S.exps, x.id = e ∧ x.alive = true) :
    ∃ S' evs, S.run ends = some (S', evs) := by
  induction ends generalizing S with
  | nil => exact ⟨S, [], rfl⟩
  | cons op ends ih =>
    rw [List.pairwise_cons] at hn
    have key : ∃ S1 ev, S.step op = some (S1, ev) ∧ (∀ s, .dropSequence s ∈ ends → S1.hasHandle s = true) ∧
        (∀ e, .destroy e ∈ ends → ∃ x ∈ S1.exps, x.id = e ∧ x.alive = true) := by
      rcases he op (by simp) with ⟨s, rfl⟩ | ⟨e, rfl⟩
      · have h0 := hs s (by simp)
        have hst : ∃ ev, S.step (.dropSequence s) =
            some ({ S with seqs := S.seqs.modify s (fun q => { q with handle := false }) }, ev) := by
          simp only [Spec.State.step, h0, if_true]
          exact ⟨_, rfl⟩
        obtain ⟨ev, hst⟩ := hst
        refine ⟨_, ev, hst, ?_, fun e he => hd e (by simp [he])⟩
        intro t ht
        have hne : s ≠ t := fun h => hn.1 _ ht (by rw [h])
        have := hs t (by simp [ht])
        simp only [Spec.State.hasHandle, List.getElem?_modify, hne] at this ⊢
        simpa using this
      · obtain ⟨x, hx, hid, ha⟩ := hd e (by simp)
        have hf : ∃ y, S.exps.find? (fun x => x.id == e && x.alive) = some y := by
          cases h : S.exps.find? (fun x => x.id == e && x.alive) with
          | some y => exact ⟨y, rfl⟩
          | none =>
            have := List.find?_eq_none.mp h x hx
            simp [hid, ha] at this
        obtain ⟨y, hy⟩ := hf
        have hst : ∃ ev, S.step (.destroy e) = some (S.withdraw e, ev) := by
          simp only [Spec.State.step, hy]
          exact ⟨_, rfl⟩
        obtain ⟨ev, hst⟩ := hst
        refine ⟨S.withdraw e, ev, hst, ?_, ?_⟩
        · exact fun s h => hs s (by simp [h])
        · intro e' he'
          obtain ⟨z, hz, h1, h2⟩ := hd e' (by simp [he'])
          refine ⟨_, List.mem_map.mpr ⟨z, hz, rfl⟩, ?_⟩
          have : z.id ≠ e := by
            intro h
            have hee : e' = e := h1.symm.trans h
            exact hn.1 _ he' (by rw [hee])
          rw [if_neg this]
          exact ⟨h1, h2⟩
    obtain ⟨S1, ev, h1, h2, h3⟩ := key
    obtain ⟨S', evs, h4⟩ := ih (fun op hop => he op (by simp [hop])) hn.2 h2 h3
    exact ⟨S', ev ++ evs, by simp [Spec.State.run, h1, h4]⟩

theorem test_exists {calls : List (Nat × α)} {ends : List (Op α)}
    (hv : ∀ p ∈ parts, 0 ≤ p.min ∧ p.min ≤ p.max) (hn : ∀ p ∈ parts, p.seqs.Nodup) (he : ends.Perm (allEnds kinds parts))
    (hm : ∀ p ∈ parts, p.mock < mocks) (hs : ∀ p ∈ parts, ∀ s ∈ p.seqs, s < kinds.length)
    (hc : ∀ c ∈ calls, c.1 < mocks) (hi : ∀ p ∈ parts, p.max ≤ intMax) :
    ∃ S evs, Spec.State.init.run (test kinds mocks parts calls ends) = some (S, evs) := by
  obtain ⟨e0, h0⟩ := kinds_exist (S := (Spec.State.init : Spec.State α)) kinds
  obtain ⟨e1, h1⟩ := Language.mocks_exist (S := state kinds 0 ([] : List (Part α)) []) mocks
  obtain ⟨e2, h2⟩ := parts_exist (kinds := kinds) (mocks := mocks) (pre := []) hv hn hm hs hi
  obtain ⟨S3, e3, h3, h4, h5⟩ := Language.calls_exist (calls := calls) (S := state kinds mocks ([] ++ parts) []) hc
  have hends := ends_exist (ends := ends) (S := S3) (by
      intro op hop
      have := he.mem_iff.mp hop
      simp only [allEnds, List.mem_append, List.mem_map] at this
      rcases this with ⟨i, -, rfl⟩ | ⟨i, -, rfl⟩
      · exact Or.inl ⟨i, rfl⟩
      · exact Or.inr ⟨i, rfl⟩)
    (by
      refine (he.symm.pairwise ?_ (fun h => Ne.symm h))
      simp only [allEnds, List.pairwise_append, List.pairwise_map, List.mem_map]
      refine ⟨?_, ?_, ?_⟩
      · exact (List.nodup_range (n := kinds.length)).imp (fun h h' => h (by simpa using h'))
      · exact (List.nodup_range (n := parts.length)).imp (fun h h' => h (by simpa using h'))
      · rintro _ ⟨i, -, rfl⟩ _ ⟨j, -, rfl⟩ h; cases h)
    (by
      intro s hop
      have := he.mem_iff.mp hop
      simp only [allEnds, List.mem_append, List.mem_map, reduceCtorEq, and_false, exists_false, or_false, Op.dropSequence.injEq,
        exists_eq_right, List.mem_range] at this
      simp [Spec.State.hasHandle, h4, state, this])
    (by
      intro e hop
      have := he.mem_iff.mp hop
      simp only [allEnds, List.mem_append, List.mem_map, reduceCtorEq, and_false, exists_false, false_or, Op.destroy.injEq,
        exists_eq_right, List.mem_range] at this
      apply h5
      refine ⟨cell [] e (parts[e]'this), mem_state.mpr ⟨_, ?_, rfl⟩, rfl, rfl⟩
      simp [cell, this])
  obtain ⟨S4, e4, h6⟩ := hends
  have hs0 : state kinds 0 ([] : List (Part α)) [] = { (Spec.State.init : Spec.State α) with
      seqs := (Spec.State.init : Spec.State α).seqs ++ kinds.map (fun st => { strategy := st, handle := true }) } := by
    simp [state, Spec.State.init]
  have hs1 : { state kinds 0 ([] : List (Part α)) [] with mocks := (state kinds 0 ([] : List (Part α)) []).mocks + mocks } =
      state kinds mocks ([] : List (Part α)) [] := by simp [state]
  rw [hs1] at h1
  rw [← hs0] at h0
  exact ⟨S4, _, Language.spec_run_join (Language.spec_run_join (Language.spec_run_join (Language.spec_run_join h0 h1) h2) h3) h6⟩

theorem test_expects {calls : List (Nat × α)} {ends : List (Op α)}
    (he : ends.Perm (allEnds kinds parts)) : (test kinds mocks parts calls ends).countP Language.isExpect = parts.length := by
  have h1 : ends.countP Language.isExpect = 0 := by
    rw [he.countP_eq, List.countP_eq_zero]
    intro op hop
    simp only [allEnds, List.mem_append, List.mem_map] at hop
    rcases hop with ⟨i, -, rfl⟩ | ⟨i, -, rfl⟩ <;> simp [Language.isExpect]
  have h2 : (calls.map (fun c => (.call c.1 c.2 : Op α))).countP Language.isExpect = 0 := by
    rw [List.countP_eq_zero]
    intro op hop
    obtain ⟨c, -, rfl⟩ := List.mem_map.mp hop
    simp [Language.isExpect]
  have h3 : (List.replicate mocks (.newMock : Op α)).countP Language.isExpect = 0 := by
    rw [List.countP_eq_zero]
    intro op hop
    rw [(List.mem_replicate.mp hop).2]
    simp [Language.isExpect]
  have h4 : (parts.map (fun p => (.expect p.mock p.min p.max p.seqs p.policies : Op α))).countP Language.isExpect = parts.length := by
    rw [List.countP_map, List.countP_eq_length]
    intro p _
    rfl
  have h5 : (kinds.map (fun st => (.newSequence st : Op α))).countP Language.isExpect = 0 := by
    rw [List.countP_eq_zero]
    intro op hop
    obtain ⟨c, -, rfl⟩ := List.mem_map.mp hop
    simp [Language.isExpect]
  simp [test, List.countP_append, h1, h2, h3, h4, h5]

end Mimic.Several
