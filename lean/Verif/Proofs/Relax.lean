import Verif.Spec.Relax
import Verif.Proofs.SpecRun
import Verif.Proofs.Language

/-! # Tests that ask for fewer calls: lemmas -/

set_option autoImplicit false

namespace Mimic.Relax

variable {α : Type}

/-- The expectation with another lower limit, if it belongs to no sequence. -/
def low (q : Spec.Exp α × Int) : Spec.Exp α := if q.1.seqs = [] then { q.1 with min := q.2 } else q.1

section
variable (q : Spec.Exp α × Int)
@[simp] theorem low_id : (low q).id = q.1.id := by unfold low; split <;> rfl
@[simp] theorem low_mock : (low q).mock = q.1.mock := by unfold low; split <;> rfl
@[simp] theorem low_max : (low q).max = q.1.max := by unfold low; split <;> rfl
@[simp] theorem low_seqs : (low q).seqs = q.1.seqs := by unfold low; split <;> rfl
@[simp] theorem low_policies : (low q).policies = q.1.policies := by unfold low; split <;> rfl
@[simp] theorem low_count : (low q).count = q.1.count := by unfold low; split <;> rfl
@[simp] theorem low_alive : (low q).alive = q.1.alive := by unfold low; split <;> rfl
@[simp] theorem low_accepts (a : α) : (low q).accepts a = q.1.accepts a := by simp [Spec.Exp.accepts]
@[simp] theorem low_throws (a : α) : (low q).throws a = q.1.throws a := by simp [Spec.Exp.throws]
end

theorem low_of_ne {q : Spec.Exp α × Int} (h : q.1.seqs ≠ []) : low q = q.1 := by simp [low, h]

/-- The two states: `P` lists the expectations with the lower limits they have in the second. -/
structure Rel (S S' : Spec.State α) (P : List (Spec.Exp α × Int)) : Prop where
  fst : S.exps = P.map (·.1)
  snd : S'.exps = P.map low
  seqs : S'.seqs = S.seqs
  mocks : S'.mocks = S.mocks
  le : ∀ q ∈ P, q.1.seqs = [] → q.2 ≤ q.1.min

variable {S S' : Spec.State α} {P : List (Spec.Exp α × Int)}

theorem Rel.attached (h : Rel S S' P) (s : Nat) : S'.attached s = S.attached s := by
  unfold Spec.State.attached
  rw [h.fst, h.snd, List.filter_map, List.filter_map]
  have : (P.filter ((fun x => x.seqs.contains s) ∘ low)) = P.filter ((fun x => x.seqs.contains s) ∘ (·.1)) := by
    apply List.filter_congr; intro q _; simp
  rw [this]
  apply List.map_congr_left
  intro q hq
  apply low_of_ne
  have := (List.mem_filter.mp hq).2
  intro h0
  simp [h0] at this

theorem Rel.applicable (h : Rel S S' P) (q : Spec.Exp α × Int) : S'.applicable (low q) = S.applicable q.1 := by
  unfold Spec.State.applicable
  simp only [low_count, low_max, low_seqs, low_id, h.attached]

theorem Rel.select (h : Rel S S' P) (q : Spec.Exp α × Int) (qs : List (Spec.Exp α × Int)) :
    (S'.select (low q) (qs.map low)).id = (S.select q.1 (qs.map (·.1))).id := by
  induction qs generalizing q with
  | nil => simp [Spec.State.select]
  | cons r rs ih =>
    have hd : S'.displaces (low r) (low q) = S.displaces r.1 q.1 := by
      have hk : ∀ st, S'.kindCount (low q) st = S.kindCount q.1 st := by
        intro st
        unfold Spec.State.kindCount
        rw [low_seqs, h.seqs]
      unfold Spec.State.displaces
      rw [hk, hk, low_seqs, low_seqs]
    simp only [List.map_cons, Spec.State.select, hd]
    split <;> exact ih _

theorem Rel.countMatch (h : Rel S S' P) (e : Nat) : ∃ P', Rel (S.countMatch e) (S'.countMatch e) P' := by
  refine ⟨P.map (fun q => (if q.1.id = e then { q.1 with count := q.1.count + 1 } else q.1, q.2)), ?_, ?_, h.seqs, h.mocks, ?_⟩
  · simp [Spec.State.countMatch, h.fst, Function.comp_def]
  · simp only [Spec.State.countMatch, h.snd, List.map_map]
    apply List.map_congr_left
    intro q _
    simp only [Function.comp_apply, low_id, low_count]
    unfold low
    by_cases h1 : q.1.id = e <;> by_cases h2 : q.1.seqs = [] <;> simp [h1, h2]
  · intro q hq
    obtain ⟨r, hr, rfl⟩ := List.mem_map.mp hq
    have := h.le r hr
    simp only
    split <;> exact this

theorem Rel.withdraw (h : Rel S S' P) (e : Nat) : ∃ P', Rel (S.withdraw e) (S'.withdraw e) P' := by
  refine ⟨P.map (fun q => (if q.1.id = e then { q.1 with alive := false } else q.1, q.2)), ?_, ?_, h.seqs, h.mocks, ?_⟩
  · simp [Spec.State.withdraw, h.fst, Function.comp_def]
  · simp only [Spec.State.withdraw, h.snd, List.map_map]
    apply List.map_congr_left
    intro q _
    simp only [Function.comp_apply, low_id]
    unfold low
    by_cases h1 : q.1.id = e <;> by_cases h2 : q.1.seqs = [] <;> simp [h1, h2]
  · intro q hq
    obtain ⟨r, hr, rfl⟩ := List.mem_map.mp hq
    have := h.le r hr
    simp only
    split <;> exact this

theorem Rel.filter (h : Rel S S' P) (p : Spec.Exp α → Bool) (hp : ∀ q, p (low q) = p q.1) :
    S'.exps.filter p = (P.filter (fun q => p q.1)).map low ∧ S.exps.filter p = (P.filter (fun q => p q.1)).map (·.1) := by
  rw [h.fst, h.snd, List.filter_map, List.filter_map]
  refine ⟨?_, rfl⟩
  congr 1
  apply List.filter_congr
  intro q _
  simp [hp]

theorem Rel.call (h : Rel S S' P) (m : Nat) (a : α) :
    (∃ P', Rel (S.call m a).1 (S'.call m a).1 P') ∧ (S'.call m a).2.1 = (S.call m a).2.1 := by
  obtain ⟨h1, h2⟩ := h.filter (fun x => x.alive && x.mock == m) (by simp)
  generalize hC : P.filter (fun q => q.1.alive && q.1.mock == m) = C at h1 h2
  have hc1 : S'.candidates m = C.reverse.map low := by rw [Spec.State.candidates, h1, List.map_reverse]
  have hc2 : S.candidates m = C.reverse.map (·.1) := by rw [Spec.State.candidates, h2, List.map_reverse]
  generalize C.reverse = D at hc1 hc2
  have hf : ∀ (p : Spec.Exp α → Bool), (∀ q, p (low q) = p q.1) → ∀ (L : List (Spec.Exp α × Int)),
      (L.map low).filter p = (L.filter (fun q => p q.1)).map low ∧
      (L.map (·.1)).filter p = (L.filter (fun q => p q.1)).map (·.1) := by
    intro p hp L
    rw [List.filter_map, List.filter_map]
    refine ⟨?_, rfl⟩
    congr 1
    apply List.filter_congr
    intro q _
    simp [hp]
  have hthrow := hf (·.throws a) (by simp) D
  have hnothrow := hf (fun x => !x.throws a) (by simp) D
  have hacc := hf (·.accepts a) (by simp) D
  have happ : ((D.filter (fun q => q.1.accepts a)).map low).filter S'.applicable =
      ((D.filter (fun q => q.1.accepts a)).filter (fun q => S.applicable q.1)).map low ∧
      ((D.filter (fun q => q.1.accepts a)).map (·.1)).filter S.applicable =
      ((D.filter (fun q => q.1.accepts a)).filter (fun q => S.applicable q.1)).map (·.1) := by
    rw [List.filter_map, List.filter_map]
    refine ⟨?_, rfl⟩
    congr 1
    apply List.filter_congr
    intro q _
    simp [h.applicable]
  have hids : ∀ (L : List (Spec.Exp α × Int)), (L.map low).map (fun x => x.id) = (L.map (·.1)).map (fun x => x.id) := by
    intro L; simp [Function.comp_def]
  have hun : ∀ (L : List (Spec.Exp α × Int)), (L.map low).map (fun x => Event.unhandled x.id) =
      (L.map (·.1)).map (fun x => Event.unhandled x.id) := by
    intro L; simp [Function.comp_def]
  simp only [Spec.State.call, hc1, hc2, hthrow.1, hthrow.2, hnothrow.1, hnothrow.2, hacc.1, hacc.2, happ.1, happ.2, hids, hun]
  cases hF : (D.filter (fun q => q.1.accepts a)).filter (fun q => S.applicable q.1) with
  | cons q qs =>
    simp only [List.map_cons]
    rw [h.select q qs]
    exact ⟨h.countMatch _, rfl⟩
  | nil =>
    simp only [List.map_nil, List.isEmpty_map]
    split
    · exact ⟨⟨P, h⟩, rfl⟩
    · exact ⟨⟨P, h⟩, rfl⟩

theorem Rel.owned (h : Rel S S' P) (s : Nat) : S'.owned s = S.owned s := by
  unfold Spec.State.owned
  rw [h.seqs, h.fst, h.snd, List.any_map, List.any_map]
  congr 2
  funext q
  simp

theorem Rel.release (h : Rel S S' P) (ss : List Nat) : S'.release ss = S.release ss := by
  unfold Spec.State.release
  congr 1
  funext s
  simp only [h.owned, Spec.State.sequenceEnd, h.attached]

/-- What is reported in the second test: the same, but perhaps fewer unfulfilled expectations. -/
def Fewer (evs evs' : List Event) : Prop :=
  evs'.Sublist evs ∧ evs'.filter (fun ev => !isUnfulfilled ev) = evs.filter (fun ev => !isUnfulfilled ev)

theorem Fewer.refl (evs : List Event) : Fewer evs evs := ⟨.refl _, rfl⟩

theorem Fewer.append {a a' b b' : List Event} (h : Fewer a a') (h' : Fewer b b') : Fewer (a ++ b) (a' ++ b') :=
  ⟨h.1.append h'.1, by rw [List.filter_append, List.filter_append, h.2, h'.2]⟩

/-- A new expectation. -/
def fresh (n m : Nat) (min max : Int) (tags : List Nat) (ps : List (Policy α)) : Spec.Exp α :=
  { id := n, mock := m, min := min, max := max, seqs := tags, policies := ps, count := 0, alive := true }

theorem Rel.step (h : Rel S S' P) {op op' : Op α} (hl : Less op op') {T : Spec.State α} {ev : List Event}
    (hs : S.step op = some (T, ev)) :
    ∃ T' ev' P', S'.step op' = some (T', ev') ∧ Rel T T' P' ∧ Fewer ev ev' := by
  have hlen : S'.exps.length = S.exps.length := by rw [h.fst, h.snd]; simp
  have hh : S'.hasHandle = S.hasHandle := by funext s; simp [Spec.State.hasHandle, h.seqs]
  cases hl with
  | same op =>
    cases op with
    | newSequence st =>
      simp only [Spec.State.step, Option.some.injEq, Prod.mk.injEq] at hs
      obtain ⟨rfl, rfl⟩ := hs
      exact ⟨_, _, P, rfl, ⟨h.fst, h.snd, by simp [h.seqs], h.mocks, h.le⟩, by simpa [h.seqs] using Fewer.refl _⟩
    | newMock =>
      simp only [Spec.State.step, Option.some.injEq, Prod.mk.injEq] at hs
      obtain ⟨rfl, rfl⟩ := hs
      exact ⟨_, _, P, rfl, ⟨h.fst, h.snd, h.seqs, by simp [h.mocks], h.le⟩, by simpa [h.mocks] using Fewer.refl _⟩
    | dropSequence s =>
      simp only [Spec.State.step, hh] at hs ⊢
      split at hs
      · rename_i hc
        simp only [Option.some.injEq, Prod.mk.injEq] at hs
        obtain ⟨rfl, rfl⟩ := hs
        have hr : Rel { S with seqs := S.seqs.modify s (fun q => { q with handle := false }) }
            { S' with seqs := S'.seqs.modify s (fun q => { q with handle := false }) } P :=
          ⟨h.fst, h.snd, by simp [h.seqs], h.mocks, h.le⟩
        refine ⟨_, _, P, by rw [if_pos hc], hr, ?_⟩
        rw [hr.release]
        exact Fewer.refl _
      · cases hs
    | call m a =>
      simp only [Spec.State.step, h.mocks] at hs ⊢
      split at hs
      · rename_i hc
        simp only [Option.some.injEq, Prod.mk.injEq] at hs
        obtain ⟨rfl, rfl⟩ := hs
        obtain ⟨⟨P', hr⟩, he⟩ := h.call m a
        refine ⟨_, _, P', by rw [if_pos hc], hr, ?_⟩
        rw [he]
        exact Fewer.refl _
      · cases hs
    | expect m min max tags ps =>
      simp only [Spec.State.step, h.mocks, hh, hlen] at hs ⊢
      split at hs
      · rename_i hc
        rw [if_pos hc]
        split at hs
        · rename_i hv
          rw [if_pos hv]
          simp only [Option.some.injEq, Prod.mk.injEq] at hs
          obtain ⟨rfl, rfl⟩ := hs
          refine ⟨_, _, P ++ [(fresh S.exps.length m min max tags ps, min)], rfl, ⟨by simp [h.fst, fresh], ?_, h.seqs, rfl, ?_⟩, Fewer.refl _⟩
          · simp [h.snd, low, fresh]
          · intro q hq h0
            rcases List.mem_append.mp hq with hq | hq
            · exact h.le q hq h0
            · simp only [List.mem_singleton] at hq
              subst hq
              exact Int.le_refl _
        · rename_i hv
          rw [if_neg hv]
          simp only [Option.some.injEq, Prod.mk.injEq] at hs
          obtain ⟨rfl, rfl⟩ := hs
          exact ⟨_, _, P, rfl, h, Fewer.refl _⟩
      · cases hs
    | destroy e =>
      simp only [Spec.State.step] at hs ⊢
      have hfind : S'.exps.find? (fun x => x.id == e && x.alive) = (P.find? (fun q => q.1.id == e && q.1.alive)).map low := by
        rw [h.snd, List.find?_map]
        congr 2
        funext q; simp
      have hfind' : S.exps.find? (fun x => x.id == e && x.alive) = (P.find? (fun q => q.1.id == e && q.1.alive)).map (·.1) := by
        rw [h.fst, List.find?_map]; rfl
      rw [hfind'] at hs
      rw [hfind]
      cases hq : P.find? (fun q => q.1.id == e && q.1.alive) with
      | none => rw [hq] at hs; cases hs
      | some q =>
        rw [hq] at hs
        simp only [Option.map_some, Option.some.injEq, Prod.mk.injEq] at hs ⊢
        obtain ⟨rfl, rfl⟩ := hs
        obtain ⟨P', hr⟩ := h.withdraw e
        refine ⟨_, _, P', ⟨rfl, rfl⟩, hr, ?_⟩
        rw [hr.release, low_seqs, low_policies]
        have hu : (low q).unfulfilled = true → q.1.unfulfilled = true := by
          intro hl
          by_cases h0 : q.1.seqs = []
          · have := h.le q (List.mem_of_find?_eq_some hq) h0
            simp only [Spec.Exp.unfulfilled, low, h0, if_true, decide_eq_true_eq] at hl ⊢
            omega
          · rwa [low_of_ne h0] at hl
        refine Fewer.append (Fewer.append (Fewer.refl [Event.destroyed e]) ?_) (Fewer.refl _)
        cases h1 : (low q).unfulfilled with
        | true =>
          rw [hu h1]
          exact Fewer.refl _
        | false =>
          cases h2 : q.1.unfulfilled with
          | false => exact Fewer.refl _
          | true =>
            generalize (!q.1.policies.all fun x => x.isSatisfied) = b
            cases b with
            | true => exact Fewer.refl _
            | false => exact (show Fewer [Event.unfulfilled e] [] from ⟨List.nil_sublist _, rfl⟩)
  | expect m min min' max ps h1 h2 h3 =>
    simp only [Spec.State.step, h.mocks, hh, hlen] at hs ⊢
    split at hs
    · rename_i hc
      have hc' : m < S.mocks ∧ ([] : List Nat).all S.hasHandle = true ∧ isInt min' = true ∧ isInt max = true := by
        refine ⟨hc.1, rfl, ?_, hc.2.2.2⟩
        have := hc.2.2.1
        unfold isInt intMin intMax at *
        grind
      rw [if_pos hc', if_pos ⟨⟨h1, by omega⟩, by simp⟩]
      rw [if_pos ⟨⟨by omega, h3⟩, by simp⟩] at hs
      simp only [Option.some.injEq, Prod.mk.injEq] at hs
      obtain ⟨rfl, rfl⟩ := hs
      refine ⟨_, _, P ++ [(fresh S.exps.length m min max [] ps, min')], rfl, ⟨by simp [h.fst, fresh], ?_, h.seqs, rfl, ?_⟩, Fewer.refl _⟩
      · simp [h.snd, low, fresh]
      · intro q hq h0
        rcases List.mem_append.mp hq with hq | hq
        · exact h.le q hq h0
        · simp only [List.mem_singleton] at hq
          subst hq
          exact h2
    · cases hs

theorem Rel.full (h : Rel S S' P) {op op' : Op α} (hl : Less op op') (hf : ¬ S.full op) : ¬ S'.full op' := by
  cases hl with
  | same op => cases op <;> simp_all [Spec.State.full, h.attached]
  | expect m min min' max ps h1 h2 h3 => simp [Spec.State.full]

theorem Rel.run (h : Rel S S' P) {ops ops' : List (Op α)} (hl : LessAll ops ops') {T : Spec.State α} {evs : List Event}
    (hs : S.run ops = some (T, evs)) (hf : S.fits ops) :
    (∃ T' evs', S'.run ops' = some (T', evs') ∧ Fewer evs evs') ∧ S'.fits ops' := by
  induction hl generalizing S S' P T evs with
  | nil =>
    simp only [Spec.State.run, Option.some.injEq, Prod.mk.injEq] at hs
    obtain ⟨rfl, rfl⟩ := hs
    exact ⟨⟨_, _, rfl, Fewer.refl _⟩, trivial⟩
  | cons hl _ ih =>
    simp only [Spec.State.run] at hs
    split at hs
    · cases hs
    · rename_i S1 ev1 hs1
      split at hs
      · cases hs
      · rename_i S2 ev2 hs2
        simp only [Option.some.injEq, Prod.mk.injEq] at hs
        obtain ⟨rfl, rfl⟩ := hs
        obtain ⟨T', ev', P', h1, h2, h3⟩ := h.step hl hs1
        obtain ⟨⟨T'', evs', h4, h5⟩, h6⟩ := ih h2 hs2 (hf.2 _ _ hs1)
        refine ⟨⟨T'', ev' ++ evs', by simp [Spec.State.run, h1, h4], h3.append h5⟩, h.full hl hf.1, ?_⟩
        intro S3 ev3 h7
        rw [h1] at h7
        simp only [Option.some.injEq, Prod.mk.injEq] at h7
        rw [← h7.1]; exact h6

theorem Rel.init : Rel (Spec.State.init : Spec.State α) Spec.State.init [] :=
  ⟨rfl, rfl, rfl, rfl, by simp⟩

open Language in
theorem possessive_less {ps ps' : List (Part α)} (h : LessParts ps ps') (calls : List (Nat × α))
    (hp : possessive ps calls = true) : possessive ps' calls = true := by
  induction h generalizing calls with
  | nil => exact hp
  | @cons p min' ps ps' h1 h2 h3 ih =>
    have ht : Part.takes { p with min := min' } = p.takes := by funext c; rfl
    simp only [possessive, Bool.and_eq_true, decide_eq_true_eq, ht] at hp ⊢
    exact ⟨by omega, ih _ hp.2⟩

end Mimic.Relax
