import Verif.Spec.Lenient
import Verif.Proofs.Kinds
import Verif.Proofs.Language

/-! # More lenient tests: lemmas -/

set_option autoImplicit false

namespace Mimic.Lenient

variable {α : Type}

/-- An expectation and the more lenient one. The counts agree as long as `c`. -/
structure Pair (c : Prop) (x y : Spec.Exp α) : Prop where
  id : y.id = x.id
  mock : y.mock = x.mock
  alive : y.alive = x.alive
  min : y.min ≤ x.min
  max : x.max ≤ y.max
  seqs : y.seqs.Sublist x.seqs
  accepts : ∀ a, x.accepts a = true → y.accepts a = true
  satisfied : x.policies.all (·.isSatisfied) = true → y.policies.all (·.isSatisfied) = true
  count : c → y.count = x.count
  done : c → x.alive = false → x.min ≤ x.count

/-- The states of both programs. -/
def Rel (c : Prop) (S S' : Spec.State α) : Prop :=
  S'.mocks = S.mocks ∧ S'.seqs = S.seqs ∧
    ∃ P : List (Spec.Exp α × Spec.Exp α), S.exps = P.map (·.1) ∧ S'.exps = P.map (·.2) ∧ ∀ p ∈ P, Pair c p.1 p.2

variable {c : Prop} {S S' : Spec.State α}

theorem Rel.weaken {d : Prop} (h : Rel c S S') (hd : d → c) : Rel d S S' := by
  obtain ⟨h1, h2, P, h3, h4, h5⟩ := h
  exact ⟨h1, h2, P, h3, h4, fun p hp => { h5 p hp with count := fun k => (h5 p hp).count (hd k), done := fun k => (h5 p hp).done (hd k) }⟩

theorem filter_fst (P : List (Spec.Exp α × Spec.Exp α)) (q : Spec.Exp α → Bool) :
    (P.map (·.1)).filter q = (P.filter fun p => q p.1).map (·.1) := by
  rw [List.filter_map]; rfl

theorem filter_snd (P : List (Spec.Exp α × Spec.Exp α)) (q : Spec.Exp α → Bool) :
    (P.map (·.2)).filter q = (P.filter fun p => q p.2).map (·.2) := by
  rw [List.filter_map]; rfl

theorem attached_le (h : Rel c S S') (s : Nat) : (S'.attached s).length ≤ (S.attached s).length := by
  obtain ⟨-, -, P, h3, h4, h5⟩ := h
  unfold Spec.State.attached
  rw [h3, h4, filter_fst, filter_snd, List.length_map, List.length_map, ← List.countP_eq_length_filter, ← List.countP_eq_length_filter]
  apply List.countP_mono_left
  intro p hp hs
  have := (h5 p hp).seqs.subset
  rw [List.contains_iff_mem] at hs ⊢
  exact this hs

theorem release_neutral (S : Spec.State α) (ss : List Nat) : taken (S.release ss) = [] ∧ Event.rejected ∉ S.release ss := by
  have key : ∀ ev ∈ S.release ss, (∃ s k n, ev = .sequenceError s k n) ∨ ∃ s, ev = .sequenceDestroyed s := by
    intro ev hev
    unfold Spec.State.release at hev
    obtain ⟨s, -, hs⟩ := List.mem_flatMap.mp hev
    split at hs
    · cases hs
    · unfold Spec.State.sequenceEnd at hs
      rcases List.mem_append.mp hs with hs | hs
      · split at hs
        · exact .inl ⟨_, _, _, List.mem_singleton.mp hs⟩
        · cases hs
      · exact .inr ⟨_, List.mem_singleton.mp hs⟩
  constructor
  · unfold taken
    rw [List.filter_eq_nil_iff]
    intro ev hev
    rcases key ev hev with ⟨s, k, n, rfl⟩ | ⟨s, rfl⟩ <;> simp
  · intro hev
    rcases key _ hev with ⟨s, k, n, h⟩ | ⟨s, h⟩ <;> cases h

theorem release_passes (hd : ∀ x ∈ S.exps, x.alive = false → x.min ≤ x.count) (ss : List Nat) : Language.passes (S.release ss) := by
  unfold Spec.State.release
  induction ss with
  | nil => simp [Language.passes]
  | cons s ss ih =>
    rw [List.flatMap_cons]
    by_cases ho : S.owned s = true
    · rw [if_pos ho, List.nil_append]; exact ih
    · rw [if_neg ho]
      have hnone : (S.attached s).findIdx? (·.unfulfilled) = none := by
        rw [List.findIdx?_eq_none_iff]
        intro x hx
        obtain ⟨hx1, hx2⟩ := List.mem_filter.mp hx
        unfold Spec.State.owned at ho
        have hal : x.alive = false := by
          cases hal : x.alive with
          | false => rfl
          | true =>
            exfalso
            apply ho
            rw [Bool.or_eq_true, List.any_eq_true]
            exact .inr ⟨x, hx1, by rw [hal, hx2]; rfl⟩
        have := hd x hx1 hal
        unfold Spec.Exp.unfulfilled
        exact decide_eq_false (by omega)
      unfold Spec.State.sequenceEnd
      rw [hnone]
      exact Language.passes_append.mpr ⟨by simp [Language.passes, Language.failure], ih⟩

theorem Rel.done (h : Rel c S S') (hc : c) : ∀ y ∈ S'.exps, y.alive = false → y.min ≤ y.count := by
  obtain ⟨-, -, P, -, h4, h5⟩ := h
  intro y hy hd
  rw [h4] at hy
  obtain ⟨p, hp, rfl⟩ := List.mem_map.mp hy
  have hpp := h5 p hp
  have h1 := hpp.count hc
  have h2 := hpp.done hc (by rw [← hpp.alive]; exact hd)
  have h3 := hpp.min
  omega

theorem applicable (hc : c) {P : List (Spec.Exp α × Spec.Exp α)} (h3 : S.exps = P.map (·.1)) (h4 : S'.exps = P.map (·.2))
    (h5 : ∀ p ∈ P, Pair c p.1 p.2) {p : Spec.Exp α × Spec.Exp α} (hp : p ∈ P) (hx : S.applicable p.1 = true) : S'.applicable p.2 = true := by
  unfold Spec.State.applicable at hx ⊢
  rw [Bool.and_eq_true, decide_eq_true_eq, List.all_eq_true] at hx ⊢
  have hpp := h5 p hp
  have := hpp.count hc
  have := hpp.max
  refine ⟨by omega, ?_⟩
  intro s hs
  have h2 := hx.2 s (hpp.seqs.subset hs)
  rw [List.all_eq_true] at h2 ⊢
  intro z' hz'
  obtain ⟨hz1, hz2⟩ := List.mem_filter.mp hz'
  rw [h4, List.mem_map] at hz1
  obtain ⟨z, hz, rfl⟩ := hz1
  have hzz := h5 z hz
  have hmem : z.1 ∈ S.attached s := by
    refine List.mem_filter.mpr ⟨by rw [h3]; exact List.mem_map.mpr ⟨z, hz, rfl⟩, ?_⟩
    rw [List.contains_iff_mem] at hz2 ⊢
    exact hzz.seqs.subset hz2
  have hk := h2 z.1 hmem
  have e1 := hzz.id
  have e2 := hpp.id
  have e3 := hzz.count hc
  have e4 := hzz.min
  simp only [Bool.and_eq_true, Bool.or_eq_true, Bool.not_eq_true', decide_eq_false_iff_not, decide_eq_true_eq, beq_iff_eq] at hk ⊢
  omega

/-- A call only changes counts. -/
theorem call_counts (S : Spec.State α) (m : Nat) (a : α) :
    ∃ n : Spec.Exp α → Nat, (S.call m a).1 = { S with exps := S.exps.map fun x => { x with count := n x } } := by
  have hsame : S = { S with exps := S.exps.map fun x => { x with count := x.count } } := by simp
  unfold Spec.State.call
  dsimp only
  split
  · rename_i x older _
    refine ⟨fun y => if y.id = (S.select x older).id then y.count + 1 else y.count, ?_⟩
    have : S.exps.map (fun y => if y.id = (S.select x older).id then { y with count := y.count + 1 } else y) =
        S.exps.map (fun y => { y with count := if y.id = (S.select x older).id then y.count + 1 else y.count }) := by
      apply List.map_congr_left
      intro y _
      by_cases hy : y.id = (S.select x older).id
      · simp only [hy, if_true]
      · simp only [hy, if_false]
    simp only [Spec.State.countMatch, this]
  · split
    · exact ⟨_, hsame⟩
    · exact ⟨_, hsame⟩

theorem call_rejected (S : Spec.State α) (m : Nat) (a : α) : Event.rejected ∉ (S.call m a).2.1 := by
  unfold Spec.State.call
  dsimp only
  split
  · simp
  · split <;> simp

theorem Rel.call (h : Rel c S S') {m : Nat} {a : α} (hp : Language.passes (S.call m a).2.1) :
    Rel (c ∧ ((S'.candidates m).filter (·.accepts a)).length ≤ 1) (S.call m a).1 (S'.call m a).1 ∧
      (c → ((S'.candidates m).filter (·.accepts a)).length ≤ 1 →
        Language.passes (S'.call m a).2.1 ∧ taken (S'.call m a).2.1 = taken (S.call m a).2.1) := by
  obtain ⟨h1, h2, P, h3, h4, h5⟩ := h
  by_cases hc : c ∧ ((S'.candidates m).filter (·.accepts a)).length ≤ 1
  · obtain ⟨hc, hu⟩ := hc
    have e1 : (S.candidates m).filter (·.accepts a) =
        ((P.filter (fun p => p.1.alive && p.1.mock == m)).reverse.filter (fun p => p.1.accepts a)).map (·.1) := by
      unfold Spec.State.candidates
      rw [h3, filter_fst, ← List.map_reverse, filter_fst]
    have e2 : (S'.candidates m).filter (·.accepts a) =
        ((P.filter (fun p => p.1.alive && p.1.mock == m)).reverse.filter (fun p => p.2.accepts a)).map (·.2) := by
      unfold Spec.State.candidates
      rw [h4, filter_snd, ← List.map_reverse, filter_snd]
      congr 3
      apply List.filter_congr
      intro p hp
      rw [(h5 p hp).alive, (h5 p hp).mock]
    generalize hQ : (P.filter (fun p => p.1.alive && p.1.mock == m)).reverse = Q at e1 e2
    have hQP : ∀ p ∈ Q, p ∈ P := by
      intro p hp
      rw [← hQ, List.mem_reverse] at hp
      exact (List.mem_filter.mp hp).1
    have hx : ∃ p ∈ Q, p.1.accepts a = true ∧ S.applicable p.1 = true := by
      obtain ⟨us, last, k1, -, k2⟩ := call_events S m a
      rw [k1] at hp
      have hl := hp last (by simp)
      rcases k2 with ⟨x, older, k3, -, -⟩ | ⟨-, -, k3, -⟩ | ⟨-, -, k3, -⟩
      · have hm : x ∈ ((S.candidates m).filter (·.accepts a)).filter S.applicable := by rw [k3]; simp
        obtain ⟨g1, g2⟩ := List.mem_filter.mp hm
        rw [e1, List.mem_map] at g1
        obtain ⟨p, hp1, rfl⟩ := g1
        obtain ⟨hp2, hp3⟩ := List.mem_filter.mp hp1
        exact ⟨p, hp2, hp3, g2⟩
      · rw [k3] at hl; cases hl
      · rw [k3] at hl; cases hl
    obtain ⟨p, hpQ, hpa, hpapp⟩ := hx
    have hpp := h5 p (hQP p hpQ)
    have f2 : Q.filter (fun p => p.2.accepts a) = [p] := by
      have hm : p ∈ Q.filter (fun p => p.2.accepts a) := List.mem_filter.mpr ⟨hpQ, hpp.accepts a hpa⟩
      rw [e2, List.length_map] at hu
      generalize Q.filter (fun p => p.2.accepts a) = l at hu hm
      match l, hu, hm with
      | [y], _, hm => rw [List.mem_singleton.mp hm]
    have f1 : Q.filter (fun p => p.1.accepts a) = [p] := by
      have hm : p ∈ Q.filter (fun p => p.1.accepts a) := List.mem_filter.mpr ⟨hpQ, hpa⟩
      have hle : (Q.filter (fun p => p.1.accepts a)).length ≤ (Q.filter (fun p => p.2.accepts a)).length := by
        rw [← List.countP_eq_length_filter, ← List.countP_eq_length_filter]
        exact List.countP_mono_left fun q hq ha => (h5 q (hQP q hq)).accepts a ha
      rw [f2] at hle
      generalize Q.filter (fun p => p.1.accepts a) = l at hle hm
      match l, hle, hm with
      | [y], _, hm => rw [List.mem_singleton.mp hm]
    have happ' := applicable hc h3 h4 h5 (hQP p hpQ) hpapp
    have key : ∀ (T : Spec.State α) (x : Spec.Exp α), (T.candidates m).filter (·.accepts a) = [x] → T.applicable x = true →
        (T.call m a).1 = T.countMatch x.id ∧ Language.passes (T.call m a).2.1 ∧ taken (T.call m a).2.1 = [.fullMatch x.id] := by
      intro T x hx1 hx2
      unfold Spec.State.call
      dsimp only
      rw [hx1]
      simp only [List.filter_cons, hx2, if_true, List.filter_nil, Spec.State.select]
      refine ⟨trivial, ?_, ?_⟩
      · intro ev hev
        rcases List.mem_append.mp hev with hev | hev
        · obtain ⟨u, -, rfl⟩ := List.mem_map.mp hev; rfl
        · rw [List.mem_singleton.mp hev]; rfl
      · unfold taken
        rw [List.filter_append, List.filter_eq_nil_iff.mpr]
        · rfl
        · intro ev hev
          obtain ⟨u, -, rfl⟩ := List.mem_map.mp hev
          simp
    rw [f1] at e1
    rw [f2] at e2
    obtain ⟨r1, r2, r3⟩ := key S p.1 e1 hpapp
    obtain ⟨q1, q2, q3⟩ := key S' p.2 e2 happ'
    refine ⟨?_, fun _ _ => ⟨q2, by rw [r3, q3, hpp.id]⟩⟩
    rw [r1, q1, hpp.id]
    refine ⟨h1, h2, P.map fun q => (if q.1.id = p.1.id then { q.1 with count := q.1.count + 1 } else q.1,
      if q.2.id = p.1.id then { q.2 with count := q.2.count + 1 } else q.2), ?_, ?_, ?_⟩
    · unfold Spec.State.countMatch
      rw [h3, List.map_map, List.map_map]; rfl
    · unfold Spec.State.countMatch
      rw [h4, List.map_map, List.map_map]; rfl
    · intro q hq
      obtain ⟨r, hr, rfl⟩ := List.mem_map.mp hq
      have hrr := h5 r hr
      have hid := hrr.id
      by_cases he : r.1.id = p.1.id
      · have he' : r.2.id = p.1.id := by omega
        simp only [he, he', if_true]
        exact { id := by simp only [he'], mock := hrr.mock, alive := hrr.alive, min := hrr.min, max := hrr.max, seqs := hrr.seqs, accepts := hrr.accepts,
                satisfied := hrr.satisfied, count := fun _ => by simp [hrr.count hc],
                done := fun _ ha => by have := hrr.done hc ha; simp only; omega }
      · have he' : ¬ r.2.id = p.1.id := by omega
        simp only [he, he', if_false]
        exact { hrr with count := fun _ => hrr.count hc, done := fun _ => hrr.done hc }
  · refine ⟨?_, fun k1 k2 => absurd ⟨k1, k2⟩ hc⟩
    obtain ⟨n, hn⟩ := call_counts S m a
    obtain ⟨n', hn'⟩ := call_counts S' m a
    rw [hn, hn']
    refine ⟨h1, h2, P.map fun q => ({ q.1 with count := n q.1 }, { q.2 with count := n' q.2 }), ?_, ?_, ?_⟩
    · simp only [h3, List.map_map]; rfl
    · simp only [h4, List.map_map]; rfl
    · intro q hq
      obtain ⟨r, hr, rfl⟩ := List.mem_map.mp hq
      have hrr := h5 r hr
      exact { id := hrr.id, mock := hrr.mock, alive := hrr.alive, min := hrr.min, max := hrr.max, seqs := hrr.seqs, accepts := hrr.accepts,
              satisfied := hrr.satisfied, count := fun k => absurd k hc, done := fun k => absurd k hc }

theorem find_pair {P : List (Spec.Exp α × Spec.Exp α)} (h5 : ∀ p ∈ P, Pair c p.1 p.2) (e : Nat) :
    (P.map (·.1)).find? (fun x => x.id == e && x.alive) = (P.find? (fun p => p.1.id == e && p.1.alive)).map (·.1) ∧
    (P.map (·.2)).find? (fun x => x.id == e && x.alive) = (P.find? (fun p => p.1.id == e && p.1.alive)).map (·.2) := by
  constructor
  · rw [List.find?_map]; rfl
  · induction P with
    | nil => rfl
    | cons p P ih =>
      have hp := h5 p (by simp)
      have ih := ih fun q hq => h5 q (by simp [hq])
      simp only [List.map_cons, List.find?_cons, hp.id, hp.alive, ih]
      cases (p.1.id == e && p.1.alive) <;> rfl

/-- What decides whether a call may be resolved in two ways. -/
def Clear (S : Spec.State α) : Op α → Prop
  | .call m a => ((S.candidates m).filter (·.accepts a)).length ≤ 1
  | _ => True

theorem Rel.step (h : Rel c S S') {o o' : Op α} (hl : Less o o') {T : Spec.State α} {ev : List Event} (hs : S.step o = some (T, ev))
    (huniq : ∀ x ∈ S.exps, ∀ y ∈ S.exps, x.id = y.id → x = y) (hf : ¬ S.full o) (hrej : Event.rejected ∉ ev) (hp : Language.passes ev) :
    ∃ T' ev', S'.step o' = some (T', ev') ∧ ¬ S'.full o' ∧ Event.rejected ∉ ev' ∧ Rel (c ∧ Clear S' o') T T' ∧
      (c → Clear S' o' → Language.passes ev' ∧ taken ev' = taken ev) := by
  cases hl with
  | @expect m min max min' max' tags tags' ps ps' hmin hmax htags haccepts hsatisfied =>
    have ⟨h1, h2, P, h3, h4, h5⟩ := h
    simp only [Spec.State.step, h1] at hs ⊢
    by_cases hc : m < S.mocks ∧ tags.all S.hasHandle = true ∧ isInt min ∧ isInt max
    · rw [if_pos hc] at hs
      by_cases hv : Spec.validTimes min max ∧ tags.Nodup
      · rw [if_pos hv] at hs
        simp only [Option.some.injEq, Prod.mk.injEq] at hs
        obtain ⟨rfl, rfl⟩ := hs
        have hv1 := hv.1
        unfold Spec.validTimes at hv1
        have hc' : m < S.mocks ∧ tags'.all S'.hasHandle = true ∧ isInt min' ∧ isInt max' := by
          refine ⟨hc.1, ?_, ?_, hmax.2⟩
          · have := hc.2.1
            rw [List.all_eq_true] at this ⊢
            intro s hs
            have hh : S'.hasHandle s = S.hasHandle s := by simp [Spec.State.hasHandle, h2]
            rw [hh]; exact this s (htags.subset hs)
          · have := hc.2.2.1
            have k1 := hmin.1
            have k2 := hmin.2
            have k3 : intMin ≤ 0 := by decide
            have k4 := hmax.2
            simp only [isInt, Bool.and_eq_true, decide_eq_true_eq] at this k4 ⊢
            omega
        have hlen : S'.exps.length = S.exps.length := by rw [h3, h4, List.length_map, List.length_map]
        rw [if_pos hc', if_pos ⟨⟨hmin.1, by have := hmin.2; have := hmax.1; omega⟩, hv.2.sublist htags⟩]
        refine ⟨_, _, rfl, ?_, by simp, ⟨rfl, h2, P ++ [(⟨S.exps.length, m, min, max, tags, ps, 0, true⟩, ⟨S'.exps.length, m, min', max', tags', ps', 0, true⟩)], ?_, ?_, ?_⟩, ?_⟩
        · rintro ⟨-, -, s, hs, hl⟩
          refine hf ⟨hv.1, hv.2, s, htags.subset hs, ?_⟩
          have := attached_le h s
          omega
        · simp [h3]
        · simp [h4]
        · intro p hp
          rcases List.mem_append.mp hp with hp | hp
          · exact { h5 p hp with count := fun k => (h5 p hp).count k.1, done := fun k => (h5 p hp).done k.1 }
          · rw [List.mem_singleton] at hp
            subst hp
            refine { id := hlen, mock := rfl, alive := rfl, min := hmin.2, max := hmax.1, seqs := htags, accepts := ?_, satisfied := ?_,
                     count := fun _ => rfl, done := fun _ hh => by cases hh }
            · intro a
              simpa [Spec.Exp.accepts] using haccepts a
            · simpa using hsatisfied
        · intro _ _
          exact ⟨by simp [Language.passes, Language.failure], rfl⟩
      · rw [if_neg hv] at hs
        simp only [Option.some.injEq, Prod.mk.injEq] at hs
        obtain ⟨rfl, rfl⟩ := hs
        exact absurd (List.mem_singleton.mpr rfl) hrej
    · rw [if_neg hc] at hs; cases hs
  | other hne =>
    cases o with
    | expect m min max tags ps => exact absurd rfl (hne m min max tags ps)
    | newSequence st =>
      simp only [Spec.State.step, Option.some.injEq, Prod.mk.injEq] at hs ⊢
      obtain ⟨rfl, rfl⟩ := hs
      obtain ⟨h1, h2, P, h3, h4, h5⟩ := h.weaken (d := c ∧ True) (·.1)
      exact ⟨_, _, ⟨rfl, rfl⟩, id, by simp, ⟨h1, by simp [h2], P, h3, h4, h5⟩, fun _ _ => ⟨by simp [Language.passes, Language.failure], rfl⟩⟩
    | newMock =>
      simp only [Spec.State.step, Option.some.injEq, Prod.mk.injEq] at hs ⊢
      obtain ⟨rfl, rfl⟩ := hs
      obtain ⟨h1, h2, P, h3, h4, h5⟩ := h.weaken (d := c ∧ True) (·.1)
      exact ⟨_, _, ⟨rfl, rfl⟩, id, by simp, ⟨by simp [h1], h2, P, h3, h4, h5⟩, fun _ _ => ⟨by simp [Language.passes, Language.failure], rfl⟩⟩
    | dropSequence s =>
      obtain ⟨h1, h2, P, h3, h4, h5⟩ := h.weaken (d := c ∧ True) (·.1)
      have hh : S'.hasHandle s = S.hasHandle s := by simp [Spec.State.hasHandle, h2]
      simp only [Spec.State.step, hh] at hs ⊢
      by_cases hb : S.hasHandle s = true
      · rw [if_pos hb] at hs ⊢
        simp only [Option.some.injEq, Prod.mk.injEq] at hs
        obtain ⟨rfl, rfl⟩ := hs
        have hR : Rel (c ∧ True) { S with seqs := S.seqs.modify s (fun q => { q with handle := false }) }
            { S' with seqs := S'.seqs.modify s (fun q => { q with handle := false }) } := ⟨h1, by simp only [h2], P, h3, h4, h5⟩
        exact ⟨_, _, rfl, id, (release_neutral _ _).2, hR, fun hc _ => ⟨release_passes (hR.done ⟨hc, trivial⟩) _, by
          rw [(release_neutral _ _).1, (release_neutral _ _).1]⟩⟩
      · rw [if_neg hb] at hs; cases hs
    | call m a =>
      obtain ⟨h1, h2, P, h3, h4, h5⟩ := id h
      simp only [Spec.State.step, h1] at hs ⊢
      by_cases hm : m < S.mocks
      · rw [if_pos hm] at hs ⊢
        simp only [Option.some.injEq, Prod.mk.injEq] at hs
        obtain ⟨rfl, rfl⟩ := hs
        obtain ⟨g1, g2⟩ := h.call hp
        exact ⟨_, _, rfl, id, call_rejected _ _ _, g1, g2⟩
      · rw [if_neg hm] at hs; cases hs
    | destroy e =>
      obtain ⟨h1, h2, P, h3, h4, h5⟩ := h.weaken (d := c ∧ True) (·.1)
      simp only [Spec.State.step] at hs ⊢
      obtain ⟨f1, f2⟩ := find_pair h5 e
      rw [h3, f1] at hs
      rw [h4, f2]
      cases hx : P.find? (fun p => p.1.id == e && p.1.alive) with
      | none => rw [hx] at hs; cases hs
      | some x =>
        rw [hx] at hs
        simp only [Option.map_some, Option.some.injEq, Prod.mk.injEq] at hs ⊢
        obtain ⟨rfl, rfl⟩ := hs
        have hxP := List.mem_of_find?_eq_some hx
        have hxx := h5 x hxP
        have hxe : x.1.id = e := by
          have := List.find?_some hx
          simp only [Bool.and_eq_true, beq_iff_eq] at this
          exact this.1
        have hful : x.1.unfulfilled = false ∧ x.1.policies.all (·.isSatisfied) = true := by
          by_cases hb : (x.1.unfulfilled || !(x.1.policies.all (·.isSatisfied))) = true
          · rw [if_pos hb] at hp
            have := hp (.unfulfilled e) (by simp)
            cases this
          · simpa using hb
        have hR : Rel (c ∧ True) (S.withdraw e) (S'.withdraw e) := by
          refine ⟨h1, h2, P.map fun q => (if q.1.id = e then { q.1 with alive := false } else q.1,
            if q.2.id = e then { q.2 with alive := false } else q.2), ?_, ?_, ?_⟩
          · unfold Spec.State.withdraw
            rw [h3, List.map_map, List.map_map]; rfl
          · unfold Spec.State.withdraw
            rw [h4, List.map_map, List.map_map]; rfl
          · intro q hq
            obtain ⟨r, hr, rfl⟩ := List.mem_map.mp hq
            have hrr := h5 r hr
            have hid := hrr.id
            by_cases he : r.1.id = e
            · have he' : r.2.id = e := by omega
              simp only [he, he', if_true]
              have hrx : r.1 = x.1 := huniq r.1 (by rw [h3]; exact List.mem_map.mpr ⟨r, hr, rfl⟩) x.1
                (by rw [h3]; exact List.mem_map.mpr ⟨x, hxP, rfl⟩) (by omega)
              have hu := hful.1
              unfold Spec.Exp.unfulfilled at hu
              rw [decide_eq_false_iff_not] at hu
              exact { id := by simp only [he'], mock := hrr.mock, alive := rfl, min := hrr.min, max := hrr.max, seqs := hrr.seqs,
                      accepts := hrr.accepts, satisfied := hrr.satisfied, count := hrr.count,
                      done := fun _ _ => by simp only [hrx]; omega }
            · have he' : ¬ r.2.id = e := by omega
              simp only [he, he', if_false]
              exact hrr
        refine ⟨_, _, ⟨rfl, rfl⟩, id, ?_, hR, fun hc _ => ⟨?_, ?_⟩⟩
        · have := (release_neutral (S'.withdraw e) x.2.seqs).2
          intro hm
          rcases List.mem_append.mp hm with hm | hm
          · rcases List.mem_cons.mp hm with hm | hm
            · cases hm
            · split at hm
              · cases List.mem_singleton.mp hm
              · cases hm
          · exact this hm
        · have hb : (x.2.unfulfilled || !(x.2.policies.all (·.isSatisfied))) = false := by
            rw [hxx.satisfied hful.2]
            have hu := hful.1
            unfold Spec.Exp.unfulfilled at hu ⊢
            rw [decide_eq_false_iff_not] at hu
            have := hxx.count ⟨hc, trivial⟩
            have := hxx.min
            simp only [Bool.not_true, Bool.or_false, decide_eq_false_iff_not]
            omega
          rw [hb]
          exact Language.passes_append.mpr ⟨by simp [Language.passes, Language.failure], release_passes (hR.done ⟨hc, trivial⟩) _⟩
        · have key : ∀ (b : Bool) (l : List Event), taken l = [] →
              taken (Event.destroyed e :: (if b = true then [Event.unfulfilled e] else []) ++ l) = [] := by
            intro b l hl
            unfold taken at hl ⊢
            rw [List.filter_append, hl]
            cases b <;> rfl
          rw [key _ _ (release_neutral _ _).1, key _ _ (release_neutral _ _).1]

end Mimic.Lenient
