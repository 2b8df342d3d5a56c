import Verif.Spec.Answers
import Verif.Proofs.SpecRun

/-! # Tests with other matchers, arguments and mocks: lemmas -/

set_option autoImplicit false

namespace Mimic.Answers

variable {α β : Type} {strict : Prop} {R : Nat × α → Nat × β → Prop}

/-- The same expectation in the two tests. -/
structure Twin (strict : Prop) (R : Nat × α → Nat × β → Prop) (p : Spec.Exp α × Spec.Exp β) : Prop where
  id : p.1.id = p.2.id
  min : p.1.min = p.2.min
  max : p.1.max = p.2.max
  seqs : p.1.seqs = p.2.seqs
  count : p.1.count = p.2.count
  alive : p.1.alive = p.2.alive
  alike : Alike R p.1.mock p.1.policies p.2.mock p.2.policies
  mock : strict → p.1.mock = p.2.mock

/-- The two tests are at the same point. -/
structure Pair (strict : Prop) (R : Nat × α → Nat × β → Prop) (z : List (Spec.Exp α × Spec.Exp β)) (S : Spec.State α)
    (T : Spec.State β) : Prop where
  left : S.exps = z.map Prod.fst
  right : T.exps = z.map Prod.snd
  twins : ∀ p ∈ z, Twin strict R p
  seqs : S.seqs = T.seqs
  mocks : strict → S.mocks = T.mocks

theorem filter_twins {z : List (Spec.Exp α × Spec.Exp β)} {f : Spec.Exp α → Bool} {g : Spec.Exp β → Bool}
    (h : ∀ p ∈ z, f p.1 = g p.2) :
    ∃ z' : List (Spec.Exp α × Spec.Exp β), (∀ p ∈ z', p ∈ z) ∧ (z.map Prod.fst).filter f = z'.map Prod.fst ∧ (z.map Prod.snd).filter g = z'.map Prod.snd := by
  refine ⟨z.filter (fun p => f p.1), fun p hp => (List.mem_filter.mp hp).1, ?_, ?_⟩
  · rw [List.filter_map]; rfl
  · rw [List.filter_map]
    congr 1
    exact List.filter_congr fun p hp => (h p hp).symm

theorem all_twins {z : List (Spec.Exp α × Spec.Exp β)} {f : Spec.Exp α → Bool} {g : Spec.Exp β → Bool}
    (h : ∀ p ∈ z, f p.1 = g p.2) : (z.map Prod.fst).all f = (z.map Prod.snd).all g := by
  induction z with
  | nil => rfl
  | cons p z ih =>
    simp only [List.map_cons, List.all_cons]
    rw [h p (by simp), ih (fun q hq => h q (by simp [hq]))]

theorem any_twins {z : List (Spec.Exp α × Spec.Exp β)} {f : Spec.Exp α → Bool} {g : Spec.Exp β → Bool}
    (h : ∀ p ∈ z, f p.1 = g p.2) : (z.map Prod.fst).any f = (z.map Prod.snd).any g := by
  induction z with
  | nil => rfl
  | cons p z ih =>
    simp only [List.map_cons, List.any_cons]
    rw [h p (by simp), ih (fun q hq => h q (by simp [hq]))]

theorem ids_twins {z : List (Spec.Exp α × Spec.Exp β)} (h : ∀ p ∈ z, Twin strict R p) :
    (z.map Prod.fst).map (·.id) = (z.map Prod.snd).map (·.id) := by
  rw [List.map_map, List.map_map]
  exact List.map_congr_left fun p hp => (h p hp).id

variable {z : List (Spec.Exp α × Spec.Exp β)} {S : Spec.State α} {T : Spec.State β}

theorem Pair.attached (h : Pair strict R z S T) (s : Nat) :
    ∃ z' : List (Spec.Exp α × Spec.Exp β), (∀ p ∈ z', p ∈ z) ∧ S.attached s = z'.map Prod.fst ∧ T.attached s = z'.map Prod.snd := by
  unfold Spec.State.attached
  rw [h.left, h.right]
  exact filter_twins fun p hp => by rw [(h.twins p hp).seqs]

theorem Pair.applicable (h : Pair strict R z S T) {p : Spec.Exp α × Spec.Exp β} (hp : p ∈ z) :
    S.applicable p.1 = T.applicable p.2 := by
  have ht := h.twins p hp
  unfold Spec.State.applicable
  rw [ht.count, ht.max, ht.seqs, ht.id]
  congr 1
  congr 1
  funext s
  obtain ⟨z', h1, h2, h3⟩ := h.attached s
  rw [h2, h3]
  refine all_twins fun q hq => ?_
  have := h.twins q (h1 q hq)
  rw [this.id, this.min, this.count]

theorem Pair.kindCount (h : Pair strict R z S T) {p : Spec.Exp α × Spec.Exp β} (hp : p ∈ z) (st : Strategy) :
    S.kindCount p.1 st = T.kindCount p.2 st := by
  unfold Spec.State.kindCount
  rw [(h.twins p hp).seqs, h.seqs]

theorem Pair.select (h : Pair strict R z S T) (l : List (Spec.Exp α × Spec.Exp β)) (p : Spec.Exp α × Spec.Exp β) (hp : p ∈ z)
    (hl : ∀ q ∈ l, q ∈ z) :
    ∃ q ∈ z, S.select p.1 (l.map Prod.fst) = q.1 ∧ T.select p.2 (l.map Prod.snd) = q.2 := by
  induction l generalizing p with
  | nil => exact ⟨p, hp, rfl, rfl⟩
  | cons q l ih =>
    have hq := hl q (by simp)
    have hd : S.displaces q.1 p.1 = T.displaces q.2 p.2 := by
      unfold Spec.State.displaces
      rw [(h.twins p hp).seqs, (h.twins q hq).seqs, h.kindCount hp, h.kindCount hp]
    simp only [List.map_cons, Spec.State.select]
    rw [hd]
    split
    · exact ih q hq fun x hx => hl x (by simp [hx])
    · exact ih p hp fun x hx => hl x (by simp [hx])

theorem answer_eq {α : Type} (x : Spec.Exp α) (m : Nat) (a : α) :
    answer x.mock x.policies (m, a) =
      if m = x.mock then if x.throws a then none else some (x.accepts a) else some false := rfl

theorem throws_of (x : Spec.Exp α) (m : Nat) (a : α) :
    ((x.mock == m) && x.throws a) = (answer x.mock x.policies (m, a) == none) := by
  rw [answer_eq]
  by_cases hm : m = x.mock
  · rw [if_pos hm]
    subst hm
    cases x.throws a <;> simp
  · rw [if_neg hm]
    have : (x.mock == m) = false := by simpa using fun h => hm h.symm
    simp [this]

theorem not_throws_of {x : Spec.Exp α} {a : α} (h : x.accepts a = true) : x.throws a = false := by
  unfold Spec.Exp.accepts at h
  unfold Spec.Exp.throws
  grind

theorem accepts_of (x : Spec.Exp α) (m : Nat) (a : α) :
    ((x.mock == m) && x.accepts a) = (answer x.mock x.policies (m, a) == some true) := by
  rw [answer_eq]
  by_cases hm : m = x.mock
  · rw [if_pos hm]
    subst hm
    have := not_throws_of (x := x) (a := a)
    cases h1 : x.accepts a <;> cases h2 : x.throws a <;> simp_all
  · rw [if_neg hm]
    have : (x.mock == m) = false := by simpa using fun h => hm h.symm
    simp [this]

/-- What one test observes corresponds to what the other one does. -/
def Seen (strict : Prop) (ev ev' : List Event) : Prop :=
  ev.filterMap observe = ev'.filterMap observe ∧ (strict → ev = ev')

theorem Seen.refl (ev : List Event) : Seen strict ev ev := ⟨rfl, fun _ => rfl⟩

theorem Seen.append {a b c d : List Event} (h : Seen strict a b) (h' : Seen strict c d) : Seen strict (a ++ c) (b ++ d) := by
  refine ⟨?_, fun hs => by rw [h.2 hs, h'.2 hs]⟩
  rw [List.filterMap_append, List.filterMap_append, h.1, h'.1]

/-- The lists of a call, as filters over all expectations. -/
theorem candidates_filter (S : Spec.State α) (m : Nat) (f : Spec.Exp α → Bool) :
    (S.candidates m).filter f = (S.exps.filter (fun x => x.alive && (x.mock == m && f x))).reverse := by
  unfold Spec.State.candidates
  rw [List.filter_reverse, List.filter_filter]
  congr 1
  refine List.filter_congr fun x _ => ?_
  cases f x <;> cases x.alive <;> cases (x.mock == m) <;> rfl

theorem Pair.candidates (h : Pair strict R z S T) (m m' : Nat) (f : Spec.Exp α → Bool) (g : Spec.Exp β → Bool)
    (hfg : ∀ p ∈ z, ((p.1.mock == m) && f p.1) = ((p.2.mock == m') && g p.2)) :
    ∃ z' : List (Spec.Exp α × Spec.Exp β), (∀ p ∈ z', p ∈ z) ∧ (S.candidates m).filter f = z'.map Prod.fst ∧ (T.candidates m').filter g = z'.map Prod.snd := by
  rw [candidates_filter, candidates_filter, h.left, h.right]
  obtain ⟨z', h1, h2, h3⟩ := filter_twins (z := z) (f := fun x => x.alive && (x.mock == m && f x))
    (g := fun x => x.alive && (x.mock == m' && g x)) (fun p hp => by rw [(h.twins p hp).alive, hfg p hp])
  refine ⟨z'.reverse, fun p hp => h1 p (by simpa using hp), ?_, ?_⟩
  · rw [h2, List.map_reverse]
  · rw [h3, List.map_reverse]

theorem Pair.countMatch (h : Pair strict R z S T) (e : Nat) : ∃ z', Pair strict R z' (S.countMatch e) (T.countMatch e) := by
  refine ⟨z.map (fun p => if p.1.id = e then ({ p.1 with count := p.1.count + 1 }, { p.2 with count := p.2.count + 1 }) else p), ?_⟩
  refine ⟨?_, ?_, ?_, h.seqs, h.mocks⟩
  · simp only [Spec.State.countMatch, h.left, List.map_map]
    exact List.map_congr_left fun p _ => by simp only [Function.comp]; split <;> rfl
  · simp only [Spec.State.countMatch, h.right, List.map_map]
    refine List.map_congr_left fun p hp => ?_
    simp only [Function.comp, ← (h.twins p hp).id]
    split <;> rfl
  · intro q hq
    obtain ⟨p, hp, rfl⟩ := List.mem_map.mp hq
    have ht := h.twins p hp
    split
    · exact ⟨ht.id, ht.min, ht.max, ht.seqs, by simp [ht.count], ht.alive, ht.alike, ht.mock⟩
    · exact ht

theorem Pair.withdraw (h : Pair strict R z S T) (e : Nat) : ∃ z', Pair strict R z' (S.withdraw e) (T.withdraw e) := by
  refine ⟨z.map (fun p => if p.1.id = e then ({ p.1 with alive := false }, { p.2 with alive := false }) else p), ?_⟩
  refine ⟨?_, ?_, ?_, h.seqs, h.mocks⟩
  · simp only [Spec.State.withdraw, h.left, List.map_map]
    exact List.map_congr_left fun p _ => by simp only [Function.comp]; split <;> rfl
  · simp only [Spec.State.withdraw, h.right, List.map_map]
    refine List.map_congr_left fun p hp => ?_
    simp only [Function.comp, ← (h.twins p hp).id]
    split <;> rfl
  · intro q hq
    obtain ⟨p, hp, rfl⟩ := List.mem_map.mp hq
    have ht := h.twins p hp
    split
    · exact ⟨ht.id, ht.min, ht.max, ht.seqs, ht.count, rfl, ht.alike, ht.mock⟩
    · exact ht

theorem Pair.hasHandle (h : Pair strict R z S T) (s : Nat) : S.hasHandle s = T.hasHandle s := by
  unfold Spec.State.hasHandle
  rw [h.seqs]

theorem Pair.release (h : Pair strict R z S T) (ss : List Nat) : S.release ss = T.release ss := by
  unfold Spec.State.release
  congr 1
  funext s
  have ho : S.owned s = T.owned s := by
    unfold Spec.State.owned
    rw [h.seqs, h.left, h.right]
    congr 1
    exact any_twins fun p hp => by rw [(h.twins p hp).alive, (h.twins p hp).seqs]
  have he : S.sequenceEnd s = T.sequenceEnd s := by
    unfold Spec.State.sequenceEnd
    obtain ⟨z', h1, h2, h3⟩ := h.attached s
    rw [h2, h3]
    have hlen : (z'.map Prod.fst).length = (z'.map Prod.snd).length := by simp
    have hidx : (z'.map Prod.fst).findIdx? (·.unfulfilled) = (z'.map Prod.snd).findIdx? (·.unfulfilled) := by
      clear hlen h2 h3
      induction z' with
      | nil => rfl
      | cons p z' ih =>
        have ht := h.twins p (h1 p (by simp))
        have hu : p.1.unfulfilled = p.2.unfulfilled := by
          unfold Spec.Exp.unfulfilled
          rw [ht.count, ht.min]
        simp only [List.map_cons, List.findIdx?_cons]
        rw [hu, ih fun q hq => h1 q (by simp [hq])]
    rw [hidx, hlen]
  rw [ho, he]

theorem Pair.call (h : Pair strict R z S T) {m m' : Nat} {a : α} {b : β} (hr : R (m, a) (m', b)) (hs : strict → m = m') :
    (∃ z', Pair strict R z' (S.call m a).1 (T.call m' b).1) ∧ Seen strict (S.call m a).2.1 (T.call m' b).2.1 := by
  have hans : ∀ p ∈ z, answer p.1.mock p.1.policies (m, a) = answer p.2.mock p.2.policies (m', b) :=
    fun p hp => (h.twins p hp).alike.1 _ _ hr
  have hthr : ∀ p ∈ z, ((p.1.mock == m) && p.1.throws a) = ((p.2.mock == m') && p.2.throws b) :=
    fun p hp => by rw [throws_of, throws_of, hans p hp]
  have hacc : ∀ p ∈ z, ((p.1.mock == m) && p.1.accepts a) = ((p.2.mock == m') && p.2.accepts b) :=
    fun p hp => by rw [accepts_of, accepts_of, hans p hp]
  obtain ⟨zt, t1, t2, t3⟩ := h.candidates m m' (·.throws a) (·.throws b) hthr
  obtain ⟨za, a1, a2, a3⟩ := h.candidates m m' (·.accepts a) (·.accepts b) hacc
  obtain ⟨zf, f1, f2, f3⟩ := filter_twins (z := za) (f := S.applicable) (g := T.applicable)
    (fun p hp => h.applicable (a1 p hp))
  have hun : ((S.candidates m).filter (·.throws a)).map (fun x => Event.unhandled x.id) =
      ((T.candidates m').filter (·.throws b)).map (fun x => Event.unhandled x.id) := by
    rw [t2, t3, List.map_map, List.map_map]
    exact List.map_congr_left fun p hp => by simp only [Function.comp, (h.twins p (t1 p hp)).id]
  have hno : strict → ((S.candidates m).filter (fun x => !x.throws a)).map (·.id) =
      ((T.candidates m').filter (fun x => !x.throws b)).map (·.id) := by
    intro hst
    obtain ⟨zn, n1, n2, n3⟩ := h.candidates m m' (fun x => !x.throws a) (fun x => !x.throws b) (by
      intro p hp
      have := hthr p hp
      have hm := (h.twins p hp).mock hst
      rw [← hs hst, hm] at this ⊢
      cases hb : p.2.mock == m <;> simp_all)
    rw [n2, n3]
    exact ids_twins fun p hp => h.twins p (n1 p hp)
  unfold Spec.State.call
  simp only [hun]
  rw [a2, a3, f2, f3]
  cases zf with
  | cons p l =>
    have hz : ∀ q ∈ p :: l, q ∈ z := fun q hq => a1 q (f1 q hq)
    obtain ⟨q, hq, h1, h2⟩ := h.select l p (hz p (by simp)) (fun q hq => hz q (by simp [hq]))
    simp only [List.map_cons, h1, h2, (h.twins q hq).id]
    exact ⟨h.countMatch _, Seen.refl _⟩
  | nil =>
    simp only [List.map_nil, List.isEmpty_map]
    split
    · refine ⟨⟨z, h⟩, ?_, ?_⟩
      · simp [List.filterMap_append, observe]
      · intro hst
        rw [hno hst]
    · refine ⟨⟨z, h⟩, ?_⟩
      simp only
      rw [ids_twins fun p hp => h.twins p (a1 p hp)]
      exact Seen.refl _

theorem Pair.full (h : Pair strict R z S T) {op : Op α} {op' : Op β} (ho : SameOp strict R op op') (hf : ¬ S.full op) :
    ¬ T.full op' := by
  cases ho with
  | expect min max tags ha hs =>
    intro hc
    refine hf ?_
    obtain ⟨h1, h2, s, h3, h4⟩ := hc
    refine ⟨h1, h2, s, h3, ?_⟩
    obtain ⟨z', -, e1, e2⟩ := h.attached s
    rw [e2] at h4
    rw [e1]
    simpa using h4
  | _ => exact fun hc => hc

theorem Pair.step (h : Pair strict R z S T) {op : Op α} {op' : Op β} (ho : SameOp strict R op op') {S' : Spec.State α}
    {ev : List Event} (hS : S.step op = some (S', ev)) {rest : List (Op β)} (hm : mocked T.mocks (op' :: rest)) :
    ∃ T' ev' z', T.step op' = some (T', ev') ∧ Pair strict R z' S' T' ∧ Seen strict ev ev' ∧ mocked T'.mocks rest := by
  cases ho with
  | newSequence st =>
    simp only [Spec.State.step, Option.some.injEq, Prod.mk.injEq] at hS
    obtain ⟨rfl, rfl⟩ := hS
    refine ⟨_, _, z, rfl, ⟨h.left, h.right, h.twins, by simp [h.seqs], h.mocks⟩, ?_, hm⟩
    rw [h.seqs]
    exact Seen.refl _
  | dropSequence s =>
    simp only [Spec.State.step] at hS ⊢
    rw [h.hasHandle s] at hS
    by_cases hh : T.hasHandle s = true
    · rw [if_pos hh] at hS ⊢
      simp only [Option.some.injEq, Prod.mk.injEq] at hS
      obtain ⟨rfl, rfl⟩ := hS
      have h' : Pair strict R z { S with seqs := S.seqs.modify s (fun q => { q with handle := false }) }
          { T with seqs := T.seqs.modify s (fun q => { q with handle := false }) } :=
        ⟨h.left, h.right, h.twins, by simp [h.seqs], h.mocks⟩
      exact ⟨_, _, z, rfl, h', by rw [h'.release]; exact Seen.refl _, hm⟩
    · rw [if_neg hh] at hS
      simp at hS
  | newMock =>
    simp only [Spec.State.step, Option.some.injEq, Prod.mk.injEq] at hS
    obtain ⟨rfl, rfl⟩ := hS
    refine ⟨_, _, z, rfl, ⟨h.left, h.right, h.twins, h.seqs, fun hs => by simp [h.mocks hs]⟩, ⟨rfl, ?_⟩, hm⟩
    intro hs
    rw [h.mocks hs]
  | @expect m m' ps ps' min max tags ha hmm =>
    simp only [Spec.State.step] at hS ⊢
    have hh : tags.all S.hasHandle = tags.all T.hasHandle := by
      congr 1
      funext s
      exact h.hasHandle s
    rw [hh] at hS
    obtain ⟨hm1, hm2⟩ := hm
    by_cases hc : m < S.mocks ∧ tags.all T.hasHandle = true ∧ isInt min = true ∧ isInt max = true
    · rw [if_pos hc] at hS
      rw [if_pos ⟨hm1, hc.2⟩]
      by_cases hv : Spec.validTimes min max ∧ tags.Nodup
      · rw [if_pos hv] at hS ⊢
        simp only [Option.some.injEq, Prod.mk.injEq] at hS
        obtain ⟨rfl, rfl⟩ := hS
        have hlen : S.exps.length = T.exps.length := by rw [h.left, h.right]; simp
        refine ⟨_, _, z ++ [(⟨S.exps.length, m, min, max, tags, ps, 0, true⟩, ⟨T.exps.length, m', min, max, tags, ps', 0, true⟩)],
          rfl, ⟨by simp [h.left], by simp [h.right], ?_, h.seqs, h.mocks⟩, by rw [hlen]; exact Seen.refl _, hm2⟩
        intro p hp
        rcases List.mem_append.mp hp with hp | hp
        · exact h.twins p hp
        · rw [List.mem_singleton] at hp
          subst hp
          exact ⟨hlen, rfl, rfl, rfl, rfl, rfl, ha, hmm⟩
      · rw [if_neg hv] at hS ⊢
        simp only [Option.some.injEq, Prod.mk.injEq] at hS
        obtain ⟨rfl, rfl⟩ := hS
        exact ⟨_, _, z, rfl, h, Seen.refl _, hm2⟩
    · rw [if_neg hc] at hS
      simp at hS
  | @call m m' a b hr hmm =>
    simp only [Spec.State.step] at hS ⊢
    obtain ⟨hm1, hm2⟩ := hm
    rw [if_pos hm1]
    by_cases hc : m < S.mocks
    · rw [if_pos hc] at hS
      simp only [Option.some.injEq, Prod.mk.injEq] at hS
      obtain ⟨rfl, rfl⟩ := hS
      obtain ⟨⟨z', h1⟩, h2⟩ := h.call hr hmm
      refine ⟨_, _, z', rfl, h1, h2, ?_⟩
      have : (T.call m' b).1.mocks = T.mocks := by
        unfold Spec.State.call
        simp only
        split
        · rfl
        · split <;> rfl
      rw [this]
      exact hm2
    · rw [if_neg hc] at hS
      simp at hS
  | destroy e =>
    simp only [Spec.State.step] at hS ⊢
    have hf : (S.exps.find? (fun x => x.id == e && x.alive) = none ∧ T.exps.find? (fun x => x.id == e && x.alive) = none) ∨
        ∃ p ∈ z, S.exps.find? (fun x => x.id == e && x.alive) = some p.1 ∧
          T.exps.find? (fun x => x.id == e && x.alive) = some p.2 := by
      rw [h.left, h.right]
      have ht := h.twins
      clear h hS hm
      induction z with
      | nil => exact Or.inl ⟨rfl, rfl⟩
      | cons p z ih =>
        have hp := ht p (by simp)
        simp only [List.map_cons, List.find?_cons, hp.id, hp.alive]
        cases (p.2.id == e && p.2.alive)
        · rcases ih (fun q hq => ht q (by simp [hq])) with h1 | ⟨q, hq, h1⟩
          · exact Or.inl h1
          · exact Or.inr ⟨q, by simp [hq], h1⟩
        · exact Or.inr ⟨p, by simp, rfl, rfl⟩
    rcases hf with ⟨h1, h2⟩ | ⟨p, hp, h1, h2⟩
    · rw [h1] at hS
      simp at hS
    · rw [h1] at hS
      rw [h2]
      simp only [Option.some.injEq, Prod.mk.injEq] at hS ⊢
      obtain ⟨rfl, rfl⟩ := hS
      obtain ⟨z', h'⟩ := h.withdraw e
      have ht := h.twins p hp
      refine ⟨_, _, z', ⟨rfl, rfl⟩, h', ?_, hm⟩
      have hu : p.1.unfulfilled = p.2.unfulfilled := by
        unfold Spec.Exp.unfulfilled
        rw [ht.count, ht.min]
      rw [hu, ht.alike.2, ht.seqs, h'.release]
      exact Seen.refl _

theorem Pair.run {ops : List (Op α)} {ops' : List (Op β)} (hops : Same strict R ops ops') :
    ∀ {z : List (Spec.Exp α × Spec.Exp β)} {S : Spec.State α} {T : Spec.State β}, Pair strict R z S T → mocked T.mocks ops' →
      S.fits ops → ∀ {S' : Spec.State α} {evs : List Event}, S.run ops = some (S', evs) →
      ∃ T' evs', T.run ops' = some (T', evs') ∧ T.fits ops' ∧ Seen strict evs evs' := by
  induction hops with
  | nil =>
    intro z S T h _ _ S' evs hr
    simp only [Spec.State.run, Option.some.injEq, Prod.mk.injEq] at hr
    obtain ⟨rfl, rfl⟩ := hr
    exact ⟨T, [], rfl, trivial, Seen.refl _⟩
  | @both op op' ops ops' ho hs ih =>
    intro z S T h hm hf S' evs hr
    simp only [Spec.State.run] at hr
    cases hst : S.step op with
    | none => simp [hst] at hr
    | some r =>
      obtain ⟨S1, ev⟩ := r
      simp only [hst] at hr
      cases hrr : S1.run ops with
      | none => simp [hrr] at hr
      | some r =>
        obtain ⟨S2, evs2⟩ := r
        simp only [hrr, Option.some.injEq, Prod.mk.injEq] at hr
        obtain ⟨rfl, rfl⟩ := hr
        obtain ⟨T1, ev', z', h1, h2, h3, h4⟩ := h.step ho hst hm
        obtain ⟨T2, evs', h5, h6, h7⟩ := ih h2 h4 (hf.2 _ _ hst) hrr
        refine ⟨T2, ev' ++ evs', ?_, ⟨h.full ho hf.1, ?_⟩, h3.append h7⟩
        · simp only [Spec.State.run, h1, h5]
        · intro T3 ev3 h8
          rw [h1] at h8
          simp only [Option.some.injEq, Prod.mk.injEq] at h8
          rw [← h8.1]
          exact h6
  | @left ops ops' hn hs ih =>
    intro z S T h hm hf S' evs hr
    simp only [Spec.State.run, Spec.State.step] at hr
    cases hrr : ({ S with mocks := S.mocks + 1 } : Spec.State α).run ops with
    | none => simp [hrr] at hr
    | some r =>
      obtain ⟨S2, evs2⟩ := r
      simp only [hrr, Option.some.injEq, Prod.mk.injEq] at hr
      obtain ⟨rfl, rfl⟩ := hr
      obtain ⟨T2, evs', h5, h6, h7⟩ := ih (z := z) (T := T) (S := { S with mocks := S.mocks + 1 })
        ⟨h.left, h.right, h.twins, h.seqs, fun hs => absurd hs hn⟩ hm (hf.2 _ _ rfl) hrr
      refine ⟨T2, evs', h5, h6, ?_, fun hs => absurd hs hn⟩
      exact (List.filterMap_cons_none rfl).trans h7.1
  | @right ops ops' hn hs ih =>
    intro z S T h hm hf S' evs hr
    obtain ⟨T2, evs', h5, h6, h7⟩ := ih (z := z) (S := S) (T := { T with mocks := T.mocks + 1 })
      ⟨h.left, h.right, h.twins, h.seqs, fun hs => absurd hs hn⟩ hm hf hr
    refine ⟨T2, .mockCreated T.mocks :: evs', ?_, ⟨fun h => h, ?_⟩, ?_, fun hs => absurd hs hn⟩
    · simp only [Spec.State.run, Spec.State.step, h5]
      rfl
    · intro T3 ev3 h8
      simp only [Spec.State.step, Option.some.injEq, Prod.mk.injEq] at h8
      rw [← h8.1]
      exact h6
    · exact h7.1.trans (List.filterMap_cons_none rfl).symm

theorem Alike.symm {m m' : Nat} {ps : List (Policy α)} {ps' : List (Policy β)} (h : Alike R m ps m' ps') :
    Alike (fun d c => R c d) m' ps' m ps := ⟨fun d c hr => (h.1 c d hr).symm, h.2.symm⟩

theorem SameOp.symm {op : Op α} {op' : Op β} (h : SameOp strict R op op') : SameOp strict (fun d c => R c d) op' op := by
  cases h with
  | newSequence st => exact .newSequence st
  | dropSequence s => exact .dropSequence s
  | newMock => exact .newMock
  | expect min max tags ha hs => exact .expect min max tags ha.symm (fun h => (hs h).symm)
  | call hr hs => exact .call hr (fun h => (hs h).symm)
  | destroy e => exact .destroy e

theorem Same.symm {ops : List (Op α)} {ops' : List (Op β)} (h : Same strict R ops ops') :
    Same strict (fun d c => R c d) ops' ops := by
  induction h with
  | nil => exact .nil
  | both ho _ ih => exact .both ho.symm ih
  | left hn _ ih => exact .right hn ih
  | right hn _ ih => exact .left hn ih

/-- A program that runs uses only mocks that exist. -/
theorem mocked_of_run {ops : List (Op α)} {S S' : Spec.State α} {evs : List Event} (h : S.run ops = some (S', evs)) :
    mocked S.mocks ops := by
  induction ops generalizing S S' evs with
  | nil => trivial
  | cons op ops ih =>
    simp only [Spec.State.run] at h
    cases hst : S.step op with
    | none => simp [hst] at h
    | some r =>
      obtain ⟨S1, ev⟩ := r
      simp only [hst] at h
      cases hrr : S1.run ops with
      | none => simp [hrr] at h
      | some r =>
        have ih := ih hrr
        cases op with
        | newSequence st =>
          simp only [Spec.State.step, Option.some.injEq, Prod.mk.injEq] at hst
          obtain ⟨rfl, rfl⟩ := hst
          exact ih
        | dropSequence s =>
          simp only [Spec.State.step] at hst
          split at hst <;> simp only [Option.some.injEq, Prod.mk.injEq, reduceCtorEq] at hst
          obtain ⟨rfl, rfl⟩ := hst
          exact ih
        | newMock =>
          simp only [Spec.State.step, Option.some.injEq, Prod.mk.injEq] at hst
          obtain ⟨rfl, rfl⟩ := hst
          exact ih
        | expect m min max tags ps =>
          simp only [Spec.State.step] at hst
          by_cases hc : m < S.mocks ∧ tags.all S.hasHandle = true ∧ isInt min = true ∧ isInt max = true
          · rw [if_pos hc] at hst
            split at hst <;> simp only [Option.some.injEq, Prod.mk.injEq] at hst <;> obtain ⟨rfl, rfl⟩ := hst <;>
              exact ⟨hc.1, ih⟩
          · rw [if_neg hc] at hst
            simp at hst
        | call m a =>
          simp only [Spec.State.step] at hst
          by_cases hc : m < S.mocks
          · rw [if_pos hc] at hst
            simp only [Option.some.injEq, Prod.mk.injEq] at hst
            obtain ⟨rfl, rfl⟩ := hst
            have : (S.call m a).1.mocks = S.mocks := by
              unfold Spec.State.call
              simp only
              split
              · rfl
              · split <;> rfl
            rw [this] at ih
            exact ⟨hc, ih⟩
          · rw [if_neg hc] at hst
            simp at hst
        | destroy e =>
          simp only [Spec.State.step] at hst
          split at hst
          · simp at hst
          · simp only [Option.some.injEq, Prod.mk.injEq] at hst
            obtain ⟨rfl, rfl⟩ := hst
            exact ih

end Mimic.Answers
