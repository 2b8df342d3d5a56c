import Verif.Spec.Whole
import Verif.Props.Selection
import Verif.Props.SequenceEnd
import Verif.Props.Outcome
import Verif.Proofs.Ends

/-!
# Proofs: all rules together
-/

set_option autoImplicit false

namespace Mimic.Whole

variable {α : Type}

/-! ### The rules leave no choice -/

theorem nextNumber_unique {used : Nat → Prop} {n k : Nat} (h1 : NextNumber used n) (h2 : NextNumber used k) : n = k := by
  rcases Nat.lt_trichotomy n k with h | h | h
  · have := (h1 n).mp ((h2 n).mpr h); omega
  · exact h
  · have := (h2 k).mp ((h1 k).mpr h); omega

theorem youngestFirst_unique {P : Nat → Prop} {a b : List Nat} (ha : YoungestFirst P a) (hb : YoungestFirst P b) : a = b := by
  have h1 : OldestFirst P a.reverse := ⟨by rw [List.pairwise_reverse]; exact ha.1, fun e => by rw [List.mem_reverse]; exact ha.2 e⟩
  have h2 : OldestFirst P b.reverse := ⟨by rw [List.pairwise_reverse]; exact hb.1, fun e => by rw [List.mem_reverse]; exact hb.2 e⟩
  have := oldestFirst_unique h1 h2
  have h := congrArg List.reverse this
  simpa using h

theorem chosen_unique {tr : Trace α} {x r r' : Nat} {ys : List Nat} (h : tr.Chosen x ys r) (h' : tr.Chosen x ys r') : r = r' := by
  induction h with
  | done x => cases h'; rfl
  | move hg _ ih =>
    cases h' with
    | move _ h2 => exact ih h2
    | stay hn _ => exact absurd hg hn
  | stay hn _ ih =>
    cases h' with
    | move hg _ => exact absurd hg hn
    | stay _ h2 => exact ih h2

theorem endOf_unique {tr : Trace α} {s : Nat} {a b : List Event} (ha : EndOf tr s a) (hb : EndOf tr s b) : a = b := by
  cases ha with
  | fine h =>
    cases hb with
    | fine _ => rfl
    | missing ho hk ht _ => exact absurd ht (h _ ((ho.2 _).mp (List.mem_of_getElem? hk)))
  | @missing es k e ho hk ht hm =>
    cases hb with
    | fine h => exact absurd ht (h _ ((ho.2 _).mp (List.mem_of_getElem? hk)))
    | @missing es' k' e' ho' hk' ht' hm' =>
      have := oldestFirst_unique ho ho'
      subst this
      have hkk : k = k' := by
        rcases Nat.lt_trichotomy k k' with hl | hl | hl
        · exact absurd ht (hm' _ _ hl hk)
        · exact hl
        · exact absurd ht' (hm _ _ hl hk')
      rw [hkk]

theorem ends_unique {tr : Trace α} {kept : Nat → Prop} {ss : List Nat} {a b : List Event} (ha : Ends tr kept ss a)
    (hb : Ends tr kept ss b) : a = b := by
  induction ha generalizing b with
  | nil => cases hb; rfl
  | keep hk _ ih =>
    cases hb with
    | keep _ h2 => exact ih h2
    | gone hn _ _ => exact absurd hk hn
  | gone hn he _ ih =>
    cases hb with
    | keep hk _ => exact absurd hk hn
    | gone _ he' h2 => rw [endOf_unique he he', ih h2]

theorem outcome_unique {tr : Trace α} {m : Nat} {a : α} {x y : Event} (hx : Outcome tr m a x) (hy : Outcome tr m a y) : x = y := by
  cases hx with
  | resolved h1 h2 =>
    have hc := (h1.2 _).mp (List.mem_cons_self ..)
    cases hy with
    | resolved h3 h4 =>
      have := youngestFirst_unique h1 h3
      injection this with h5 h6
      subst h5; subst h6
      rw [chosen_unique h2 h4]
    | inapplicable h3 _ => exact absurd hc (h3 _)
    | noMatch h3 _ => exact absurd hc.1 (h3 _)
  | inapplicable h1 h2 =>
    have ha := (h2.2 _).mp (List.mem_cons_self ..)
    cases hy with
    | resolved h3 _ => exact absurd ((h3.2 _).mp (List.mem_cons_self ..)) (h1 _)
    | inapplicable _ h4 => rw [youngestFirst_unique h2 h4]
    | noMatch h3 _ => exact absurd ha (h3 _)
  | noMatch h1 h2 =>
    cases hy with
    | resolved h3 _ => exact absurd ((h3.2 _).mp (List.mem_cons_self ..)).1 (h1 _)
    | inapplicable _ h4 => exact absurd ((h4.2 _).mp (List.mem_cons_self ..)) (h1 _)
    | noMatch _ h4 => rw [youngestFirst_unique h2 h4]

theorem prescribed_unique {tr : Trace α} {op : Op α} {a b : List Event} (ha : Prescribed tr op a) (hb : Prescribed tr op b) : a = b := by
  cases ha with
  | newSequence h1 => cases hb with | newSequence h2 => rw [nextNumber_unique h1 h2]
  | newMock h1 => cases hb with | newMock h2 => rw [nextNumber_unique h1 h2]
  | created h1 h2 h3 h4 =>
    cases hb with
    | created _ _ _ h5 => rw [nextNumber_unique h4 h5]
    | rejected h5 => exact absurd ⟨h1, h2, h3⟩ h5
  | rejected h1 =>
    cases hb with
    | created h2 h3 h4 _ => exact absurd ⟨h2, h3, h4⟩ h1
    | rejected _ => rfl
  | call h1 h2 => cases hb with | call h3 h4 => rw [youngestFirst_unique h1 h3, outcome_unique h2 h4]
  | drop h1 => cases hb with | drop h2 => exact ends_unique h1 h2
  | fulfilled hd h1 h2 =>
    cases hb with
    | fulfilled hd' h3 h4 =>
      rw [hd] at hd'; injection hd' with hd'; subst hd'
      rw [ends_unique h2 h4]
    | unfulfilled _ h3 _ => exact absurd h3 h1
  | unfulfilled hd h1 h2 =>
    cases hb with
    | fulfilled _ h3 _ => exact absurd h1 h3
    | unfulfilled hd' h3 h4 =>
      rw [hd] at hd'; injection hd' with hd'; subst hd'
      rw [ends_unique h2 h4]

/-! ### The library keeps the rules -/

theorem endOf_view {tr : Trace α} {S : Spec.State α} (hv : View tr S) (s : Nat) : EndOf tr s (S.sequenceEnd s) := by
  unfold Spec.State.sequenceEnd
  cases hf : (S.attached s).findIdx? (·.unfulfilled) with
  | none =>
    rw [List.findIdx?_eq_none_iff] at hf
    refine .fine (fun e he htf => ?_)
    obtain ⟨x, hx, rfl⟩ := (hv.mem_attached e s).mp he
    have h1 := hf x hx
    rw [(unfulfilled_attached hv hx).mpr htf] at h1
    cases h1
  | some k =>
    rw [List.findIdx?_eq_some_iff_getElem] at hf
    obtain ⟨hk, h3, h4⟩ := hf
    have := EndOf.missing (tr := tr) (s := s) (es := (S.attached s).map (·.id)) (k := k) (e := (S.attached s)[k].id)
      (attached_oldestFirst hv s) (by rw [List.getElem?_map, List.getElem?_eq_getElem hk]; rfl)
      ((unfulfilled_attached hv (List.getElem_mem hk)).mp h3) (fun j e' hj he' htf => by
        rw [List.getElem?_map, List.getElem?_eq_getElem (by omega : j < (S.attached s).length)] at he'
        simp only [Option.map_some, Option.some.injEq] at he'
        subst he'
        have := (unfulfilled_attached hv (List.getElem_mem (by omega : j < (S.attached s).length))).mpr htf
        have h5 := h4 j hj
        simp only [this] at h5
        exact absurd trivial h5)
    rw [List.length_map] at this
    exact this

theorem ends_release {tr : Trace α} {S S' : Spec.State α} (hv : View tr S) {kept : Nat → Prop}
    (he : ∀ s, S'.sequenceEnd s = S.sequenceEnd s) {ss : List Nat} (hk : ∀ s ∈ ss, S'.owned s = true ↔ kept s) :
    Ends tr kept ss (S'.release ss) := by
  induction ss with
  | nil => exact .nil
  | cons s ss ih =>
    have ih := ih (fun t ht => hk t (List.mem_cons_of_mem _ ht))
    have h1 := hk s (List.mem_cons_self ..)
    unfold Spec.State.release at ih ⊢
    rw [List.flatMap_cons]
    by_cases ho : S'.owned s = true
    · rw [if_pos ho]
      exact .keep (h1.mp ho) ih
    · rw [if_neg ho, he]
      exact .gone (fun h => ho (h1.mpr h)) (endOf_view hv s) ih

theorem sequenceEnd_withdraw (S : Spec.State α) (e s : Nat) : (S.withdraw e).sequenceEnd s = S.sequenceEnd s :=
  Finish.sequenceEnd_after S (.destroy e) s

theorem others_iff {tr : Trace α} {S : Spec.State α} (hv : View tr S) (e s : Nat) :
    (S.withdraw e).exps.any (fun x => x.alive && x.seqs.contains s) = true ↔ ∃ e', e' ≠ e ∧ tr.live e' ∧ tr.attached e' s := by
  rw [any_withdraw, List.any_eq_true]
  constructor
  · rintro ⟨x, hx, hp⟩
    rw [Bool.and_eq_true, Bool.and_eq_true, decide_eq_true_eq] at hp
    exact ⟨x.id, hp.1, (hv.live_iff _).mpr ⟨x, hx, rfl, hp.2.1⟩,
      (hv.mem_attached _ s).mpr ⟨x, List.mem_filter.mpr ⟨hx, hp.2.2⟩, rfl⟩⟩
  · rintro ⟨e', hne, hl, ha⟩
    obtain ⟨x, hx, hxe, hxa⟩ := (hv.live_iff e').mp hl
    obtain ⟨y, hy, hye⟩ := (hv.mem_attached e' s).mp ha
    unfold Spec.State.attached at hy
    rw [List.mem_filter] at hy
    have : x = y := sorted_mem_id hv.sorted hx hy.1 (by rw [hxe, hye])
    subst this
    exact ⟨x, hx, by rw [hxa, hy.2, hxe]; simp [hne]⟩

theorem living_iff {tr : Trace α} {S : Spec.State α} (hv : View tr S) (s : Nat) :
    S.exps.any (fun x => x.alive && x.seqs.contains s) = true ↔ ∃ e, tr.live e ∧ tr.attached e s := by
  rw [List.any_eq_true]
  constructor
  · rintro ⟨x, hx, hp⟩
    rw [Bool.and_eq_true] at hp
    exact ⟨x.id, (hv.live_iff _).mpr ⟨x, hx, rfl, hp.1⟩,
      (hv.mem_attached _ s).mpr ⟨x, List.mem_filter.mpr ⟨hx, hp.2⟩, rfl⟩⟩
  · rintro ⟨e', hl, ha⟩
    obtain ⟨x, hx, hxe, hxa⟩ := (hv.live_iff e').mp hl
    obtain ⟨y, hy, hye⟩ := (hv.mem_attached e' s).mp ha
    unfold Spec.State.attached at hy
    rw [List.mem_filter] at hy
    have : x = y := sorted_mem_id hv.sorted hx hy.1 (by rw [hxe, hye])
    subst this
    exact ⟨x, hx, by rw [hxa, hy.2]; rfl⟩

theorem dissatisfied_iff {tr : Trace α} {e : Nat} {d : Decl α} (hd : tr.decl e = some d) :
    dissatisfied tr e ↔ (!(d.policies.all (·.isSatisfied))) = true := by
  unfold dissatisfied
  simp only [hd, Option.some.injEq, Bool.not_eq_true', List.all_eq_false, Bool.not_eq_true]
  constructor
  · rintro ⟨_, rfl, h⟩; exact h
  · intro h; exact ⟨d, rfl, h⟩

/-- What the reference semantics does is prescribed. -/
theorem prescribed_view {tr : Trace α} {S S' : Spec.State α} (hv : View tr S) {op : Op α} {ev : List Event}
    (hs : S.step op = some (S', ev)) : Prescribed tr op ev := by
  cases op with
  | newSequence st =>
    simp only [Spec.State.step, Option.some.injEq, Prod.mk.injEq] at hs
    obtain ⟨_, rfl⟩ := hs
    refine .newSequence (fun k => ⟨?_, ?_⟩)
    · rintro ⟨st', h⟩
      refine Nat.lt_of_not_le fun hle => (hv.freshSeq k hle).1 st' h
    · intro hk
      exact ⟨_, ((hv.seqs k _ (List.getElem?_eq_getElem hk)).1 _).mpr rfl⟩
  | newMock =>
    simp only [Spec.State.step, Option.some.injEq, Prod.mk.injEq] at hs
    obtain ⟨_, rfl⟩ := hs
    exact .newMock hv.mocks
  | expect m min max ss ps =>
    simp only [Spec.State.step] at hs
    split at hs
    · split at hs
      · rename_i h
        simp only [Option.some.injEq, Prod.mk.injEq] at hs
        obtain ⟨_, rfl⟩ := hs
        exact .created h.1.1 h.1.2 h.2 (fun k => hv.decl_lt)
      · rename_i h
        simp only [Option.some.injEq, Prod.mk.injEq] at hs
        obtain ⟨_, rfl⟩ := hs
        exact .rejected (fun h' => h ⟨⟨h'.1, h'.2.1⟩, h'.2.2⟩)
    · cases hs
  | call m a =>
    simp only [Spec.State.step] at hs
    split at hs
    · simp only [Option.some.injEq, Prod.mk.injEq] at hs
      obtain ⟨_, rfl⟩ := hs
      have hsort := hv.candidates_sorted m
      obtain ⟨us, last, hev', hus, hcase⟩ := call_events S m a
      rw [hev']
      refine .call (by rw [hus]; exact youngestFirst_map (hsort.filter _) (hv.throws_iff m a)) ?_
      rcases hcase with ⟨x, older, hc, hl, _⟩ | ⟨hc, he, hl, _⟩ | ⟨hc, he, hl, _⟩
      · rw [hl]
        refine .resolved (x := x.id) (older := older.map (·.id)) ?_ ?_
        · have := youngestFirst_map ((hsort.filter (·.accepts a)).filter S.applicable) (hv.candidate_iff m a)
          rw [hc] at this
          exact this
        · have hmem : ∀ y ∈ x :: older, y ∈ S.exps := by
            intro y hy
            rw [← hc] at hy
            exact (candidates_mem.mp (List.mem_filter.mp (List.mem_filter.mp hy).1).1).1
          exact hv.select_chosen older x (hmem x (by simp)) (fun y hy => hmem y (by simp [hy]))
      · rw [hl]
        refine .noMatch (fun e hac => ?_) ?_
        · rw [hv.accepts_iff, he] at hac
          simp at hac
        · apply youngestFirst_map (hsort.filter _)
          intro e
          rw [hv.candidates_iff, hv.throws_iff]
          constructor
          · rintro ⟨⟨x, hx, rfl⟩, hn⟩
            refine ⟨x, List.mem_filter.mpr ⟨hx, ?_⟩, rfl⟩
            cases hth : x.throws a with
            | false => rfl
            | true => exact absurd ⟨x, List.mem_filter.mpr ⟨hx, hth⟩, rfl⟩ hn
          · rintro ⟨x, hx, rfl⟩
            rw [List.mem_filter] at hx
            refine ⟨⟨x, hx.1, rfl⟩, ?_⟩
            rintro ⟨y, hy, hyx⟩
            rw [List.mem_filter] at hy
            have : y = x := sorted_mem_id hv.sorted (candidates_mem.mp hy.1).1 (candidates_mem.mp hx.1).1 hyx
            subst this
            simp [hy.2] at hx
      · rw [hl]
        have hy := youngestFirst_map (hsort.filter (·.accepts a)) (hv.accepts_iff m a)
        have hn : ∀ e, ¬ tr.candidate m a e := by
          intro e hca
          rw [hv.candidate_iff, hc] at hca; simp at hca
        cases hlist : (S.candidates m).filter (·.accepts a) with
        | nil => exact absurd hlist he
        | cons x xs =>
          rw [hlist] at hy
          exact .inapplicable hn hy
    · cases hs
  | dropSequence s =>
    simp only [Spec.State.step] at hs
    split at hs
    · simp only [Option.some.injEq, Prod.mk.injEq] at hs
      obtain ⟨_, rfl⟩ := hs
      refine .drop (ends_release (S' := { S with seqs := S.seqs.modify s (fun q => { q with handle := false }) }) hv
        (fun _ => rfl) (fun t ht => ?_))
      rw [List.mem_singleton] at ht
      subst ht
      rw [← living_iff hv]
      unfold Spec.State.owned
      simp only [List.getElem?_modify, ↓reduceIte]
      cases S.seqs[t]? <;> simp
    · cases hs
  | destroy e =>
    simp only [Spec.State.step] at hs
    split at hs
    · cases hs
    · rename_i x hx
      simp only [Option.some.injEq, Prod.mk.injEq] at hs
      obtain ⟨_, rfl⟩ := hs
      have hxm := List.mem_of_find?_eq_some hx
      have hp := List.find?_some hx
      rw [Bool.and_eq_true, beq_iff_eq] at hp
      obtain ⟨d, hd, hxd⟩ := hv.get hxm
      rw [hp.1] at hd hxd
      have hends : Ends tr (fun s => tr.handle s ∨ ∃ e', e' ≠ e ∧ tr.live e' ∧ tr.attached e' s) d.seqs
          ((S.withdraw e).release x.seqs) := by
        have hq : x.seqs = d.seqs := by rw [hxd]; rfl
        rw [hq]
        refine ends_release hv (sequenceEnd_withdraw S e) (fun t _ => ?_)
        rw [← others_iff hv, ← hv.hasHandle_iff]
        unfold Spec.State.owned
        rw [Bool.or_eq_true]
        exact Iff.rfl
      have hq : x.policies = d.policies := by rw [hxd]; rfl
      have hu : (x.unfulfilled || !(x.policies.all (·.isSatisfied))) = true ↔ tr.tooFew e ∨ dissatisfied tr e := by
        rw [Bool.or_eq_true, tooFew_iff hd, dissatisfied_iff hd, ← hxd, hq]
      by_cases hb : (x.unfulfilled || !(x.policies.all (·.isSatisfied))) = true
      · rw [if_pos hb]
        exact .unfulfilled hd (hu.mp hb) hends
      · rw [if_neg hb]
        exact .fulfilled hd (fun h => hb (hu.mpr h)) hends

/-! ### Whole histories -/

theorem lawful_nil : Lawful ([] : Trace α) := fun pre op ev post h => by cases pre <;> simp at h

theorem lawful_prefix {tr post : Trace α} (h : Lawful (tr ++ post)) : Lawful tr :=
  fun pre op ev rest he => h pre op ev (rest ++ post) (by rw [he]; simp)

theorem lawful_snoc {tr : Trace α} {op : Op α} {ev : List Event} :
    Lawful (tr ++ [(op, ev)]) ↔ Lawful tr ∧ tr.valid op ∧ ¬ tr.overflows op ∧ Prescribed tr op ev := by
  constructor
  · intro h
    exact ⟨lawful_prefix h, h tr op ev [] rfl⟩
  · rintro ⟨h, h1⟩ pre op' ev' post he
    rcases List.eq_nil_or_concat post with rfl | ⟨l', st, rfl⟩
    · have h2 := List.append_inj' he rfl
      obtain ⟨rfl, h3⟩ := h2
      simp only [List.cons.injEq, Prod.mk.injEq, and_true] at h3
      obtain ⟨rfl, rfl⟩ := h3
      exact h1
    · have : pre ++ (op', ev') :: (l' ++ [st]) = (pre ++ (op', ev') :: l') ++ [st] := by simp
      rw [List.concat_eq_append, this] at he
      exact h pre op' ev' l' (List.append_inj' he rfl).1

theorem prescribed_step {tr : Trace α} {w w' : World α} (h : Reach tr w) {op : Op α} {ev : List Event}
    (hs : w.step op = .ok (w', ev)) : tr.valid op ∧ ¬ tr.overflows op ∧ Prescribed tr op ev := by
  obtain ⟨h1, h2, h3⟩ := C17_progress h op
  by_cases hv : tr.valid op
  · by_cases ho : tr.overflows op
    · obtain ⟨why, hy⟩ := h2 hv ho
      rw [hs] at hy; cases hy
    · exact ⟨hv, ho, prescribed_view h.view.2 (h.spec_step hs)⟩
  · obtain ⟨why, hy⟩ := h3 hv
    rw [hs] at hy; cases hy

theorem reach_lawful {tr : Trace α} {w : World α} (h : Reach tr w) : Lawful tr := by
  induction h with
  | init => exact lawful_nil
  | step hr hs ih => exact lawful_snoc.mpr ⟨ih, prescribed_step hr hs⟩

theorem step_prescribed {tr : Trace α} {w : World α} (h : Reach tr w) {op : Op α} {ev : List Event} (hv : tr.valid op)
    (ho : ¬ tr.overflows op) (hp : Prescribed tr op ev) : ∃ w', w.step op = .ok (w', ev) := by
  obtain ⟨w', ev', hs⟩ := (C17_progress h op).1 hv ho
  rw [prescribed_unique hp (prescribed_step h hs).2.2]
  exact ⟨w', hs⟩

theorem lawful_reach_aux (l : Trace α) : ∀ {pre : Trace α} {w : World α}, Reach pre w → Lawful (pre ++ l) → ∃ w', Reach (pre ++ l) w' := by
  induction l with
  | nil => intro pre w h _; rw [List.append_nil]; exact ⟨w, h⟩
  | cons st l ih =>
    intro pre w h hl
    have he : pre ++ st :: l = (pre ++ [st]) ++ l := by simp
    obtain ⟨h1, h2, h3⟩ := hl pre st.1 st.2 l rfl
    obtain ⟨w', hs⟩ := step_prescribed h h1 h2 h3
    rw [he] at hl ⊢
    exact ih (h.step hs) hl

theorem lawful_reach {tr : Trace α} (h : Lawful tr) : ∃ w, Reach tr w := lawful_reach_aux tr Reach.init h

theorem lawful_unique_aux (l : Trace α) : ∀ {pre l' : Trace α}, Lawful (pre ++ l) → Lawful (pre ++ l') → l.map (·.1) = l'.map (·.1) → l = l' := by
  induction l with
  | nil => intro pre l' _ _ he; cases l' with | nil => rfl | cons _ _ => simp at he
  | cons st l ih =>
    intro pre l' h h' he
    cases l' with
    | nil => simp at he
    | cons st' l' =>
      simp only [List.map_cons, List.cons.injEq] at he
      obtain ⟨op, ev⟩ := st
      obtain ⟨op', ev'⟩ := st'
      obtain ⟨h1, h2⟩ := he
      simp only at h1
      subst h1
      have := prescribed_unique (h pre op ev l rfl).2.2 (h' pre op ev' l' rfl).2.2
      subst this
      rw [ih (pre := pre ++ [(op, ev)]) (by simpa using h) (by simpa using h') h2]

theorem lawful_unique {tr tr' : Trace α} (h : Lawful tr) (h' : Lawful tr') (he : tr.map (·.1) = tr'.map (·.1)) : tr = tr' :=
  lawful_unique_aux tr (pre := []) h h' he

theorem runs_lawful {σ : Type} {start : σ} {step : σ → Op α → Option (σ × List Event)}
    (hdoes : ∀ tr q op, Runs step start tr q → Lawful tr → tr.valid op → ¬ tr.overflows op →
      ∃ q' ev, step q op = some (q', ev) ∧ Prescribed tr op ev)
    (hnot : ∀ tr q op, Runs step start tr q → Lawful tr → ¬ (tr.valid op ∧ ¬ tr.overflows op) → step q op = none) (tr : Trace α) :
    (∃ q, Runs step start tr q) ↔ Lawful tr := by
  constructor
  · rintro ⟨q, h⟩
    induction h with
    | init => exact lawful_nil
    | @step tr q q' op ev hr hs ih =>
      by_cases hv : tr.valid op ∧ ¬ tr.overflows op
      · obtain ⟨q2, ev2, h1, h2⟩ := hdoes tr q op hr ih hv.1 hv.2
        rw [hs] at h1
        simp only [Option.some.injEq, Prod.mk.injEq] at h1
        rw [h1.2]
        exact lawful_snoc.mpr ⟨ih, hv.1, hv.2, h2⟩
      · rw [hnot tr q op hr ih hv] at hs
        cases hs
  · have key : ∀ (l : Trace α) {pre : Trace α} {q : σ}, Runs step start pre q → Lawful (pre ++ l) → ∃ q', Runs step start (pre ++ l) q' := by
      intro l
      induction l with
      | nil => intro pre q h _; rw [List.append_nil]; exact ⟨q, h⟩
      | cons st l ih =>
        intro pre q h hl
        have he : pre ++ st :: l = (pre ++ [st]) ++ l := by simp
        obtain ⟨h1, h2, h3⟩ := hl pre st.1 st.2 l rfl
        obtain ⟨q', ev, hs, hp⟩ := hdoes pre q st.1 h (lawful_prefix hl) h1 h2
        rw [prescribed_unique hp h3] at hs
        rw [he] at hl ⊢
        exact ih (h.step hs) hl
    exact fun h => key tr .init h

end Mimic.Whole
