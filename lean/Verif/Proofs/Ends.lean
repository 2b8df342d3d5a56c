import Verif.Spec.Ends
import Verif.Proofs.Merge
import Verif.Proofs.Language

/-! # Ends of expectations and sequences: lemmas -/

set_option autoImplicit false

namespace Mimic.Finish

variable {α : Type}

/-- What is known about reachable states. -/
structure Good (S : Spec.State α) : Prop where
  ids : ∀ (i : Nat) (x : Spec.Exp α), S.exps[i]? = some x → x.id = i
  nodup : ∀ x ∈ S.exps, x.seqs.Nodup

theorem Good.of_reach {tr : Trace α} {w : World α} (h : Reach tr w) : Good (abs w) where
  ids := by
    intro i x hx
    rw [abs_getElem?] at hx
    cases hw : w.exps[i]? with
    | none => rw [hw] at hx; simp at hx
    | some y =>
      rw [hw] at hx
      simp only [Option.map_some, Option.some.injEq] at hx
      rw [← hx]
      rfl
  nodup := h.view.1.nodup

theorem Good.same {S : Spec.State α} (h : Good S) {x y : Spec.Exp α} (hx : x ∈ S.exps) (hy : y ∈ S.exps) (he : x.id = y.id) : x = y := by
  obtain ⟨i, hi⟩ := List.mem_iff_getElem?.mp hx
  obtain ⟨j, hj⟩ := List.mem_iff_getElem?.mp hy
  have h1 := h.ids i x hi
  have h2 := h.ids j y hj
  have : i = j := by omega
  subst this
  rw [hi] at hj
  exact Option.some.inj hj

/-- The client's sequence object goes away. -/
def drop (S : Spec.State α) (s : Nat) : Spec.State α :=
  { S with seqs := S.seqs.modify s (fun q => { q with handle := false }) }

/-- What the operation reports about the expectation itself. -/
def own (S : Spec.State α) : Op α → List Event
  | .destroy e =>
    match S.exps.find? (fun x => x.id == e && x.alive) with
    | none => []
    | some x => .destroyed e :: (if x.unfulfilled || !(x.policies.all (·.isSatisfied)) then [Event.unfulfilled e] else [])
  | _ => []

/-- The sequences that lose an owner. -/
def lost (S : Spec.State α) : Op α → List Nat
  | .destroy e =>
    match S.exps.find? (fun x => x.id == e && x.alive) with
    | none => []
    | some x => x.seqs
  | .dropSequence s => [s]
  | _ => []

/-- The object exists. -/
def able (S : Spec.State α) : Op α → Bool
  | .destroy e => (S.exps.find? (fun x => x.id == e && x.alive)).isSome
  | .dropSequence s => S.hasHandle s
  | _ => false

/-- The state afterwards. -/
def after (S : Spec.State α) : Op α → Spec.State α
  | .destroy e => S.withdraw e
  | .dropSequence s => drop S s
  | _ => S

theorem step_of_able {S : Spec.State α} {op : Op α} (h : able S op = true) :
    S.step op = some (after S op, own S op ++ (after S op).release (lost S op)) := by
  cases op with
  | destroy e =>
    simp only [able] at h
    obtain ⟨x, hx⟩ := Option.isSome_iff_exists.mp h
    simp only [Spec.State.step, after, own, lost, hx]
  | dropSequence s =>
    simp only [able] at h
    simp only [Spec.State.step, if_pos h]
    rfl
  | _ => simp [able] at h

theorem able_of_step {S T : Spec.State α} {op : Op α} {ev : List Event} (ho : ends op = true) (h : S.step op = some (T, ev)) :
    able S op = true := by
  cases op with
  | destroy e =>
    simp only [able]
    cases hx : S.exps.find? (fun x => x.id == e && x.alive) with
    | none => simp only [Spec.State.step, hx] at h; cases h
    | some x => rfl
  | dropSequence s =>
    simp only [able]
    cases hh : S.hasHandle s with
    | true => rfl
    | false =>
      have hn : ¬ S.hasHandle s = true := by simp [hh]
      simp only [Spec.State.step, if_neg hn] at h
      cases h
  | _ => simp [ends] at ho

theorem find_withdraw (S : Spec.State α) {e e' : Nat} (h : e ≠ e') :
    (S.withdraw e').exps.find? (fun x => x.id == e && x.alive) = S.exps.find? (fun x => x.id == e && x.alive) := by
  simp only [Spec.State.withdraw]
  induction S.exps with
  | nil => rfl
  | cons y ys ih =>
    simp only [List.map_cons, List.find?_cons, ih]
    by_cases hy : y.id = e'
    · have h1 : (e' == e) = false := by simp; omega
      simp [hy, h1]
    · simp [hy]

theorem find_gone (S : Spec.State α) (e : Nat) : (S.withdraw e).exps.find? (fun x => x.id == e && x.alive) = none := by
  simp only [Spec.State.withdraw]
  induction S.exps with
  | nil => rfl
  | cons y ys ih =>
    simp only [List.map_cons, List.find?_cons, ih]
    by_cases hy : y.id = e
    · simp [hy]
    · have h1 : (y.id == e) = false := by simpa using hy
      simp [hy, h1]

theorem hasHandle_drop (S : Spec.State α) (s t : Nat) : (drop S t).hasHandle s = (S.hasHandle s && s != t) := by
  simp only [Spec.State.hasHandle, drop, List.getElem?_modify]
  cases S.seqs[s]? with
  | none => simp
  | some q => by_cases h : t = s <;> simp [h] <;> grind

/-- The second operation does not notice the first one. -/
theorem able_after {S : Spec.State α} {a b : Op α} (hb : able (after S a) b = true) : able S b = true := by
  cases a <;> cases b <;> simp only [able, after] at hb ⊢ <;> try exact hb
  · rename_i s t
    rw [hasHandle_drop] at hb
    grind
  · rename_i e e'
    by_cases h : e' = e
    · subst h
      rw [find_gone] at hb
      simp at hb
    · rw [find_withdraw S h] at hb
      exact hb

/-- Two different ends. -/
theorem able_swap {S : Spec.State α} {a b : Op α} (ha : able S a = true) (hb : able (after S a) b = true) : able (after S b) a = true := by
  cases a <;> cases b <;> simp only [able, after, Bool.false_eq_true] at ha hb ⊢ <;> try exact ha
  · rename_i s t
    rw [hasHandle_drop] at hb ⊢
    grind
  · rename_i e e'
    by_cases h : e' = e
    · subst h
      rw [find_gone] at hb
      simp at hb
    · rw [find_withdraw S (fun h' => h h'.symm)]
      exact ha

theorem own_after {S : Spec.State α} {a b : Op α} (hb : able (after S a) b = true) : own (after S a) b = own S b := by
  cases a <;> cases b <;> simp only [able, after, Bool.false_eq_true] at hb <;> try rfl
  · rename_i e e'
    by_cases h : e' = e
    · subst h
      rw [find_gone] at hb
      simp at hb
    · simp only [own, after, find_withdraw S h]

theorem lost_after {S : Spec.State α} {a b : Op α} (hb : able (after S a) b = true) : lost (after S a) b = lost S b := by
  cases a <;> cases b <;> simp only [able, after, Bool.false_eq_true] at hb <;> try rfl
  · rename_i e e'
    by_cases h : e' = e
    · subst h
      rw [find_gone] at hb
      simp at hb
    · simp only [lost, after, find_withdraw S h]

theorem after_swap (S : Spec.State α) (a b : Op α) : after (after S a) b = after (after S b) a := by
  cases a <;> cases b <;> try rfl
  · rename_i s t
    simp only [after, drop, Spec.State.mk.injEq, and_true]
    apply List.ext_getElem?
    intro i
    simp only [List.getElem?_modify]
    cases S.seqs[i]? with
    | none => simp
    | some q => by_cases h1 : s = i <;> by_cases h2 : t = i <;> simp [h1, h2]
  · rename_i e e'
    simp only [after, Spec.State.withdraw, List.map_map, Spec.State.mk.injEq, true_and, and_true]
    apply List.map_congr_left
    intro x hx
    simp only [Function.comp]
    by_cases h1 : x.id = e <;> by_cases h2 : x.id = e' <;> simp_all

theorem Good.after {S : Spec.State α} (h : Good S) (a : Op α) : Good (after S a) := by
  cases a <;> try exact h
  · exact ⟨h.ids, h.nodup⟩
  · rename_i e
    constructor
    · intro i x hx
      simp only [Finish.after, Spec.State.withdraw, List.getElem?_map] at hx
      cases hy : S.exps[i]? with
      | none => rw [hy] at hx; simp at hx
      | some y =>
        rw [hy] at hx
        simp only [Option.map_some, Option.some.injEq] at hx
        have := h.ids i y hy
        rw [← hx]
        split <;> exact this
    · intro x hx
      simp only [Finish.after, Spec.State.withdraw, List.mem_map] at hx
      obtain ⟨y, hy, rfl⟩ := hx
      have := h.nodup y hy
      split <;> exact this

theorem lost_nodup {S : Spec.State α} (h : Good S) (a : Op α) : (lost S a).Nodup := by
  cases a <;> simp only [lost] <;> try simp
  · rename_i e
    cases hx : S.exps.find? (fun x => x.id == e && x.alive) with
    | none => simp
    | some x => exact h.nodup x (List.mem_of_find?_eq_some hx)

theorem owned_after {S : Spec.State α} (h : Good S) {a : Op α} (ha : able S a = true) (t : Nat) :
    S.owned t = ((after S a).owned t || (lost S a).contains t) := by
  cases a <;> simp only [able, Bool.false_eq_true] at ha
  · rename_i s
    have h1 := hasHandle_drop S t s
    simp only [Spec.State.hasHandle] at h1
    have h2 : (S.exps = (drop S s).exps) := rfl
    simp only [Spec.State.owned, after, lost, ← h2]
    by_cases hts : t = s
    · subst hts
      simp only [Spec.State.hasHandle] at ha
      rw [ha]
      simp
    · have h3 : (t != s) = true := by simpa using hts
      rw [h1, h3]
      simp [hts]
  · rename_i e
    obtain ⟨x, hx⟩ := Option.isSome_iff_exists.mp ha
    have hm := List.mem_of_find?_eq_some hx
    have hp := List.find?_some hx
    simp only [Bool.and_eq_true, beq_iff_eq] at hp
    have hl : lost S (.destroy e) = x.seqs := by simp only [lost, hx]
    rw [hl]
    have hq : (after S (.destroy e)).seqs = S.seqs := rfl
    simp only [Spec.State.owned, hq, Bool.or_assoc]
    congr 1
    rw [Bool.eq_iff_iff]
    simp only [List.any_eq_true, Bool.or_eq_true, Bool.and_eq_true, after, Spec.State.withdraw, List.mem_map]
    constructor
    · rintro ⟨y, hy, hal, hc⟩
      by_cases he : y.id = e
      · right
        rw [← h.same hy hm (by omega)]
        exact hc
      · left
        exact ⟨y, ⟨y, hy, by simp [he]⟩, hal, hc⟩
    · rintro (⟨y, ⟨z, hz, rfl⟩, hal, hc⟩ | hc)
      · refine ⟨z, hz, ?_⟩
        by_cases he : z.id = e
        · simp [he] at hal
        · simpa [he] using And.intro hal hc
      · exact ⟨x, hm, hp.2, hc⟩

theorem sequenceEnd_after (S : Spec.State α) (a : Op α) (t : Nat) : (after S a).sequenceEnd t = S.sequenceEnd t := by
  cases a <;> try rfl
  rename_i e
  have h1 : ((after S (.destroy e)).attached t) = (S.attached t).map (fun x => if x.id = e then { x with alive := false } else x) := by
    simp only [Spec.State.attached, after, Spec.State.withdraw, List.filter_map]
    congr 1
    apply List.filter_congr
    intro x hx
    simp only [Function.comp]
    split <;> rfl
  have h2 : ((after S (.destroy e)).attached t).findIdx? (·.unfulfilled) = (S.attached t).findIdx? (·.unfulfilled) := by
    rw [h1, List.findIdx?_map]
    congr 1
    funext x
    simp only [Function.comp]
    split <;> rfl
  simp only [Spec.State.sequenceEnd, h2]
  rw [h1, List.length_map]

theorem flatMap_filter {β γ : Type} (l : List β) (p : β → Bool) (g : β → List γ) :
    l.flatMap (fun s => if p s then [] else g s) = (l.filter (fun s => !p s)).flatMap g := by
  induction l with
  | nil => rfl
  | cons x xs ih => by_cases h : p x = true <;> simp [h, ih]

theorem release_eq (S : Spec.State α) (ss : List Nat) : S.release ss = (ss.filter (fun s => !S.owned s)).flatMap S.sequenceEnd :=
  flatMap_filter _ _ _

/-- What ends with one operation or the other. -/
theorem ended_perm {l k : List Nat} (hl : l.Nodup) (hk : k.Nodup) (A B C : Nat → Bool)
    (hA : ∀ t, A t = (C t || k.contains t)) (hB : ∀ t, B t = (C t || l.contains t)) :
    (l.filter (fun t => !A t) ++ k.filter (fun t => !C t)).Perm (k.filter (fun t => !B t) ++ l.filter (fun t => !C t)) := by
  rw [List.perm_ext_iff_of_nodup]
  · intro t
    simp only [List.mem_append, List.mem_filter, hA, hB]
    grind
  · rw [List.nodup_append]
    refine ⟨hl.filter _, hk.filter _, ?_⟩
    intro x hx y hy
    simp only [List.mem_filter, hA] at hx hy
    grind
  · rw [List.nodup_append]
    refine ⟨hk.filter _, hl.filter _, ?_⟩
    intro x hx y hy
    simp only [List.mem_filter, hB] at hx hy
    grind

/-- Two ends in either order. -/
theorem swap_ends {S : Spec.State α} (h : Good S) {a b : Op α} (ha : able S a = true) (hb : able (after S a) b = true) :
    ((own S a ++ (after S a).release (lost S a)) ++ (own (after S a) b ++ (after (after S a) b).release (lost (after S a) b))).Perm
      ((own S b ++ (after S b).release (lost S b)) ++ (own (after S b) a ++ (after (after S b) a).release (lost (after S b) a))) := by
  have hb' := able_after hb
  have ha' := able_swap ha hb
  rw [own_after hb, lost_after hb, own_after ha', lost_after ha', after_swap S b a]
  simp only [release_eq]
  have e1 : (after S a).sequenceEnd = S.sequenceEnd := by funext t; exact sequenceEnd_after S a t
  have e2 : (after S b).sequenceEnd = S.sequenceEnd := by funext t; exact sequenceEnd_after S b t
  have e3 : (after (after S a) b).sequenceEnd = S.sequenceEnd := by funext t; rw [sequenceEnd_after, sequenceEnd_after]
  rw [e1, e2, e3]
  have P := (ended_perm (lost_nodup h a) (lost_nodup h b) (after S a).owned (after S b).owned (after (after S a) b).owned
    (fun t => by rw [owned_after (h.after a) hb, lost_after hb])
    (fun t => by rw [owned_after (h.after b) ha', lost_after ha', after_swap S b a])).flatMap_right S.sequenceEnd
  simp only [List.flatMap_append] at P
  generalize List.flatMap S.sequenceEnd (List.filter (fun t => !(after S a).owned t) (lost S a)) = A at P ⊢
  generalize List.flatMap S.sequenceEnd (List.filter (fun t => !(after (after S a) b).owned t) (lost S b)) = B at P ⊢
  generalize List.flatMap S.sequenceEnd (List.filter (fun t => !(after S b).owned t) (lost S b)) = C at P ⊢
  generalize List.flatMap S.sequenceEnd (List.filter (fun t => !(after (after S a) b).owned t) (lost S a)) = D at P ⊢
  have Q : ∀ (u v A B : List Event), ((u ++ A) ++ (v ++ B)).Perm ((u ++ v) ++ (A ++ B)) := by
    intro u v A B
    simp only [List.append_assoc]
    refine List.Perm.append_left u ?_
    rw [← List.append_assoc, ← List.append_assoc]
    exact List.Perm.append_right B List.perm_append_comm
  exact (Q _ _ _ _).trans (((List.perm_append_comm).append P).trans (Q _ _ _ _).symm)

/-- Any order of the ends. -/
theorem run_perm {ds ds' : List (Op α)} (hp : ds.Perm ds') : ∀ {S T : Spec.State α} {ev : List Event}, (∀ op ∈ ds, ends op = true) →
    Good S → S.run ds = some (T, ev) → ∃ ev', S.run ds' = some (T, ev') ∧ ev.Perm ev' := by
  induction hp with
  | nil =>
    intro S T ev _ hg h
    simp only [Spec.State.run, Option.some.injEq, Prod.mk.injEq] at h
    obtain ⟨rfl, rfl⟩ := h
    exact ⟨[], rfl, .refl _⟩
  | cons op _ ih =>
    intro S T ev he hg h
    simp only [Spec.State.run] at h
    cases hs : S.step op with
    | none => rw [hs] at h; cases h
    | some r =>
      obtain ⟨S', e1⟩ := r
      rw [hs] at h
      simp only at h
      rename_i l1 l2 hperm
      cases hr : S'.run l1 with
      | none => rw [hr] at h; cases h
      | some r =>
        obtain ⟨S'', e2⟩ := r
        rw [hr] at h
        simp only [Option.some.injEq, Prod.mk.injEq] at h
        obtain ⟨rfl, rfl⟩ := h
        have hab := able_of_step (he op (by simp)) hs
        have hg' : Good S' := by
          rw [step_of_able hab] at hs
          simp only [Option.some.injEq, Prod.mk.injEq] at hs
          rw [← hs.1]
          exact hg.after op
        obtain ⟨ev', h1, h2⟩ := ih (fun o ho => he o (by simp [ho])) hg' hr
        refine ⟨e1 ++ ev', ?_, h2.append_left e1⟩
        simp only [Spec.State.run, hs, h1]
  | swap a b l =>
    intro S T ev he hg h
    have hea := he a (by simp)
    have heb := he b (by simp)
    simp only [Spec.State.run] at h
    cases hs : S.step b with
    | none => rw [hs] at h; cases h
    | some r =>
      obtain ⟨S', e1⟩ := r
      rw [hs] at h
      simp only at h
      have hab := able_of_step heb hs
      rw [step_of_able hab] at hs
      simp only [Option.some.injEq, Prod.mk.injEq] at hs
      obtain ⟨rfl, rfl⟩ := hs
      cases hs : (after S b).step a with
      | none => rw [hs] at h; cases h
      | some r =>
        obtain ⟨S'', e2⟩ := r
        rw [hs] at h
        simp only at h
        have hab2 := able_of_step hea hs
        rw [step_of_able hab2] at hs
        simp only [Option.some.injEq, Prod.mk.injEq] at hs
        obtain ⟨rfl, rfl⟩ := hs
        cases hr : (after (after S b) a).run l with
        | none => rw [hr] at h; cases h
        | some r =>
          obtain ⟨U, e3⟩ := r
          rw [hr] at h
          simp only [Option.some.injEq, Prod.mk.injEq] at h
          obtain ⟨rfl, rfl⟩ := h
          have k1 := able_after hab2
          have k2 := able_swap hab hab2
          have hP := swap_ends hg hab hab2
          refine ⟨(own S a ++ (after S a).release (lost S a)) ++ ((own (after S a) b ++ (after (after S a) b).release (lost (after S a) b)) ++ e3),
            ?_, ?_⟩
          · simp only [Spec.State.run, step_of_able k1, step_of_able k2, after_swap S a b, hr]
          · have := hP.append_right e3
            simpa only [List.append_assoc] using this
  | trans _ _ ih1 ih2 =>
    intro S T ev he hg h
    rename_i l1 l2 l3 p1 p2
    obtain ⟨e1, h1, q1⟩ := ih1 he hg h
    obtain ⟨e2, h2, q2⟩ := ih2 (fun o ho => he o (p1.mem_iff.mpr ho)) hg h1
    exact ⟨e2, h2, q1.trans q2⟩

theorem fits_ends {S : Spec.State α} {ds : List (Op α)} (he : ∀ op ∈ ds, ends op = true) : S.fits ds := by
  induction ds generalizing S with
  | nil => trivial
  | cons d ds ih =>
    refine ⟨?_, fun S' ev _ => ih (fun o ho => he o (by simp [ho]))⟩
    have := he d (by simp)
    cases d <;> simp_all [ends, Spec.State.full]

end Mimic.Finish
