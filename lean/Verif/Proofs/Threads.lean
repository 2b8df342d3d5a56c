import Verif.Spec.Threads
import Verif.Proofs.PartsJoint

/-!
# Lemmas on threads with objects of their own
-/

set_option autoImplicit false

namespace Mimic.Threads

open Parts

variable {α ι : Type}

/-- Where a thread that is alone is, and where it is among others. -/
inductive PhaseRel (N : Names) : Phase → Phase → Prop where
  | idle : PhaseRel N .idle .idle
  | built {c C e E : Nat} : At N.mocks c C → At N.exps e E → PhaseRel N (.built c e) (.built C E)
  | matched {e E : Nat} : At N.exps e E → PhaseRel N (.matched e) (.matched E)
  | reported {e E : Nat} : At N.exps e E → PhaseRel N (.reported e) (.reported E)
  | removed {e E : Nat} : At N.exps e E → PhaseRel N (.removed e) (.removed E)

/-- Memory of a thread's own objects. -/
def Own (N : Names) : Loc → Prop
  | .storage c => c ∈ N.mocks
  | .exp e => e ∈ N.exps
  | .seq s => s ∈ N.seqs

/-- What one step does, seen from the thread alone and from all. -/
structure Next' (N : Names) (w : World α) (r R : World α × Phase × Log) : Prop where
  next : Next N w (r.1, r.2.2.ev) (R.1, R.2.2.ev)
  phase : PhaseRel (R.2.2.ev.foldl Names.learn N) r.2.1 R.2.1
  answer : r.2.2.answer = R.2.2.answer
  reads : ∀ l ∈ R.2.2.reads, Own (R.2.2.ev.foldl Names.learn N) l
  writes : ∀ l ∈ R.2.2.writes, Own (R.2.2.ev.foldl Names.learn N) l

theorem seqLocs_own {N : Names} {x X : Exp α} (hx : ExpRel N x X) : ∀ l ∈ X.seqLocs, Own N l := by
  intro l hl
  obtain ⟨en, h1, rfl⟩ := List.mem_map.mp hl
  obtain ⟨en', _, h2⟩ := hx.control.entries.mem_right h1
  exact h2.1.mem

theorem seqsOf_own {N : Names} {v w : World α} (h : Within N v w) {es Es : List Nat} (he : All2 (At N.exps) es Es) :
    ∀ l ∈ seqsOf w Es, Own N l := by
  intro l hl
  obtain ⟨E, h1, h2⟩ := List.mem_flatMap.mp hl
  obtain ⟨e, _, h3⟩ := he.mem_right h1
  obtain ⟨x, X, _, h5, h6⟩ := h.exps.get e E h3
  rw [h5] at h2
  exact seqLocs_own h6 l h2

theorem ended_own {N : Names} {ev Ev : List Event} (h : All2 (EventRel N) ev Ev) : ∀ l ∈ ended Ev, Own N l := by
  intro l hl
  obtain ⟨E, h1, h2⟩ := List.mem_filterMap.mp hl
  obtain ⟨e, _, h3⟩ := h.mem_right h1
  cases h3 with
  | sequenceDestroyed h4 =>
    simp only [Option.some.injEq] at h2
    subst h2
    exact h4.mem
  | _ => simp at h2

theorem scan_next {N : Names} {v w : World α} (h : Within N v w) {m M : Nat} (hm : At N.mocks m M) (a : α) :
    MLike (Next' N w) (step v .idle (.scan m a)) (step w .idle (.scan M a)) := by
  simp only [step]
  obtain ⟨es, Es, h1, h2, h3⟩ := h.colls.get m M hm
  rw [h1, h2]
  simp only
  refine MLike.bind (scan_like' h a h3.reverse) ?_
  intro r R hr
  have ht : All2 (EventRel N) (r.thrown.map Event.unhandled) (R.thrown.map Event.unhandled) := hr.thrown.map (fun _ _ h => .unhandled h)
  have ho : ∀ E ∈ R.thrown.map Event.unhandled, Event.old E = true := by
    intro E hE
    obtain ⟨e, _, rfl⟩ := List.mem_map.mp hE
    rfl
  have hl : ∀ l ∈ (Loc.storage M :: Es.map .exp ++ seqsOf w Es), Own N l := by
    intro l hl
    simp only [List.cons_append, List.mem_cons, List.mem_append, List.mem_map] at hl
    rcases hl with rfl | ⟨E, hE, rfl⟩ | hl
    · exact hm.mem
    · obtain ⟨e, _, he⟩ := h3.mem_right hE
      exact he.mem
    · exact seqsOf_own h h3 l hl
  simp only [hr.full.isEmpty, hr.inapplicable.isEmpty]
  split
  · refine MLike.bind (pickBest_like' h.seqs.nodup hr.full) ?_
    intro q Q hq
    have hN := learn_old N ho
    refine .ok ⟨Old.next ⟨⟨h, .refl _ _⟩, ht, ho⟩, ?_, rfl, ?_, by simp⟩
    · rw [hN]; exact .matched hq.exp
    · rw [hN]; exact hl
  · split
    · have ho' : ∀ E ∈ R.thrown.map Event.unhandled ++ [.inapplicable (R.inapplicable.map (·.exp))], Event.old E = true := by
        intro E hE
        rcases List.mem_append.mp hE with hE | hE
        · exact ho E hE
        · simp at hE; subst hE; rfl
      have hN := learn_old N ho'
      refine .ok ⟨Old.next ⟨⟨h, .refl _ _⟩, ht.append (.cons (.inapplicable (hr.inapplicable.map fun _ _ h => h.exp)) .nil), ho'⟩, ?_, rfl, ?_,
        by simp⟩
      · exact .idle
      · simp only; rw [hN]; exact hl
    · have ho' : ∀ E ∈ R.thrown.map Event.unhandled ++ [.noMatch (R.none.map (·.exp))], Event.old E = true := by
        intro E hE
        rcases List.mem_append.mp hE with hE | hE
        · exact ho E hE
        · simp at hE; subst hE; rfl
      have hN := learn_old N ho'
      refine .ok ⟨Old.next ⟨⟨h, .refl _ _⟩, ht.append (.cons (.noMatch (hr.none.map fun _ _ h => h.exp)) .nil), ho'⟩, ?_, rfl, ?_, by simp⟩
      · exact .idle
      · simp only; rw [hN]; exact hl

theorem attach_next {N : Names} {v w : World α} (h : Within N v w) {m M : Nat} (hm : At N.mocks m M) (min max : Int) {ts Ts : List Nat}
    (ht : All2 (At N.seqs) ts Ts) (ps : List (Policy α)) :
    MLike (Next' N w) (step v .idle (.attach m min max ts ps)) (step w .idle (.attach M min max Ts ps)) := by
  obtain ⟨es, Es, h1, h2, hes⟩ := h.colls.get m M hm
  simp only [step]
  rw [h1, h2]
  simp only
  have hh : ts.all v.hasHandle = Ts.all w.hasHandle := by
    induction ht with
    | nil => rfl
    | cons hr _ ih => rw [List.all_cons, List.all_cons, ih, hasHandle_like h hr]
  have hrej : MLike (Next' N w) (.ok (v, .idle, { ev := [.rejected] })) (.ok (w, .idle, { ev := [.rejected] })) :=
    .ok ⟨Old.next ⟨⟨h, .refl _ _⟩, .cons .rejected .nil, by simp [Event.old]⟩, .idle, rfl, by simp, by simp⟩
  rw [hh]
  split
  · cases TimesConfig.make min max with
    | none => exact hrej
    | some t =>
      rw [seqConfig_eq, seqConfig_eq]
      have hnd := nodup_like h.seqs.nodup ht
      by_cases hd : ts.Nodup
      · rw [if_pos hd, if_pos (hnd.mp hd)]
        simp only
        refine MLike.bind (make_like t ht h.seqs) ?_
        rintro ⟨s, c⟩ ⟨S, C⟩ ⟨h3, h4⟩
        refine .ok ?_
        have hle : Names.Le N { N with exps := N.exps ++ [w.exps.length] } := ⟨fun _ _ h => h, fun _ _ h => h.more _, fun _ _ h => h⟩
        have hat : At (N.exps ++ [w.exps.length]) v.exps.length w.exps.length := by simp [At, ← h.exps.length]
        refine ⟨⟨⟨?_, ?_, ?_⟩, ⟨?_, ?_, ?_⟩, ?_⟩, ?_, rfl, ?_, ?_⟩
        · exact h3.rel
        · exact TableRel.add (h.exps.mono (fun _ _ hx => hx.mono hle)) ⟨hm, h4, rfl, rfl⟩
        · exact h.colls.mono (fun _ _ hx => hx.mono hle.exps)
        · exact h3.frame.grow
        · exact .add (.refl _ _) _
        · exact (Frame.refl _ _).grow
        · exact .cons (.created hat) .nil
        · exact .built hm hat
        · simp
        · intro l hl
          simp only [List.mem_cons, List.mem_map] at hl
          rcases hl with rfl | ⟨T, hT, rfl⟩
          · exact hat.mem
          · obtain ⟨_, _, h5⟩ := ht.mem_right hT
            exact h5.mem
      · rw [if_neg hd, if_neg (fun hd' => hd (hnd.mpr hd'))]
        exact hrej
  · exact .error _

theorem push_next {N : Names} {v w : World α} (h : Within N v w) {m M e E : Nat} (hm : At N.mocks m M) (he : At N.exps e E) :
    MLike (Next' N w) (step v (.built m e) .push) (step w (.built M E) .push) := by
  obtain ⟨es, Es, h1, h2, hes⟩ := h.colls.get m M hm
  simp only [step]
  rw [h1, h2]
  simp only
  rw [contains_like h.exps.nodup hes he]
  refine MLike.bind (MLike.refl (R := fun s t => s = t) (fun _ => rfl) _) ?_
  rintro _ _ _
  refine .ok ⟨Old.next ⟨⟨⟨h.seqs, h.exps, h.colls.set hm (hes.append (.cons he .nil))⟩, ⟨.refl _ _, .refl _ _, Frame.set _ hm.mem _⟩⟩, .nil,
    by simp⟩, .idle, rfl, by simp, ?_⟩
  intro l hl
  simp only [List.mem_singleton] at hl
  subst hl
  exact hm.mem

theorem consume_next {N : Names} {v w : World α} (h : Within N v w) {e E : Nat} (he : At N.exps e E) :
    MLike (Next' N w) (step v (.reported e) .consume) (step w (.reported E) .consume) := by
  simp only [step]
  refine MLike.bind (h.deref he) ?_
  intro x X hx
  refine MLike.bind (worldConsume_like h he) ?_
  intro v' w' hvw
  have hl : ∀ l ∈ (Loc.exp E :: X.seqLocs), Own N l := by
    intro l hl
    rcases List.mem_cons.mp hl with rfl | hl
    · exact he.mem
    · exact seqLocs_own hx l hl
  exact .ok ⟨Old.next ⟨hvw, .nil, by simp⟩, .idle, rfl, hl, hl⟩

theorem satisfied_like {N : Names} {x X : Exp α} (hx : ExpRel N x X) : x.isSatisfied = X.isSatisfied := by
  unfold Exp.isSatisfied Control.isSatisfied
  rw [hx.policies, hx.control.min, hx.control.max, hx.control.count]

theorem remove_next {N : Names} {v w : World α} (h : Within N v w) {e E : Nat} (he : At N.exps e E) :
    MLike (Next' N w) (step v .idle (.remove e)) (step w .idle (.remove E)) := by
  obtain ⟨x, X, h1, h2, hx⟩ := h.exps.get e E he
  obtain ⟨es, Es, h3, h4, hes⟩ := h.colls.get _ _ hx.coll
  simp only [step]
  rw [h1, h2]
  simp only [hx.alive]
  split
  · exact .error _
  · rw [h3, h4]
    simp only
    rw [contains_like h.exps.nodup hes he]
    refine MLike.bind (MLike.refl (R := fun s t => s = t) (fun _ => rfl) _) ?_
    rintro _ _ _
    rw [satisfied_like hx]
    have hu : All2 (EventRel N) (if X.isSatisfied then [] else [Event.unfulfilled e]) (if X.isSatisfied then [] else [Event.unfulfilled E]) := by
      split
      · exact .nil
      · exact .cons (.unfulfilled he) .nil
    have ho : ∀ A ∈ Event.destroyed E :: (if X.isSatisfied then [] else [Event.unfulfilled E]), Event.old A = true := by
      intro A hA
      rcases List.mem_cons.mp hA with rfl | hA
      · rfl
      · split at hA
        · simp at hA
        · simp at hA; subst hA; rfl
    have hN := learn_old N ho
    refine .ok ⟨Old.next ⟨⟨⟨h.seqs, h.exps, h.colls.set hx.coll (erase_like h.exps.nodup hes he)⟩,
      ⟨.refl _ _, .refl _ _, Frame.set _ hx.coll.mem _⟩⟩, .cons (.destroyed he) hu, ho⟩, ?_, rfl, ?_, ?_⟩
    · rw [hN]; exact .removed he
    · rw [hN]
      intro l hl
      rcases List.mem_cons.mp hl with rfl | hl
      · exact he.mem
      · split at hl
        · simp at hl
        · exact seqLocs_own hx l hl
    · rw [hN]
      intro l hl
      simp only [List.mem_singleton] at hl
      subst hl
      exact hx.coll.mem

theorem release_next {N : Names} {v w : World α} (h : Within N v w) (ha : Alone N w) {e E : Nat} (he : At N.exps e E) :
    MLike (Next' N w) (step v (.removed e) .release) (step w (.removed E) .release) := by
  obtain ⟨x, X, h1, h2, hx⟩ := h.exps.get e E he
  simp only [step]
  rw [h1, h2]
  simp only
  have hw : Within N { v with exps := v.exps.set e { x with alive := false } } { w with exps := w.exps.set E { X with alive := false } } :=
    ⟨h.seqs, h.exps.set he ⟨hx.coll, hx.control, hx.policies, rfl⟩, h.colls⟩
  have hi : Inside N w { w with exps := w.exps.set E { X with alive := false } } := ⟨.refl _ _, Frame.set _ he.mem _, .refl _ _⟩
  refine MLike.bind (releaseAll_like' hw (hi.alone ha) (hx.control.entries.map (fun _ _ h => h.1))) ?_
  rintro ⟨v', ev⟩ ⟨w', Ev⟩ h5
  have hN := learn_old N h5.old
  refine .ok ⟨Old.next ⟨⟨h5.stays.within, hi.trans h5.stays.inside⟩, h5.events, h5.old⟩, .idle, rfl, by simp, ?_⟩
  simp only at hN ⊢
  rw [hN]
  intro l hl
  rcases List.mem_cons.mp hl with rfl | hl
  · exact he.mem
  · exact ended_own h5.events l hl

theorem query_next {N : Names} {v w : World α} (h : Within N v w) {e E : Nat} (he : At N.exps e E) :
    MLike (Next' N w) (step v .idle (.query e)) (step w .idle (.query E)) := by
  obtain ⟨x, X, h1, h2, hx⟩ := h.exps.get e E he
  simp only [step]
  rw [h1, h2]
  simp only [hx.alive, satisfied_like hx]
  split
  · refine .ok ⟨Old.next ⟨⟨h, .refl _ _⟩, .nil, by simp⟩, .idle, rfl, ?_, by simp⟩
    intro l hl
    simp only [List.mem_singleton] at hl
    subst hl
    exact he.mem
  · exact .error _

theorem dropSequence_next {N : Names} {v w : World α} (h : Within N v w) (ha : Alone N w) {s S : Nat} (hs : At N.seqs s S) :
    MLike (Next' N w) (step v .idle (.dropSequence s)) (step w .idle (.dropSequence S)) := by
  have hn := step_next h ha (.dropSequence s)
  rw [At] at hs
  simp only [Names.op, hs, Option.map_some] at hn
  simp only [step]
  have old : ∀ {r R : World α × List Event}, v.step (.dropSequence s) = .ok r → w.step (.dropSequence S) = .ok R → Next N w r R →
      Next' N w (r.1, .idle, { ev := r.2, writes := ended r.2 }) (R.1, .idle, { ev := R.2, writes := ended R.2 }) := by
    intro r R _ _ hr
    exact ⟨hr, .idle, rfl, by simp, ended_own hr.events⟩
  cases h1 : v.step (.dropSequence s) with
  | error x =>
    cases h2 : w.step (.dropSequence S) with
    | error y => rw [h1, h2] at hn; cases hn; exact .error _
    | ok y => rw [h1, h2] at hn; cases hn
  | ok x =>
    cases h2 : w.step (.dropSequence S) with
    | error y => rw [h1, h2] at hn; cases hn
    | ok y =>
      rw [h1, h2] at hn
      cases hn with
      | ok hn => exact .ok (old h1 h2 hn)

theorem newSequence_next' {N : Names} {v w : World α} (h : Within N v w) (st : Strategy) :
    MLike (Next' N w) (step v .idle (.newSequence st)) (step w .idle (.newSequence st)) := by
  have hn := newSequence_next h st
  simp only [step, World.step] at hn ⊢
  cases hn with
  | ok hn =>
    refine .ok ⟨hn, .idle, rfl, by simp, ?_⟩
    intro l hl
    simp only [List.mem_singleton] at hl
    subst hl
    simp [Own, Names.learn]

theorem newMock_next' {N : Names} {v w : World α} (h : Within N v w) :
    MLike (Next' N w) (step v .idle .newMock) (step w .idle .newMock) := by
  have hn := newMock_next h
  simp only [step, World.step] at hn ⊢
  cases hn with
  | ok hn =>
    refine .ok ⟨hn, .idle, rfl, by simp, ?_⟩
    intro l hl
    simp only [List.mem_singleton] at hl
    subst hl
    simp [Own, Names.learn]

theorem At.none {A B : Type} {R : A → B → Prop} {N : List Nat} {l : List A} {L : List B} (h : TableRel R N l L) {k : Nat}
    (hk : N[k]? = none) : l[k]? = none := by
  rw [List.getElem?_eq_none_iff, ← h.length]
  exact List.getElem?_eq_none_iff.mp hk

/-- One step of a thread, alone and among others. -/
theorem step_next' {N : Names} {v w : World α} (h : Within N v w) (ha : Alone N w) {p P : Phase} (hp : PhaseRel N p P) (a : Act α) :
    match act N a with
    | none => ∃ x, step v p a = .error x
    | some a' => MLike (Next' N w) (step v p a) (step w P a') := by
  have other : ∀ (p : Phase) (a : Act α), p ≠ .idle → (∀ c e, p = .built c e → a ≠ .push) → (∀ e, p = .matched e → a ≠ .report) →
      (∀ e, p = .reported e → a ≠ .consume) → (∀ e, p = .removed e → a ≠ .release) → ∀ u : World α,
      step u p a = .error (.client "the thread is somewhere else") := by
    intro p a h1 h2 h3 h4 h5 u
    cases p <;> cases a <;> simp_all [step]
  cases hp with
  | idle =>
    cases a with
    | newSequence st => exact newSequence_next' h st
    | newMock => exact newMock_next' h
    | dropSequence s =>
      simp only [act]
      rcases hs : N.seqs[s]? with _ | S
      · simp only [Option.map_none]
        have := At.none h.seqs hs
        exact ⟨_, by simp only [step, World.step, World.hasHandle, this]; rfl⟩
      · exact dropSequence_next h ha hs
    | attach m min max ts ps =>
      simp only [act]
      rcases hm : N.mocks[m]? with _ | M
      · have := At.none h.colls hm
        exact ⟨_, by simp only [step, this]; rfl⟩
      · rcases ht : lookAll N.seqs ts with _ | Ts
        · obtain ⟨t, h1, h2⟩ := lookAll_none ht
          have : ts.all v.hasHandle = false := by
            rw [List.all_eq_false]
            refine ⟨t, h1, ?_⟩
            rw [h.seqs.length] at h2
            simp [World.hasHandle, List.getElem?_eq_none_iff.mpr h2]
          simp only
          obtain ⟨es, Es, h3, _, _⟩ := h.colls.get m M hm
          exact ⟨_, by simp only [step, h3, this]; rfl⟩
        · exact attach_next h hm min max (lookAll_some ht) ps
    | scan m b =>
      simp only [act]
      rcases hm : N.mocks[m]? with _ | M
      · have := At.none h.colls hm
        exact ⟨_, by simp only [step, this]; rfl⟩
      · exact scan_next h hm b
    | remove e =>
      simp only [act]
      rcases he : N.exps[e]? with _ | E
      · have := At.none h.exps he
        exact ⟨_, by simp only [step, this]; rfl⟩
      · exact remove_next h he
    | query e =>
      simp only [act]
      rcases he : N.exps[e]? with _ | E
      · have := At.none h.exps he
        exact ⟨_, by simp only [step, this]; rfl⟩
      · exact query_next h he
    | push => exact .error _
    | report => exact .error _
    | consume => exact .error _
    | release => exact .error _
  | @built c C e E h1 h2 =>
    by_cases hq : a = .push
    · subst hq
      exact push_next h h1 h2
    · have hv := other (.built c e) a (by simp) (by simp [hq]) (by simp) (by simp) (by simp) v
      rcases hb : act N a with _ | b
      · exact ⟨_, hv⟩
      · have hq' : b ≠ .push := by rintro rfl; cases a <;> simp_all [act] <;> split at hb <;> simp at hb
        simp only
        rw [hv, other (.built C E) b (by simp) (by simp [hq']) (by simp) (by simp) (by simp) w]
        exact .error _
  | @matched e E h2 =>
    by_cases hq : a = .report
    · subst hq
      have ho : ∀ A ∈ [Event.fullMatch E], Event.old A = true := by simp [Event.old]
      exact .ok ⟨Old.next ⟨⟨h, .refl _ _⟩, .cons (.fullMatch h2) .nil, ho⟩, .reported h2, rfl, by simp, by simp⟩
    · have hv := other (.matched e) a (by simp) (by simp) (by simp [hq]) (by simp) (by simp) v
      rcases hb : act N a with _ | b
      · exact ⟨_, hv⟩
      · have hq' : b ≠ .report := by rintro rfl; cases a <;> simp_all [act] <;> split at hb <;> simp at hb
        simp only
        rw [hv, other (.matched E) b (by simp) (by simp) (by simp [hq']) (by simp) (by simp) w]
        exact .error _
  | @reported e E h2 =>
    by_cases hq : a = .consume
    · subst hq
      exact consume_next h h2
    · have hv := other (.reported e) a (by simp) (by simp) (by simp) (by simp [hq]) (by simp) v
      rcases hb : act N a with _ | b
      · exact ⟨_, hv⟩
      · have hq' : b ≠ .consume := by rintro rfl; cases a <;> simp_all [act] <;> split at hb <;> simp at hb
        simp only
        rw [hv, other (.reported E) b (by simp) (by simp) (by simp) (by simp [hq']) (by simp) w]
        exact .error _
  | @removed e E h2 =>
    by_cases hq : a = .release
    · subst hq
      exact release_next h ha h2
    · have hv := other (.removed e) a (by simp) (by simp) (by simp) (by simp) (by simp [hq]) v
      rcases hb : act N a with _ | b
      · exact ⟨_, hv⟩
      · have hq' : b ≠ .release := by rintro rfl; cases a <;> simp_all [act] <;> split at hb <;> simp at hb
        simp only
        rw [hv, other (.removed E) b (by simp) (by simp) (by simp) (by simp) (by simp [hq']) w]
        exact .error _

/-! ## All threads -/

/-- Each thread among the others is as if it was alone. -/
structure Well [DecidableEq ι] (j : Joint ι α) (v : ι → World α) (p : ι → Phase) : Prop where
  good : Good ⟨j.state.world, j.names⟩ v
  phase : ∀ i, PhaseRel (j.names i) (p i) (j.state.phase i)

/-- Memory that is touched belongs to the thread. -/
def Log.Within (N : Names) (l : Log) : Prop := (∀ x ∈ l.reads, Own N x) ∧ (∀ x ∈ l.writes, Own N x)

/-- No object is forgotten. -/
def Names.Keeps (N N' : Names) : Prop :=
  (∀ K ∈ N.seqs, K ∈ N'.seqs) ∧ (∀ K ∈ N.exps, K ∈ N'.exps) ∧ (∀ K ∈ N.mocks, K ∈ N'.mocks)

theorem Own.keep {N N' : Names} (h : Names.Keeps N N') {l : Loc} (ho : Own N l) : Own N' l := by
  cases l with
  | storage c => exact h.2.2 c ho
  | exp e => exact h.2.1 e ho
  | seq s => exact h.1 s ho

theorem Log.Within.keep {N N' : Names} (h : Names.Keeps N N') {l : Log} (ho : Log.Within N l) : Log.Within N' l :=
  ⟨fun x hx => (ho.1 x hx).keep h, fun x hx => (ho.2 x hx).keep h⟩

theorem Well.step [DecidableEq ι] {j : Joint ι α} {v : ι → World α} {p : ι → Phase} (h : Well j v p) (i : ι) (a : Act α) :
    MBoth (fun r R => Well R.1 (fun k => if k = i then r.1 else v k) (fun k => if k = i then r.2.1 else p k) ∧
        r.2.2.seen = R.2.seen ∧ Log.Within (R.1.names i) R.2.log ∧ (∀ k, Names.Keeps (j.names k) (R.1.names k)))
      (Threads.step (v i) (p i) a) (j.step i a) := by
  have hs := step_next' (h.good.within i) (h.good.alone i) (h.phase i) a
  unfold Joint.step
  rcases hop : act (j.names i) a with _ | a'
  · rw [hop] at hs
    obtain ⟨x, hx⟩ := hs
    rw [hx]
    exact .error _ _
  · rw [hop] at hs
    simp only [State.step] at hs ⊢
    cases h1 : Threads.step (v i) (p i) a with
    | error x =>
      rw [h1] at hs
      cases h2 : Threads.step j.state.world (j.state.phase i) a' with
      | error y => exact .error _ _
      | ok y => rw [h2] at hs; cases hs
    | ok r =>
      rw [h1] at hs
      cases h2 : Threads.step j.state.world (j.state.phase i) a' with
      | error y => rw [h2] at hs; cases hs
      | ok R =>
        rw [h2] at hs
        cases hs with
        | ok hn =>
          obtain ⟨w', P, L⟩ := R
          obtain ⟨v', q, l⟩ := r
          have hg := h.good.next i hn.next
          refine .ok ⟨⟨hg.1, ?_⟩, ?_, ?_, ?_⟩
          · intro k
            by_cases e : k = i
            · subst e
              simpa using hn.phase
            · simpa [e] using h.phase k
          · simp only [Log.seen]
            rw [hg.2, hn.answer]
          · simp only [if_true]
            exact ⟨hn.reads, hn.writes⟩
          · intro k
            by_cases e : k = i
            · subst e
              simp only [if_true]
              exact ⟨hn.next.grows.seqs.keep, hn.next.grows.exps.keep, hn.next.grows.colls.keep⟩
            · simp [e, Names.Keeps]

theorem part_cons_self [DecidableEq ι] {A : Type} (i : ι) (a : A) (l : List (ι × A)) : part i ((i, a) :: l) = a :: part i l := by
  simp [part]

theorem part_cons_ne [DecidableEq ι] {A : Type} {i k : ι} (h : k ≠ i) (a : A) (l : List (ι × A)) : part k ((i, a) :: l) = part k l := by
  have : ¬ i = k := fun e => h e.symm
  simp [part, this]

theorem run_threads [DecidableEq ι] {acts : List (ι × Act α)} {j : Joint ι α} {v : ι → World α} {p : ι → Phase} (h : Well j v p) :
    (∃ (j' : Joint ι α) (log : List (ι × Entry)) (v' : ι → World α) (p' : ι → Phase), j.run acts = .ok (j', log) ∧ Well j' v' p' ∧
      (∀ k, Names.Keeps (j.names k) (j'.names k)) ∧ (∀ x ∈ log, Log.Within (j'.names x.1) x.2.log) ∧
      ∀ i, ∃ logs, alone (v i) (p i) (part i acts) = .ok (v' i, p' i, logs) ∧ logs.map Log.seen = (part i log).map Entry.seen) ∨
    (∃ x y i, j.run acts = .error x ∧ alone (v i) (p i) (part i acts) = .error y) := by
  induction acts generalizing j v p with
  | nil => exact .inl ⟨j, [], v, p, rfl, h, fun _ => by simp [Names.Keeps], by simp, fun _ => ⟨[], rfl, rfl⟩⟩
  | cons o acts ih =>
    obtain ⟨i, a⟩ := o
    have hs := h.step i a
    cases h1 : Threads.step (v i) (p i) a with
    | error x =>
      cases h2 : j.step i a with
      | ok R => rw [h1, h2] at hs; cases hs
      | error y =>
        right
        refine ⟨y, x, i, ?_, ?_⟩
        · simp only [Joint.run, h2, bind, Except.bind]
        · rw [part_cons_self]
          simp only [alone, h1, bind, Except.bind]
    | ok r =>
      cases h2 : j.step i a with
      | error y => rw [h1, h2] at hs; cases hs
      | ok R =>
        rw [h1, h2] at hs
        cases hs with
        | ok hs =>
          obtain ⟨v1, p1, l⟩ := r
          obtain ⟨j1, E⟩ := R
          obtain ⟨hg, he, hl, hk⟩ := hs
          simp only at hg he hl hk
          rcases ih hg with ⟨j', log, v', p', h3, h4, h5, h6, h7⟩ | ⟨x, y, k, h3, h4⟩
          · left
            refine ⟨j', (i, E) :: log, v', p', ?_, h4, ?_, ?_, ?_⟩
            · simp only [Joint.run, h2, h3, bind, Except.bind, pure, Except.pure]
            · intro k
              obtain ⟨a1, a2, a3⟩ := hk k
              obtain ⟨b1, b2, b3⟩ := h5 k
              exact ⟨fun K h => b1 K (a1 K h), fun K h => b2 K (a2 K h), fun K h => b3 K (a3 K h)⟩
            · intro x hx
              rcases List.mem_cons.mp hx with rfl | hx
              · exact hl.keep (h5 i)
              · exact h6 x hx
            · intro k
              obtain ⟨logs, h8, h9⟩ := h7 k
              by_cases e : k = i
              · subst e
                simp only [if_true] at h8
                refine ⟨l :: logs, ?_, ?_⟩
                · rw [part_cons_self]
                  simp only [alone, h1, h8, bind, Except.bind, pure, Except.pure]
                · rw [part_cons_self, List.map_cons, List.map_cons, h9, he]
              · simp only [e, if_false] at h8
                exact ⟨logs, by rw [part_cons_ne e]; exact h8, by rw [part_cons_ne e]; exact h9⟩
          · right
            refine ⟨x, y, k, ?_, ?_⟩
            · simp only [Joint.run, h2, h3, bind, Except.bind]
            · by_cases e : k = i
              · subst e
                rw [part_cons_self]
                simp only [if_true] at h4
                simp only [alone, h1, h4, bind, Except.bind]
              · rw [part_cons_ne e]
                simp only [e, if_false] at h4
                exact h4

theorem well_init [DecidableEq ι] : Well (Joint.init : Joint ι α) (fun _ => World.init) (fun _ => .idle) :=
  ⟨good_init, fun _ => .idle⟩

theorem own_disjoint [DecidableEq ι] {j : Joint ι α} {v : ι → World α} {p : ι → Phase} (h : Well j v p) {i k : ι} (hik : i ≠ k) {l : Loc}
    (h1 : Own (j.names i) l) (h2 : Own (j.names k) l) : False := by
  cases l with
  | storage c => exact h.good.mocks i k hik c h1 h2
  | exp e => exact h.good.exps i k hik e h1 h2
  | seq s => exact h.good.seqs i k hik s h1 h2

/-! ## Operations in one piece -/

/-- What is still to be done of the operation a thread is in the middle of: it began in world `u0`, and `evs` has been observed. -/
def Pend (u0 : World α) : Option (Op α) → List Event → World α → Phase → Prop
  | none, evs, u, .idle => u = u0 ∧ evs = []
  | some op, evs, u, .built c e => ∀ r, step u (.built c e) .push = .ok r → u0.step op = .ok (r.1, evs ++ r.2.2.ev)
  | some op, evs, u, .matched e => ∀ u', u.consume e = .ok u' → u0.step op = .ok (u', evs ++ [.fullMatch e])
  | some op, evs, u, .reported e => ∀ u', u.consume e = .ok u' → u0.step op = .ok (u', evs)
  | some op, evs, u, .removed e => ∀ r, step u (.removed e) .release = .ok r → u0.step op = .ok (r.1, evs ++ r.2.2.ev)
  | _, _, _, _ => False

/-- After a step, either the operation is still going on, or it is finished. -/
def After (u0 : World α) (op : Option (Op α)) (evs : List Event) (a : Act α) (r : World α × Phase × Log) : Prop :=
  (r.2.1 ≠ .idle ∧ Pend u0 (op.or (begins a)) (evs ++ r.2.2.ev) r.1 r.2.1) ∨
  (r.2.1 = .idle ∧ match op.or (begins a) with
    | some o => u0.step o = .ok (r.1, evs ++ r.2.2.ev)
    | none => r.1 = u0 ∧ evs ++ r.2.2.ev = [])

theorem after_step {u0 : World α} {op : Option (Op α)} {evs : List Event} {u : World α} {p : Phase} (h : Pend u0 op evs u p) {a : Act α}
    {r : World α × Phase × Log} (hr : step u p a = .ok r) : After u0 op evs a r ∧ (op ≠ none → begins a = none) := by
  cases p with
  | idle =>
    cases op with
    | some op => exact h.elim
    | none =>
      obtain ⟨rfl, rfl⟩ := h
      refine ⟨?_, by simp⟩
      cases a with
      | newSequence st =>
        simp only [step, bind, Except.bind, pure, Except.pure, World.step, Except.ok.injEq] at hr
        subst hr
        exact .inr ⟨rfl, rfl⟩
      | newMock =>
        simp only [step, bind, Except.bind, pure, Except.pure, World.step, Except.ok.injEq] at hr
        subst hr
        exact .inr ⟨rfl, rfl⟩
      | dropSequence s =>
        cases h1 : u.step (.dropSequence s) with
        | error x => simp [step, bind, Except.bind, h1] at hr
        | ok x =>
          simp only [step, bind, Except.bind, pure, Except.pure, h1, Except.ok.injEq] at hr
          subst hr
          exact .inr ⟨rfl, h1⟩
      | attach c min max tags ps =>
        simp only [step] at hr
        cases h1 : u.colls[c]? with
        | none => simp [h1] at hr
        | some es =>
          simp only [h1] at hr
          split at hr
          · rename_i hc
            split at hr
            · rename_i t ts h2 h3
              cases h4 : Control.make t ts u.seqs with
              | error x => simp [h4, bind, Except.bind] at hr
              | ok x =>
                obtain ⟨s, c'⟩ := x
                simp only [h4, bind, Except.bind, pure, Except.pure, Except.ok.injEq] at hr
                subst hr
                refine .inl ⟨by simp, ?_⟩
                simp only [begins, Option.none_or, Pend]
                intro r hr
                simp only [step, h1] at hr
                simp only [World.step, World.expect, h1, hc, if_true, h2, h3, h4, bind, Except.bind, pure, Except.pure] at hr ⊢
                cases h5 : check (!es.contains u.exps.length) "push: assert(find == end)" with
                | error x => rw [h5] at hr; simp at hr
                | ok x =>
                  rw [h5] at hr
                  simp only [Except.ok.injEq] at hr
                  subst hr
                  rfl
            · rename_i h2
              simp only [Except.ok.injEq] at hr
              subst hr
              refine .inr ⟨rfl, ?_⟩
              simp only [begins, Option.none_or, World.step, World.expect, h1, hc, if_true]
              rfl
          · cases hr
      | scan c b =>
        simp only [step] at hr
        cases h1 : u.colls[c]? with
        | none => simp [h1] at hr
        | some es =>
          simp only [h1] at hr
          cases h2 : scan u b es.reverse with
          | error x => simp [h2, bind, Except.bind] at hr
          | ok q =>
            simp only [h2, bind, Except.bind, pure, Except.pure] at hr
            split at hr
            · rename_i hf
              cases h3 : pickBestMatch q.full with
              | error x => simp [h3] at hr
              | ok best =>
                simp only [h3, Except.ok.injEq] at hr
                subst hr
                refine .inl ⟨by simp, ?_⟩
                simp only [begins, Option.none_or, Pend]
                intro u' hu
                simp only [World.step, World.handleCall, h1, h2, hf, if_true, h3, hu, bind, Except.bind, pure, Except.pure, List.nil_append]
            · rename_i hf
              split at hr
              · rename_i hg
                simp only [Except.ok.injEq] at hr
                subst hr
                refine .inr ⟨rfl, ?_⟩
                simp only [begins, Option.none_or, World.step, World.handleCall, h1, h2, hf, if_false, hg, if_true, bind, Except.bind, pure,
                  Except.pure, List.nil_append]
                rfl
              · rename_i hg
                simp only [Except.ok.injEq] at hr
                subst hr
                refine .inr ⟨rfl, ?_⟩
                simp only [begins, Option.none_or, World.step, World.handleCall, h1, h2, hf, if_false, hg, bind, Except.bind, pure,
                  Except.pure, List.nil_append]
                rfl
      | remove e =>
        simp only [step] at hr
        cases h1 : u.exps[e]? with
        | none => simp [h1] at hr
        | some x =>
          simp only [h1] at hr
          split at hr
          · cases hr
          · rename_i ha
            cases h2 : u.colls[x.coll]? with
            | none => simp [h2] at hr
            | some es =>
              simp only [h2, bind, Except.bind, pure, Except.pure] at hr
              cases h3 : check (es.contains e) "remove: assert(iter != end)" with
              | error x => rw [h3] at hr; cases hr
              | ok y =>
                rw [h3] at hr
                simp only [Except.ok.injEq] at hr
                subst hr
                refine .inl ⟨by simp, ?_⟩
                simp only [begins, Option.none_or, Pend]
                intro r hr
                simp only [step, h1, bind, Except.bind, pure, Except.pure] at hr
                simp only [World.step, World.destroyExp, h1, ha, h2, h3, bind, Except.bind, pure, Except.pure]
                generalize World.releaseAll _ _ = z at hr ⊢
                cases z with
                | error z => cases hr
                | ok z =>
                  simp only [Except.ok.injEq] at hr
                  subst hr
                  simp
      | query e =>
        simp only [step] at hr
        cases h1 : u.exps[e]? with
        | none => simp [h1] at hr
        | some x =>
          simp only [h1] at hr
          split at hr
          · simp only [Except.ok.injEq] at hr
            subst hr
            exact .inr ⟨rfl, rfl, rfl⟩
          · cases hr
      | push => simp [step] at hr
      | report => simp [step] at hr
      | consume => simp [step] at hr
      | release => simp [step] at hr
  | built c e =>
    cases op with
    | none => exact h.elim
    | some op =>
      cases a with
      | push =>
        refine ⟨.inr ⟨?_, h r hr⟩, fun _ => rfl⟩
        simp only [step] at hr
        split at hr
        · cases hr
        · rename_i es _
          cases h5 : check (!es.contains e) "push: assert(find == end)" with
          | error x => simp only [h5, bind, Except.bind] at hr; cases hr
          | ok x =>
            simp only [h5, bind, Except.bind, pure, Except.pure, Except.ok.injEq] at hr
            subst hr
            rfl
      | _ => simp [step] at hr
  | matched e =>
    cases op with
    | none => exact h.elim
    | some op =>
      cases a with
      | report =>
        simp only [step, Except.ok.injEq] at hr
        subst hr
        exact ⟨.inl ⟨by simp, h⟩, fun _ => rfl⟩
      | _ => simp [step] at hr
  | reported e =>
    cases op with
    | none => exact h.elim
    | some op =>
      cases a with
      | consume =>
        simp only [step, bind, Except.bind, pure, Except.pure] at hr
        cases h1 : u.deref e with
        | error x => simp [h1] at hr
        | ok x =>
          cases h2 : u.consume e with
          | error y => simp [h1, h2] at hr
          | ok y =>
            simp only [h1, h2, Except.ok.injEq] at hr
            subst hr
            refine ⟨.inr ⟨rfl, ?_⟩, fun _ => rfl⟩
            simp only [Option.some_or, List.append_nil]
            exact h y h2
      | _ => simp [step] at hr
  | removed e =>
    cases op with
    | none => exact h.elim
    | some op =>
      cases a with
      | release =>
        refine ⟨.inr ⟨?_, h r hr⟩, fun _ => rfl⟩
        simp only [step] at hr
        split at hr
        · cases hr
        · simp only [bind, Except.bind, pure, Except.pure] at hr
          split at hr
          · cases hr
          · simp only [Except.ok.injEq] at hr
            subst hr
            rfl
      | _ => simp [step] at hr

theorem alone_run {acts : List (Act α)} {u0 : World α} {op : Option (Op α)} {evs : List Event} {u : World α} {p : Phase}
    (h : Pend u0 op evs u p) {u' : World α} {logs : List Log} (hr : alone u p acts = .ok (u', .idle, logs)) :
    u0.run (op.toList ++ acts.filterMap begins) = .ok (u', evs ++ logs.flatMap Log.ev) := by
  induction acts generalizing u0 op evs u p logs with
  | nil =>
    simp only [alone, Except.ok.injEq, Prod.mk.injEq] at hr
    obtain ⟨rfl, rfl, rfl⟩ := hr
    cases op with
    | some op => exact h.elim
    | none =>
      obtain ⟨rfl, rfl⟩ := h
      rfl
  | cons a acts ih =>
    cases h1 : step u p a with
    | error x => simp [alone, h1, bind, Except.bind] at hr
    | ok r =>
      obtain ⟨u1, p1, l⟩ := r
      cases h2 : alone u1 p1 acts with
      | error x => simp [alone, h1, h2, bind, Except.bind] at hr
      | ok q =>
        obtain ⟨u2, p2, ls⟩ := q
        simp only [alone, h1, h2, bind, Except.bind, pure, Except.pure, Except.ok.injEq, Prod.mk.injEq] at hr
        obtain ⟨rfl, rfl, rfl⟩ := hr
        obtain ⟨h3, h4⟩ := after_step h h1
        have hops : op.toList ++ (a :: acts).filterMap begins = (op.or (begins a)).toList ++ acts.filterMap begins := by
          cases op with
          | none => cases hb : begins a <;> simp [hb]
          | some o => simp [h4]
        rw [hops, List.flatMap_cons, ← List.append_assoc]
        rcases h3 with ⟨_, h3⟩ | ⟨h5, h3⟩
        · exact ih h3 h2
        · simp only at h5 h3
          subst h5
          have hi : u1.run (acts.filterMap begins) = .ok (u2, ls.flatMap Log.ev) := by
            have := ih (u0 := u1) (op := none) (evs := []) (u := u1) (p := .idle) ⟨rfl, rfl⟩ h2
            simpa using this
          cases hb : op.or (begins a) with
          | none =>
            rw [hb] at h3
            obtain ⟨rfl, h3⟩ := h3
            rw [h3]
            simpa using hi
          | some o =>
            rw [hb] at h3
            simp only at h3
            simp only [Option.toList_some, List.singleton_append, World.run, h3, hi, bind, Except.bind, pure, Except.pure]

/-! ## Threads that do not disturb each other -/

/-- The only thread that is in the middle of something. -/
theorem undisturbed_alone [DecidableEq ι] {acts : List (ι × Act α)} {s s' : State ι α} {logs : List (ι × Log)} {p : Phase}
    (hp : (∃ i, s.phase i = p ∧ ∀ k, k ≠ i → s.phase k = .idle) ) (hu : Undisturbed s acts)
    (hr : s.run acts = .ok (s', logs)) (hi : ∀ i, s'.phase i = .idle) :
    alone s.world p (acts.map (·.2)) = .ok (s'.world, .idle, logs.map (·.2)) := by
  induction acts generalizing s logs p with
  | nil =>
    simp only [State.run, Except.ok.injEq, Prod.mk.injEq] at hr
    obtain ⟨rfl, rfl⟩ := hr
    obtain ⟨i, h1, _⟩ := hp
    rw [hi i] at h1
    subst h1
    rfl
  | cons a acts ih =>
    obtain ⟨i, a⟩ := a
    obtain ⟨h1, h2⟩ := hu
    have hpi : s.phase i = p := by
      obtain ⟨k, h3, h4⟩ := hp
      by_cases e : k = i
      · subst e; exact h3
      · rw [← h3, h1 k e, h4 i (fun e' => e e'.symm)]
    cases h5 : Threads.step s.world (s.phase i) a with
    | error x => simp [State.run, State.step, h5, bind, Except.bind] at hr
    | ok r =>
      obtain ⟨w, q, l⟩ := r
      have h6 : s.step i a = .ok ({ world := w, phase := fun k => if k = i then q else s.phase k }, l) := by
        simp only [State.step, h5, bind, Except.bind, pure, Except.pure]
      cases h7 : State.run { world := w, phase := fun k => if k = i then q else s.phase k } acts with
      | error x => simp [State.run, h6, h7, bind, Except.bind] at hr
      | ok r =>
        obtain ⟨s1, ls⟩ := r
        simp only [State.run, h6, h7, bind, Except.bind, pure, Except.pure, Except.ok.injEq, Prod.mk.injEq] at hr
        obtain ⟨rfl, rfl⟩ := hr
        have h8 := ih (p := q) ⟨i, by simp, fun k hk => by simp [hk, h1 k hk]⟩ (h2 _ _ h6) h7
        rw [hpi] at h5
        simp only [List.map_cons, alone, h5, h8, bind, Except.bind, pure, Except.pure]

end Mimic.Threads
