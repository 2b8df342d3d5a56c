import Verif.Spec.LockOrder

/-!
# Lemmas about several threads whose matchers call mocks
-/

set_option autoImplicit false

namespace Mimic.Nested

variable {α : Type} {rank : Nat → Nat} {Asks : Nat → α → List (Ask α) → Prop}

/-- The loops of one thread go down the layers. -/
def Down (rank : Nat → Nat) (st : List (Level α)) : Prop := st.Pairwise (fun x y => rank x.1 < rank y.1)

/-- A loop is waiting for the one inside it. -/
def Waits : List (Level α) → Prop
  | [] => True
  | [_] => True
  | _ :: y :: st => (∃ m a next qs, y.2 = .call m a next :: qs) ∧ Waits (y :: st)

structure TInv (rank : Nat → Nat) (t : Thread α) : Prop where
  down : Down rank t.stack
  below : ∀ x ∈ t.stack, ∀ p ∈ x.2, Ask.Below rank (rank x.1) p
  waits : Waits t.stack

theorem waits_congr {m : Nat} {ps qs : List (Ask α)} {st : List (Level α)} (h : Waits ((m, ps) :: st)) : Waits ((m, qs) :: st) := by
  cases st with
  | nil => trivial
  | cons y st => exact h

theorem TStep.inv (ho : Ordered rank Asks) {t t' : Thread α} (h : TStep Asks t t') (hi : TInv rank t) : TInv rank t' := by
  obtain ⟨h1, h2, h3⟩ := hi
  cases h with
  | enter ha => exact ⟨by simp [Down], by simpa using ho _ _ _ ha, trivial⟩
  | @nest k m a next qs ps st todo ha =>
    have hb := h2 (k, .call m a next :: qs) (by simp) (.call m a next) (by simp)
    have hlt : rank m < rank k := by cases hb; assumption
    refine ⟨?_, ?_, ⟨⟨m, a, next, qs, rfl⟩, h3⟩⟩
    · refine List.pairwise_cons.mpr ⟨?_, h1⟩
      intro y hy
      simp only [List.mem_cons] at hy
      rcases hy with rfl | hy
      · exact hlt
      · exact Nat.lt_trans hlt ((List.pairwise_cons.mp h1).1 y hy)
    · intro x hx
      simp only [List.mem_cons] at hx
      rcases hx with rfl | hx
      · exact ho _ _ _ ha
      · exact h2 x (by simpa using hx)
  | @answer k b qs st todo =>
    refine ⟨?_, ?_, waits_congr h3⟩
    · exact List.pairwise_cons.mpr (List.pairwise_cons.mp h1)
    · intro x hx
      simp only [List.mem_cons] at hx
      rcases hx with rfl | hx
      · intro p hp
        exact h2 (k, _) (List.mem_cons_self ..) p (List.mem_cons_of_mem _ hp)
      · exact h2 x (by simp [hx])
  | @throws k n qs st todo =>
    refine ⟨?_, ?_, waits_congr h3⟩
    · exact List.pairwise_cons.mpr (List.pairwise_cons.mp h1)
    · intro x hx
      simp only [List.mem_cons] at hx
      rcases hx with rfl | hx
      · intro p hp
        exact h2 (k, _) (List.mem_cons_self ..) p (List.mem_cons_of_mem _ (List.mem_of_mem_drop hp))
      · exact h2 x (by simp [hx])
  | @back k m m' a next qs st todo r =>
    have hb := h2 (k, .call m' a next :: qs) (by simp) (.call m' a next) (by simp)
    have hn : Ask.Below rank (rank k) (next r) := by cases hb with | call _ h => exact h r
    refine ⟨List.pairwise_cons.mpr (List.pairwise_cons.mp (List.pairwise_cons.mp h1).2), ?_, waits_congr h3.2⟩
    intro x hx
    simp only [List.mem_cons] at hx
    rcases hx with rfl | hx
    · intro p hp
      simp only [List.mem_cons] at hp
      rcases hp with rfl | hp
      · exact hn
      · exact h2 (k, .call m' a next :: qs) (by simp) p (List.mem_cons_of_mem _ hp)
    · exact h2 x (by simp [hx])
  | leave => exact ⟨by simp [Down], by simp, trivial⟩

theorem LReach.inv (ho : Ordered rank Asks) {ts : List (Thread α)} (h : LReach Asks ts) : ∀ t ∈ ts, TInv rank t := by
  induction h with
  | start calls =>
    intro t ht
    simp only [List.mem_map] at ht
    obtain ⟨l, _, rfl⟩ := ht
    exact ⟨by simp [Down], by simp, trivial⟩
  | step _ hs ih =>
    cases hs with
    | @go pre post t t' ht _ =>
      intro u hu
      simp only [List.mem_append, List.mem_cons] at hu
      rcases hu with hu | rfl | hu
      · exact ih u (by simp [hu])
      · exact ht.inv ho (ih t (by simp))
      · exact ih u (by simp [hu])

/-- A thread that waits for nothing and is not finished goes on. -/
theorem idle_step {t : Thread α} (hw : Waits t.stack) (hn : t.wants = none) (hf : ¬ t.finished) : ∃ t', TStep Asks t t' := by
  obtain ⟨st, todo⟩ := t
  cases st with
  | nil =>
    cases todo with
    | nil => exact absurd ⟨rfl, rfl⟩ hf
    | cons c todo => simp [Thread.wants] at hn
  | cons x st =>
    obtain ⟨k, qs⟩ := x
    cases qs with
    | nil =>
      cases st with
      | nil => exact ⟨_, .leave⟩
      | cons y st =>
        obtain ⟨⟨m, a, next, qs, hy⟩, _⟩ := hw
        obtain ⟨k', ps⟩ := y
        simp only at hy
        subst hy
        exact ⟨_, .back none⟩
    | cons q qs =>
      cases q with
      | answer b => exact ⟨_, .answer⟩
      | throws => exact ⟨_, .throws (n := 0)⟩
      | call m a next => simp [Thread.wants] at hn

theorem want_step (ha : Answered Asks) {t : Thread α} {m : Nat} {a : α} (hw : t.wants = some (m, a)) : ∃ t', TStep Asks t t' := by
  obtain ⟨st, todo⟩ := t
  obtain ⟨ps, hps⟩ := ha m a
  cases st with
  | nil =>
    cases todo with
    | nil => simp [Thread.wants] at hw
    | cons c todo =>
      simp only [Thread.wants, Option.some.injEq] at hw
      subst hw
      exact ⟨_, .enter hps⟩
  | cons x st =>
    obtain ⟨k, qs⟩ := x
    cases qs with
    | nil => simp [Thread.wants] at hw
    | cons q qs =>
      cases q with
      | answer b => simp [Thread.wants] at hw
      | throws => simp [Thread.wants] at hw
      | call m' a' next =>
        simp only [Thread.wants, Option.some.injEq, Prod.mk.injEq] at hw
        obtain ⟨rfl, rfl⟩ := hw
        exact ⟨_, .nest hps⟩

theorem mem_split {ts : List (Thread α)} {t : Thread α} (h : t ∈ ts) : ∃ pre post, ts = pre ++ t :: post := List.append_of_mem h

theorem go_idle {ts : List (Thread α)} {t : Thread α} (ht : t ∈ ts) (hw : Waits t.stack) (hn : t.wants = none) (hf : ¬ t.finished) :
    ∃ ts', LStep Asks ts ts' := by
  obtain ⟨t', h⟩ := idle_step (Asks := Asks) hw hn hf
  obtain ⟨pre, post, rfl⟩ := mem_split ht
  exact ⟨_, .go h (by simp [hn])⟩

theorem go_free (ha : Answered Asks) {ts : List (Thread α)} {t : Thread α} (ht : t ∈ ts) {m : Nat} {a : α} (hw : t.wants = some (m, a))
    (hf : ∀ u ∈ ts, ¬ u.locks m) : ∃ ts', LStep Asks ts ts' := by
  obtain ⟨t', h⟩ := want_step ha hw
  obtain ⟨pre, post, rfl⟩ := mem_split ht
  refine ⟨_, .go h fun m' a' hw' => ?_⟩
  rw [hw] at hw'
  simp only [Option.some.injEq, Prod.mk.injEq] at hw'
  exact hw'.1 ▸ hf

/-- Whoever holds a mutex can be made to go on. -/
theorem holder_step (ha : Answered Asks) {ts : List (Thread α)} (hi : ∀ t ∈ ts, TInv rank t) (R : Nat) :
    ∀ t ∈ ts, ∀ m, t.locks m → rank m = R → ∃ ts', LStep Asks ts ts' := by
  induction R using Nat.strongRecOn with
  | _ R ih =>
    intro t ht m hl hR
    obtain ⟨ps, hl⟩ := hl
    have inv := hi t ht
    have hf : ¬ t.finished := by
      intro hf
      rw [hf.1] at hl
      simp at hl
    cases hw : t.wants with
    | none => exact go_idle ht inv.waits hw hf
    | some c =>
      obtain ⟨m', a'⟩ := c
      -- what it waits for is below all it holds
      have hlt : rank m' < R := by
        obtain ⟨st, todo⟩ := t
        cases st with
        | nil => simp at hl
        | cons x st =>
          obtain ⟨k, qs⟩ := x
          cases qs with
          | nil => simp [Thread.wants] at hw
          | cons q qs =>
            cases q with
            | answer b => simp [Thread.wants] at hw
            | throws => simp [Thread.wants] at hw
            | call m'' a'' next =>
              simp only [Thread.wants, Option.some.injEq, Prod.mk.injEq] at hw
              obtain ⟨rfl, rfl⟩ := hw
              have hb := inv.below (k, .call m'' a'' next :: qs) (by simp) (.call m'' a'' next) (by simp)
              have h1 : rank m'' < rank k := by cases hb; assumption
              simp only [List.mem_cons] at hl
              rcases hl with hl | hl
              · simp only [Prod.mk.injEq] at hl
                rw [← hR, hl.1]
                exact h1
              · have h2 := (List.pairwise_cons.mp inv.down).1 _ hl
                simp only at h2
                omega
      by_cases hfree : ∀ u ∈ ts, ¬ u.locks m'
      · exact go_free ha ht hw hfree
      · simp only [Classical.not_forall, Classical.not_not] at hfree
        obtain ⟨u, hu, hul⟩ := hfree
        exact ih (rank m') hlt u hu m' hul rfl

theorem no_deadlock (ho : Ordered rank Asks) (ha : Answered Asks) {ts : List (Thread α)} (h : LReach Asks ts)
    (hf : ∃ t ∈ ts, ¬ t.finished) : ∃ ts', LStep Asks ts ts' := by
  have hi := h.inv ho
  obtain ⟨t, ht, hf⟩ := hf
  cases hw : t.wants with
  | none => exact go_idle ht (hi t ht).waits hw hf
  | some c =>
    obtain ⟨m, a⟩ := c
    by_cases hfree : ∀ u ∈ ts, ¬ u.locks m
    · exact go_free ha ht hw hfree
    · simp only [Classical.not_forall, Classical.not_not] at hfree
      obtain ⟨u, hu, hul⟩ := hfree
      exact holder_step ha hi (rank m) u hu m hul rfl

/-! ## Every schedule ends -/

/-- All that a thread may still do is finite. -/
abbrev TAcc (Asks : Nat → α → List (Ask α) → Prop) (t : Thread α) : Prop := Acc (fun t' t => TStep Asks t t') t

/-- The state after a loop has ended with `r`. -/
def resume (st : List (Level α)) (todo : List (Nat × α)) (r : Option Nat) : Thread α :=
  match st with
  | (k, .call _ _ next :: qs) :: st => ⟨(k, next r :: qs) :: st, todo⟩
  | st => ⟨st, todo⟩

theorem level_acc (ho : Ordered rank Asks) (R : Nat) : ∀ (n : Nat) (m : Nat) (ps : List (Ask α)) (st : List (Level α))
    (todo : List (Nat × α)), rank m = R → ps.length = n → (∀ p ∈ ps, Ask.Below rank R p) →
    (∀ r, TAcc Asks (resume st todo r)) → TAcc Asks ⟨(m, ps) :: st, todo⟩ := by
  induction R using Nat.strongRecOn with
  | _ R ihR =>
    intro n
    induction n using Nat.strongRecOn with
    | _ n ihn =>
      intro m ps st todo hm hn hps hst
      cases ps with
      | nil =>
        constructor
        intro t' h
        cases h with
        | back r => exact hst r
        | leave => exact hst none
      | cons p ps =>
        have hb := hps p (by simp)
        have hps' : ∀ p ∈ ps, Ask.Below rank R p := fun q hq => hps q (by simp [hq])
        simp only [List.length_cons] at hn
        clear hps
        induction p with
        | answer b =>
          constructor
          intro t' h
          cases h with
          | answer => exact ihn ps.length (by omega) m ps st todo hm rfl hps' hst
        | throws =>
          constructor
          intro t' h
          cases h with
          | @throws _ k => exact ihn (ps.drop k).length (by simp; omega) m _ st todo hm rfl (fun q hq => hps' q (List.mem_of_mem_drop hq)) hst
        | call m' a next ih =>
          constructor
          intro t' h
          cases h with
          | @nest _ _ _ _ _ qs _ _ ha =>
            have hlt : rank m' < R := by cases hb; assumption
            refine ihR (rank m') hlt qs.length m' qs _ todo rfl rfl (ho _ _ _ ha) fun r => ?_
            exact ih r (by cases hb with | call _ h => exact h r)

theorem thread_acc (ho : Ordered rank Asks) (todo : List (Nat × α)) : TAcc Asks ⟨[], todo⟩ := by
  induction todo with
  | nil => exact ⟨_, fun t' h => nomatch h⟩
  | cons c todo ih =>
    constructor
    intro t' h
    cases h with
    | @enter m a ps _ ha => exact level_acc ho (rank m) ps.length m ps [] todo rfl rfl (ho _ _ _ ha) fun r => ih

/-- One of several threads goes on, whether or not it may. -/
inductive AnyStep (Asks : Nat → α → List (Ask α) → Prop) : List (Thread α) → List (Thread α) → Prop where
  | here {t t' : Thread α} {ts : List (Thread α)} : TStep Asks t t' → AnyStep Asks (t :: ts) (t' :: ts)
  | there {t : Thread α} {ts ts' : List (Thread α)} : AnyStep Asks ts ts' → AnyStep Asks (t :: ts) (t :: ts')

theorem LStep.any {ts ts' : List (Thread α)} (h : LStep Asks ts ts') : AnyStep Asks ts ts' := by
  cases h with
  | @go pre post t t' ht hfree =>
    clear hfree
    induction pre with
    | nil => exact .here ht
    | cons u pre ih => exact .there ih

theorem cons_acc {t : Thread α} (h : TAcc Asks t) : ∀ {ts : List (Thread α)}, Acc (fun ts' ts => AnyStep Asks ts ts') ts →
    Acc (fun ts' ts => AnyStep Asks ts ts') (t :: ts) := by
  induction h with
  | intro t ht iht =>
    intro ts hts
    induction hts with
    | intro ts hts ihts =>
      constructor
      intro us hus
      cases hus with
      | here h => exact iht _ h ⟨ts, hts⟩
      | there h => exact ihts _ h

theorem all_acc : ∀ {ts : List (Thread α)}, (∀ t ∈ ts, TAcc Asks t) → Acc (fun ts' ts => AnyStep Asks ts ts') ts := by
  intro ts
  induction ts with
  | nil => exact fun _ => ⟨_, fun us h => nomatch h⟩
  | cons t ts ih => exact fun h => cons_acc (h t (by simp)) (ih fun u hu => h u (by simp [hu]))

theorem AnyStep.acc {ts ts' : List (Thread α)} (h : AnyStep Asks ts ts') (hts : ∀ t ∈ ts, TAcc Asks t) : ∀ t ∈ ts', TAcc Asks t := by
  induction h with
  | here h =>
    intro u hu
    simp only [List.mem_cons] at hu
    rcases hu with rfl | hu
    · exact (hts _ (by simp)).inv h
    · exact hts u (by simp [hu])
  | there _ ih =>
    intro u hu
    simp only [List.mem_cons] at hu
    rcases hu with rfl | hu
    · exact hts _ (by simp)
    · exact ih (fun v hv => hts v (by simp [hv])) u hu

theorem LReach.acc (ho : Ordered rank Asks) {ts : List (Thread α)} (h : LReach Asks ts) : ∀ t ∈ ts, TAcc Asks t := by
  induction h with
  | start calls =>
    intro t ht
    simp only [List.mem_map] at ht
    obtain ⟨l, _, rfl⟩ := ht
    exact thread_acc ho l
  | step _ hs ih => exact hs.any.acc ih

theorem no_infinite {β : Type} {R : β → β → Prop} {x : β} (h : Acc (fun y x => R x y) x) :
    ∀ f : Nat → β, f 0 = x → ¬ ∀ n, R (f n) (f (n + 1)) := by
  induction h with
  | intro x _ ih =>
    intro f h0 hf
    exact ih (f 1) (h0 ▸ hf 0) (fun n => f (n + 1)) rfl (fun n => hf (n + 1))

/-! ## Mutual exclusion -/

/-- The mutexes of one thread. -/
def held (t : Thread α) : List Nat := t.stack.map (·.1)

theorem locks_iff {t : Thread α} {m : Nat} : t.locks m ↔ m ∈ held t := by
  simp only [Thread.locks, held, List.mem_map]
  constructor
  · rintro ⟨ps, h⟩
    exact ⟨_, h, rfl⟩
  · rintro ⟨⟨k, ps⟩, h, rfl⟩
    exact ⟨ps, h⟩

theorem TStep.held {t t' : Thread α} (h : TStep Asks t t') :
    (∃ m a, t.wants = some (m, a) ∧ Nested.held t' = m :: Nested.held t) ∨ (Nested.held t').Sublist (Nested.held t) := by
  cases h with
  | enter => exact Or.inl ⟨_, _, rfl, rfl⟩
  | nest => exact Or.inl ⟨_, _, rfl, rfl⟩
  | answer => exact Or.inr (List.Sublist.refl _)
  | throws => exact Or.inr (List.Sublist.refl _)
  | back => exact Or.inr (List.sublist_cons_self _ _)
  | leave => exact Or.inr (List.sublist_cons_self _ _)

theorem exclusive {ts : List (Thread α)} (h : LReach Asks ts) : (ts.flatMap Nested.held).Nodup := by
  induction h with
  | start calls =>
    have : (calls.map (fun l => (⟨[], l⟩ : Thread α))).flatMap Nested.held = [] := by
      induction calls with
      | nil => rfl
      | cons c cs ih => simp [Nested.held]
    rw [this]
    exact List.nodup_nil
  | step _ hs ih =>
    cases hs with
    | @go pre post t t' ht hfree =>
      simp only [List.flatMap_append, List.flatMap_cons] at ih ⊢
      rcases ht.held with ⟨m, a, hw, he⟩ | hsub
      · have hnot : ∀ u ∈ pre ++ t :: post, m ∉ Nested.held u := fun u hu hm => hfree m a hw u hu (locks_iff.mpr hm)
        rw [he]
        have hperm : (pre.flatMap Nested.held ++ (m :: Nested.held t ++ post.flatMap Nested.held)).Perm
            (m :: (pre.flatMap Nested.held ++ (Nested.held t ++ post.flatMap Nested.held))) := by
          rw [List.cons_append]
          exact List.perm_middle
        rw [hperm.nodup_iff, List.nodup_cons]
        refine ⟨?_, ih⟩
        simp only [List.mem_append, List.mem_flatMap, not_or, not_exists, not_and]
        exact ⟨fun u hu => hnot u (by simp [hu]), hnot t (by simp), fun u hu => hnot u (by simp [hu])⟩
      · exact List.Nodup.sublist (List.Sublist.append (List.Sublist.refl _) (List.Sublist.append hsub (List.Sublist.refl _))) ih

end Mimic.Nested
