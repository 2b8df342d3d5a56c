import Verif.Proofs.Whole
import Verif.Proofs.Unused
import Verif.Spec.Bystander

/-!
# Proofs: tests without one of their expectations, with sequences
-/

set_option autoImplicit false

namespace Mimic.Bystander

open Mimic.Unused (down thin op down_inj mem_thin thin_cons thin_same)
open Mimic.Whole

variable {α : Type}

/-- The number in the whole test of what is number `k` in the test without `e`. -/
def up (e k : Nat) : Nat := if k < e then k else k + 1

theorem up_ne (e k : Nat) : up e k ≠ e := by unfold up; grind

theorem down_up (e k : Nat) : down e (up e k) = k := by unfold down up; grind

theorem down_lt {e n m : Nat} (hn : n ≠ e) (hm : m ≠ e) : down e n < down e m ↔ n < m := by unfold down; grind

/-- Whatever holds of all others holds of all in the test without `e`. -/
theorem forall_down {e : Nat} {P : Nat → Prop} : (∀ k, P k) ↔ ∀ n, n ≠ e → P (down e n) :=
  ⟨fun h n _ => h _, fun h k => by have := h (up e k) (up_ne e k); rwa [down_up] at this⟩

theorem exists_down {e : Nat} {P : Nat → Prop} : (∃ k, P k) ↔ ∃ n, n ≠ e ∧ P (down e n) :=
  ⟨fun ⟨k, h⟩ => ⟨up e k, up_ne e k, by rwa [down_up]⟩, fun ⟨n, _, h⟩ => ⟨_, h⟩⟩

/-! ## Lists -/

theorem thin_pairwise {e : Nat} {ns : List Nat} {R : Nat → Nat → Prop} (hR : ∀ n m, n ≠ e → m ≠ e → R n m → R (down e n) (down e m))
    (h : ns.Pairwise R) : (thin e ns).Pairwise R := by
  unfold thin
  rw [List.pairwise_map]
  refine (h.filter _).imp_of_mem ?_
  intro a b ha hb hab
  simp only [List.mem_filter, decide_eq_true_eq] at ha hb
  exact hR a b ha.2 hb.2 hab

theorem youngest_thin {e : Nat} {P Q : Nat → Prop} {ns : List Nat} (h : YoungestFirst P ns) (hpq : ∀ n, n ≠ e → (Q (down e n) ↔ P n)) :
    YoungestFirst Q (thin e ns) := by
  refine ⟨thin_pairwise (fun n m hn hm h => (down_lt hm hn).2 h) h.1, ?_⟩
  rw [forall_down (e := e)]
  intro n hn
  rw [mem_thin hn, hpq n hn]
  exact h.2 n

theorem oldest_thin {e : Nat} {P Q : Nat → Prop} {ns : List Nat} (h : OldestFirst P ns) (hpq : ∀ n, n ≠ e → (Q (down e n) ↔ P n)) :
    OldestFirst Q (thin e ns) := by
  refine ⟨thin_pairwise (fun n m hn hm h => (down_lt hn hm).2 h) h.1, ?_⟩
  rw [forall_down (e := e)]
  intro n hn
  rw [mem_thin hn, hpq n hn]
  exact h.2 n

theorem thin_all {e : Nat} {ns : List Nat} (h : ∀ n ∈ ns, n ≠ e) : thin e ns = ns.map (down e) := by
  unfold thin
  rw [List.filter_eq_self.mpr (by simpa using h)]

theorem chosen_mem {tr : Trace α} {x r : Nat} {ys : List Nat} (h : tr.Chosen x ys r) : r ∈ x :: ys := by
  induction h with
  | done x => simp
  | move _ _ ih => simp only [List.mem_cons] at ih ⊢; exact .inr ih
  | stay _ _ ih => simp only [List.mem_cons] at ih ⊢; rcases ih with h | h <;> simp [h]

theorem up_lt {e n m : Nat} : up e n < up e m ↔ n < m := by unfold up; grind

theorem up_down {e n : Nat} (hn : n ≠ e) : up e (down e n) = n := by unfold up down; grind

theorem thin_length (e : Nat) (ns : List Nat) : (thin e ns).length = (ns.filter (· ≠ e)).length := by simp [thin]

/-- The element at position `k` and those in front of it. -/
theorem thin_at {e k f : Nat} {ns : List Nat} (h : ns[k]? = some f) (hf : f ≠ e) :
    (thin e ns)[((ns.take k).filter (· ≠ e)).length]? = some (down e f) ∧
    ∀ j g, j < ((ns.take k).filter (· ≠ e)).length → (thin e ns)[j]? = some g → ∃ i n, i < k ∧ ns[i]? = some n ∧ n ≠ e ∧ g = down e n := by
  have hk : k < ns.length := by
    rcases Nat.lt_or_ge k ns.length with h' | h'
    · exact h'
    · rw [List.getElem?_eq_none h'] at h; cases h
  have hsplit : ns = ns.take k ++ f :: ns.drop (k + 1) := by
    have h1 : ns.drop k = f :: ns.drop (k + 1) := by
      rw [List.drop_eq_getElem_cons hk]
      congr 1
      rw [List.getElem?_eq_getElem hk] at h
      exact Option.some.inj h
    rw [← h1, List.take_append_drop]
  have hthin : thin e ns = (((ns.take k).filter (· ≠ e)).map (down e)) ++ down e f :: thin e (ns.drop (k + 1)) := by
    conv => lhs; rw [hsplit]
    simp [thin, hf]
  constructor
  · rw [hthin, List.getElem?_append_right (by simp)]
    simp
  · intro j g hj hg
    rw [hthin, List.getElem?_append_left (by simpa using hj)] at hg
    have hm := List.mem_of_getElem? hg
    simp only [List.mem_map, List.mem_filter, decide_eq_true_eq] at hm
    obtain ⟨n, ⟨hn, hne⟩, rfl⟩ := hm
    obtain ⟨i, hi⟩ := List.mem_iff_getElem?.mp hn
    rw [List.getElem?_take] at hi
    split at hi
    · rename_i hik
      exact ⟨i, n, hik, hi, hne, rfl⟩
    · cases hi

/-! ## The history without `e` -/

theorem leave_snoc (e : Nat) (st : Op α × List Event) (l : Trace α) : ∀ tr : Trace α,
    leave e tr (l ++ [st]) = leave e tr l ++ left e (tr ++ l) st := by
  induction l with
  | nil => intro tr; simp [leave]
  | cons x l ih =>
    intro tr
    simp only [List.cons_append, leave, ih, List.append_assoc, List.singleton_append]
    simp

theorem without_snoc (e : Nat) (tr : Trace α) (st : Op α × List Event) : without e (tr ++ [st]) = without e tr ++ left e tr st := by
  unfold without
  rw [leave_snoc]
  rfl

/-- Everything but `e` is the same in both histories. -/
structure Same (e : Nat) (tr T : Trace α) : Prop where
  decl : ∀ n, n ≠ e → T.decl (down e n) = tr.decl n
  matched : ∀ n, n ≠ e → T.matched (down e n) = tr.matched n
  gone : ∀ n, n ≠ e → (Event.destroyed (down e n) ∈ T.events ↔ Event.destroyed n ∈ tr.events)
  mocks : ∀ m, Event.mockCreated m ∈ T.events ↔ Event.mockCreated m ∈ tr.events
  kind : ∀ s st, T.kind s st ↔ tr.kind s st
  dropped : ∀ s, (∃ ev, (Op.dropSequence s, ev) ∈ T) ↔ ∃ ev, (Op.dropSequence s, ev) ∈ tr

theorem Same.nil (e : Nat) : Same e ([] : Trace α) [] := by
  constructor <;> simp [Trace.decl, Trace.matched, Trace.events, Trace.kind]

theorem mem_created (tr : Trace α) {e n : Nat} (hn : n ≠ e) (ev : List Event) :
    Event.created (down e n) ∈ ev.filterMap (event tr e) ↔ Event.created n ∈ ev := by
  rw [List.mem_filterMap]
  constructor
  · rintro ⟨y, hy, h⟩
    cases y <;> simp only [event, Unused.event, Option.some.injEq, reduceCtorEq] at h <;> try (split at h <;> simp at h)
    rename_i k hk
    rw [(down_inj hk hn).1 h] at hy
    exact hy
  · intro h
    exact ⟨_, h, by simp [event, Unused.event, hn]⟩

theorem mem_destroyed (tr : Trace α) {e n : Nat} (hn : n ≠ e) (ev : List Event) :
    Event.destroyed (down e n) ∈ ev.filterMap (event tr e) ↔ Event.destroyed n ∈ ev := by
  rw [List.mem_filterMap]
  constructor
  · rintro ⟨y, hy, h⟩
    cases y <;> simp only [event, Unused.event, Option.some.injEq, reduceCtorEq] at h <;> try (split at h <;> simp at h)
    rename_i k hk
    rw [(down_inj hk hn).1 h] at hy
    exact hy
  · intro h
    exact ⟨_, h, by simp [event, Unused.event, hn]⟩

theorem mem_mock (tr : Trace α) (e m : Nat) (ev : List Event) : Event.mockCreated m ∈ ev.filterMap (event tr e) ↔ Event.mockCreated m ∈ ev := by
  rw [List.mem_filterMap]
  constructor
  · rintro ⟨y, hy, h⟩
    cases y <;> simp only [event, Unused.event, Option.some.injEq, reduceCtorEq] at h <;> try (split at h <;> simp at h)
    cases h
    exact hy
  · intro h
    exact ⟨_, h, rfl⟩

theorem mem_sequence (tr : Trace α) (e s : Nat) (st : Strategy) (ev : List Event) :
    Event.sequenceCreated s st ∈ ev.filterMap (event tr e) ↔ Event.sequenceCreated s st ∈ ev := by
  rw [List.mem_filterMap]
  constructor
  · rintro ⟨y, hy, h⟩
    cases y <;> simp only [event, Unused.event, Option.some.injEq, reduceCtorEq] at h <;> try (split at h <;> simp at h)
    cases h
    exact hy
  · intro h
    exact ⟨_, h, rfl⟩

theorem count_matched (tr : Trace α) {e n : Nat} (hn : n ≠ e) (ev : List Event) :
    (ev.filterMap (event tr e)).count (.fullMatch (down e n)) = ev.count (.fullMatch n) := by
  induction ev with
  | nil => rfl
  | cons y ev ih =>
    by_cases hy : ∃ k, y = .fullMatch k
    · obtain ⟨k, rfl⟩ := hy
      by_cases hk : k = e
      · subst hk
        have : event tr k (.fullMatch k) = none := by simp [event, Unused.event]
        rw [List.filterMap_cons_none this, ih, List.count_cons_of_ne]
        simp [Ne.symm hn]
      · have : event tr e (.fullMatch k) = some (.fullMatch (down e k)) := by simp [event, Unused.event, hk]
        rw [List.filterMap_cons_some this, List.count_cons, List.count_cons, ih]
        congr 1
        have := down_inj hk hn
        simp only [beq_iff_eq, Event.fullMatch.injEq, this]
    · have h1 : ∀ z, event tr e y = some z → z ≠ .fullMatch (down e n) := by
        rintro z h rfl
        cases y <;> simp only [event, Unused.event, Option.some.injEq, reduceCtorEq] at h <;> try (split at h <;> simp at h)
        exact hy ⟨_, rfl⟩
      have h2 : y ≠ .fullMatch n := fun h => hy ⟨_, h⟩
      rw [List.count_cons_of_ne h2]
      cases hz : event tr e y with
      | none => rw [List.filterMap_cons_none hz, ih]
      | some z => rw [List.filterMap_cons_some hz, List.count_cons_of_ne (h1 z hz), ih]

theorem Same.snoc {e : Nat} {tr T : Trace α} (h : Same e tr T) {o o' : Op α} {ev : List Event} (ho : op e o = some o') :
    Same e (tr ++ [(o, ev)]) (T ++ [(o', ev.filterMap (event tr e))]) where
  decl n hn := by
    rw [decl_snoc, decl_snoc, h.decl n hn]
    congr 1
    cases o <;> simp only [op, Option.some.injEq] at ho <;> try (subst ho; rfl)
    · subst ho
      simp only [declStep, mem_created tr hn]
    · split at ho
      · cases ho
      · cases ho; rfl
  matched n hn := by rw [matched_snoc, matched_snoc, h.matched n hn, count_matched tr hn]
  gone n hn := by rw [events_snoc, events_snoc, List.mem_append, List.mem_append, h.gone n hn, mem_destroyed tr hn]
  mocks m := by rw [events_snoc, events_snoc, List.mem_append, List.mem_append, h.mocks m, mem_mock]
  kind s st := by
    have := h.kind s st
    unfold Trace.kind at this ⊢
    rw [events_snoc, events_snoc, List.mem_append, List.mem_append, this, mem_sequence]
  dropped s := by
    have := h.dropped s
    simp only [List.mem_append, exists_or, this, List.mem_singleton, Prod.mk.injEq]
    apply or_congr Iff.rfl
    cases o <;> simp only [op, Option.some.injEq] at ho <;> try (subst ho; simp)
    split at ho
    · cases ho
    · cases ho; simp

theorem Same.skip {e : Nat} {tr T : Trace α} (h : Same e tr T) {o : Op α} {ev : List Event} (h1 : ∀ n, n ≠ e → declStep n o ev = none)
    (h2 : ∀ n, Event.fullMatch n ∉ ev) (h3 : ∀ n, n ≠ e → Event.destroyed n ∉ ev) (h4 : ∀ m, Event.mockCreated m ∉ ev)
    (h5 : ∀ s st, Event.sequenceCreated s st ∉ ev) (h6 : ∀ s, o ≠ .dropSequence s) : Same e (tr ++ [(o, ev)]) T where
  decl n hn := by rw [decl_snoc_none (h1 n hn), h.decl n hn]
  matched n hn := by rw [matched_snoc, h.matched n hn, List.count_eq_zero_of_not_mem (h2 n), Nat.add_zero]
  gone n hn := by rw [events_snoc, List.mem_append, h.gone n hn]; simp [h3 n hn]
  mocks m := by rw [events_snoc, List.mem_append, h.mocks m]; simp [h4 m]
  kind s st := by
    have := h.kind s st
    unfold Trace.kind at this ⊢
    rw [events_snoc, List.mem_append, this]
    simp [h5 s st]
  dropped s := by
    rw [h.dropped s]
    simp only [List.mem_append, exists_or, List.mem_singleton, Prod.mk.injEq]
    simp [Ne.symm (h6 s)]

/-! ## The words of the rules -/

section Words

variable {e : Nat} {tr T : Trace α} (h : Same e tr T)

include h

theorem Same.live {n : Nat} (hn : n ≠ e) : T.live (down e n) ↔ tr.live n := by
  unfold Trace.live
  rw [h.decl n hn, h.gone n hn]

theorem Same.attached {n : Nat} (hn : n ≠ e) (s : Nat) : T.attached (down e n) s ↔ tr.attached n s := by
  unfold Trace.attached
  rw [h.decl n hn]

theorem Same.handle (s : Nat) : T.handle s ↔ tr.handle s := by
  unfold Trace.handle
  have := h.dropped s
  simp only [h.kind]
  grind

theorem Same.tooFew {n : Nat} (hn : n ≠ e) : T.tooFew (down e n) ↔ tr.tooFew n := by
  unfold Trace.tooFew
  rw [h.decl n hn, h.matched n hn]

theorem Same.accepts (m : Nat) (a : α) {n : Nat} (hn : n ≠ e) : T.accepts m a (down e n) ↔ tr.accepts m a n := by
  unfold Trace.accepts
  rw [h.live hn, h.decl n hn]

theorem Same.throws (m : Nat) (a : α) {n : Nat} (hn : n ≠ e) : T.throws m a (down e n) ↔ tr.throws m a n := by
  unfold Trace.throws
  rw [h.live hn, h.decl n hn]

theorem Same.turn (hf : ∀ s, tr.attached e s → ¬ tr.tooFew e) (hz : tr.matched e = 0) {n : Nat} (hn : n ≠ e) (s : Nat) :
    T.turn (down e n) s ↔ tr.turn n s := by
  unfold Trace.turn
  rw [forall_down (e := e), forall_down (e := e) (P := fun e' => down e n < e' → T.attached e' s → T.matched e' = 0)]
  constructor
  · rintro ⟨h1, h2⟩
    constructor
    · intro k hk ha
      by_cases hke : k = e
      · subst hke
        exact hf s ha
      · rw [← h.tooFew hke]
        exact h1 k hke ((down_lt hke hn).2 hk) ((h.attached hke s).2 ha)
    · intro k hk ha
      by_cases hke : k = e
      · subst hke
        exact hz
      · rw [← h.matched k hke]
        exact h2 k hke ((down_lt hn hke).2 hk) ((h.attached hke s).2 ha)
  · rintro ⟨h1, h2⟩
    constructor
    · intro k hke hk ha
      rw [h.tooFew hke]
      exact h1 k ((down_lt hke hn).1 hk) ((h.attached hke s).1 ha)
    · intro k hke hk ha
      rw [h.matched k hke]
      exact h2 k ((down_lt hn hke).1 hk) ((h.attached hke s).1 ha)

theorem Same.candidate (hf : ∀ s, tr.attached e s → ¬ tr.tooFew e) (hz : tr.matched e = 0) (m : Nat) (a : α) {n : Nat} (hn : n ≠ e) :
    T.candidate m a (down e n) ↔ tr.candidate m a n := by
  unfold Trace.candidate Trace.applicable
  rw [h.accepts m a hn, h.decl n hn, h.matched n hn]
  simp only [h.attached hn, h.turn hf hz hn]

theorem Same.kindCount (ss : List Nat) (st : Strategy) : T.kindCount ss st = tr.kindCount ss st := by
  unfold Trace.kindCount
  congr 1
  funext s
  have := h.kind s st
  unfold Trace.kind at this
  simp only [this]

theorem Same.givesWay {n k : Nat} (hn : n ≠ e) (hk : k ≠ e) : T.givesWay (down e n) (down e k) ↔ tr.givesWay n k := by
  unfold Trace.givesWay
  simp only [h.decl n hn, h.attached hk, h.kindCount]

theorem Same.chosen {x r : Nat} {ys : List Nat} (hx : ∀ z ∈ x :: ys, z ≠ e) (hc : tr.Chosen x ys r) :
    T.Chosen (down e x) (ys.map (down e)) (down e r) := by
  induction hc with
  | done x => exact .done _
  | @move x y r ys hw _ ih =>
    exact .move ((h.givesWay (hx x (by simp)) (hx y (by simp))).2 hw) (ih (fun z hz => hx z (by grind)))
  | @stay x y r ys hw _ ih =>
    exact .stay (fun hw' => hw ((h.givesWay (hx x (by simp)) (hx y (by simp))).1 hw')) (ih (fun z hz => hx z (by grind)))

theorem Same.chosen_back {x r : Nat} {ys : List Nat} (hc : T.Chosen x ys r) : tr.Chosen (up e x) (ys.map (up e)) (up e r) := by
  have hg : ∀ n k, T.givesWay n k ↔ tr.givesWay (up e n) (up e k) := fun n k => by
    have := h.givesWay (up_ne e n) (up_ne e k)
    rwa [down_up, down_up] at this
  induction hc with
  | done x => exact .done _
  | move hw _ ih => exact .move ((hg _ _).1 hw) ih
  | stay hw _ ih => exact .stay (fun hw' => hw ((hg _ _).2 hw')) ih

theorem Same.dissatisfied {n : Nat} (hn : n ≠ e) : dissatisfied T (down e n) ↔ dissatisfied tr n := by
  unfold Whole.dissatisfied
  rw [h.decl n hn]

theorem Same.endOf (hm : ∀ s, OldestFirst (fun n => tr.attached n s) (members tr s)) (hf : ∀ s, tr.attached e s → ¬ tr.tooFew e) {s : Nat}
    {ev : List Event} (he : EndOf tr s ev) : EndOf T s (ev.filterMap (event tr e)) := by
  cases he with
  | fine h1 =>
    refine .fine ?_
    rw [forall_down (e := e)]
    intro n hn ha
    rw [h.tooFew hn]
    exact h1 n ((h.attached hn s).1 ha)
  | @missing es k f h1 h2 h3 h4 =>
    have hes : members tr s = es := oldestFirst_unique (hm s) h1
    have hfe : f ≠ e := by
      rintro rfl
      exact hf s ((h1.2 f).1 (List.mem_of_getElem? h2)) h3
    obtain ⟨g1, g2⟩ := thin_at h2 hfe
    have hthin := oldest_thin h1 (Q := fun n => T.attached n s) (fun n hn => h.attached hn s)
    have := EndOf.missing hthin g1 ((h.tooFew hfe).2 h3) (by
      intro j g hj hg
      obtain ⟨i, n, hi, hn, hne, rfl⟩ := g2 j g hj hg
      rw [h.tooFew hne]
      exact h4 i n hi hn)
    rw [thin_length] at this
    simpa [event, Unused.event, hes] using this

theorem Same.ends (hm : ∀ s, OldestFirst (fun n => tr.attached n s) (members tr s)) (hf : ∀ s, tr.attached e s → ¬ tr.tooFew e)
    {kept kept' : Nat → Prop} {ss : List Nat} {evs : List Event} (he : Ends tr kept ss evs) (hk : ∀ s ∈ ss, kept' s ↔ kept s) :
    Ends T kept' ss (evs.filterMap (event tr e)) := by
  induction he with
  | nil => exact .nil
  | keep h1 _ ih => exact .keep ((hk _ (by simp)).2 h1) (ih (fun s hs => hk s (by simp [hs])))
  | gone h1 h2 _ ih =>
    rw [List.filterMap_append]
    exact .gone (fun hk' => h1 ((hk _ (by simp)).1 hk')) (h.endOf hm hf h2) (ih (fun s hs => hk s (by simp [hs])))

theorem Same.outcome (hf : ∀ s, tr.attached e s → ¬ tr.tooFew e) (hz : tr.matched e = 0) {m : Nat} {a : α} {last : Event}
    (ho : Whole.Outcome tr m a last)
    (hp : tr.candidate m a e → ∃ x older r, YoungestFirst (fun n => n ≠ e ∧ tr.candidate m a n) (x :: older) ∧ tr.Chosen x older r ∧
      last = .fullMatch r)
    (hi : ∀ ns, last = .inapplicable ns → ∃ n ∈ ns, n ≠ e) :
    (∃ last', event tr e last = some last' ∧ Whole.Outcome T m a last') ∧ last ≠ .fullMatch e := by
  cases ho with
  | @resolved x r older h1 h2 =>
    have hother : ∃ x' older', YoungestFirst (fun n => n ≠ e ∧ tr.candidate m a n) (x' :: older') ∧ tr.Chosen x' older' r := by
      by_cases hc : tr.candidate m a e
      · obtain ⟨x', older', r', g1, g2, g3⟩ := hp hc
        cases g3
        exact ⟨x', older', g1, g2⟩
      · refine ⟨x, older, ⟨h1.1, fun n => ?_⟩, h2⟩
        rw [h1.2 n]
        exact ⟨fun hn => ⟨fun hne => hc (hne ▸ hn), hn⟩, fun hn => hn.2⟩
    obtain ⟨x', older', g1, g2⟩ := hother
    have hne : ∀ z ∈ x' :: older', z ≠ e := fun z hz => ((g1.2 z).1 hz).1
    have hr : r ≠ e := hne r (chosen_mem g2)
    have hy := youngest_thin g1 (e := e) (Q := T.candidate m a) (fun n hn => by rw [h.candidate hf hz m a hn]; simp [hn])
    rw [thin_all hne] at hy
    exact ⟨⟨_, by simp [event, Unused.event, hr], .resolved hy (h.chosen hne g2)⟩, by simp [hr]⟩
  | @inapplicable x es h1 h2 =>
    refine ⟨⟨.inapplicable (thin e (x :: es)), rfl, ?_⟩, by simp⟩
    have hy := youngest_thin h2 (Q := T.accepts m a) (fun n hn => h.accepts m a hn)
    obtain ⟨n, hn, hne⟩ := hi _ rfl
    have hne' : thin e (x :: es) ≠ [] := by
      intro h0
      have := (mem_thin hne (x :: es)).2 hn
      rw [h0] at this
      cases this
    cases ht : thin e (x :: es) with
    | nil => exact absurd ht hne'
    | cons y ys =>
      rw [ht] at hy
      refine .inapplicable ?_ hy
      rw [forall_down (e := e)]
      intro n hn
      rw [h.candidate hf hz m a hn]
      exact h1 n
  | @noMatch es h1 h2 =>
    refine ⟨⟨.noMatch (thin e es), rfl, .noMatch ?_ ?_⟩, by simp⟩
    · rw [forall_down (e := e)]
      intro n hn
      rw [h.accepts m a hn]
      exact h1 n
    · refine youngest_thin h2 (fun n hn => ?_)
      rw [h.live hn, h.decl n hn, h.throws m a hn]

end Words

/-! ## Numbers -/

theorem EndOf.plain {tr : Trace α} {s : Nat} {ev : List Event} (h : EndOf tr s ev) :
    ∀ x ∈ ev, (∃ k n, x = .sequenceError s k n) ∨ x = .sequenceDestroyed s := by
  cases h with
  | fine => intro x hx; right; simpa using hx
  | missing =>
    intro x hx
    simp only [List.mem_cons, List.not_mem_nil, or_false] at hx
    rcases hx with rfl | rfl
    · exact .inl ⟨_, _, rfl⟩
    · exact .inr rfl

theorem Ends.plain {tr : Trace α} {kept : Nat → Prop} {ss : List Nat} {evs : List Event} (h : Ends tr kept ss evs) :
    ∀ x ∈ evs, ∃ s, (∃ k n, x = .sequenceError s k n) ∨ x = .sequenceDestroyed s := by
  induction h with
  | nil => intro x hx; cases hx
  | keep _ _ ih => exact ih
  | gone _ h _ ih =>
    intro x hx
    rcases List.mem_append.mp hx with hx | hx
    · exact ⟨_, EndOf.plain h x hx⟩
    · exact ih x hx

theorem Ends.no_creation {tr : Trace α} {kept : Nat → Prop} {ss : List Nat} {evs : List Event} (h : Ends tr kept ss evs) :
    evs.filter isCreation = [] := by
  rw [List.filter_eq_nil_iff]
  intro x hx
  obtain ⟨s, ⟨k, n, rfl⟩ | rfl⟩ := Ends.plain h x hx <;> simp [isCreation]

theorem Outcome.no_creation {tr : Trace α} {m : Nat} {a : α} {x : Event} (h : Whole.Outcome tr m a x) : isCreation x = false := by
  cases h <;> rfl

theorem numbered_iff {tr : Trace α} {w : World α} (h : Reach tr w) : ∀ k, (∃ d, tr.decl k = some d) ↔ k < numbered tr := by
  induction h with
  | init => intro k; simp [Trace.decl, numbered, Trace.events]
  | @step tr w w' o ev hr hs ih =>
    intro k
    have hp := (prescribed_step hr hs).2.2
    unfold numbered at ih ⊢
    rw [events_snoc, List.filter_append, List.length_append]
    have plain : ev.filter isCreation = [] → (∀ k, declStep k o ev = none) →
        ((∃ d, Trace.decl (tr ++ [(o, ev)]) k = some d) ↔ k < (tr.events.filter isCreation).length + (ev.filter isCreation).length) := by
      intro h1 h2
      rw [decl_snoc_none (h2 k), h1, ih k]
      simp
    cases hp with
    | newSequence => exact plain rfl (fun _ => rfl)
    | newMock => exact plain rfl (fun _ => rfl)
    | @created m min max ss ps n _ _ _ hn =>
      have hlen : n = (tr.events.filter isCreation).length := nextNumber_unique hn (fun k => ih k)
      rw [decl_snoc]
      simp only [declStep, List.mem_singleton, Event.created.injEq, List.filter_cons, isCreation, ↓reduceIte, List.filter_nil, List.length_cons,
        List.length_nil]
      have := hn k
      have := ih k
      by_cases hk : k = n
      · subst hk
        have hnone : tr.decl k = none := by
          cases hd : tr.decl k with
          | none => rfl
          | some d => have := (hn k).1 ⟨d, hd⟩; omega
        simp only [hnone, ↓reduceIte, Option.none_or, Option.some.injEq, exists_eq', true_iff]
        omega
      · rw [if_neg hk, Option.or_none]
        have h1 := hn k
        dsimp only at h1
        rw [h1]
        omega
    | rejected => exact plain rfl (fun _ => by simp [declStep])
    | call h1 h2 =>
      refine plain ?_ (fun _ => rfl)
      rw [List.filter_append, List.filter_eq_nil_iff.mpr (by simp [isCreation]), List.filter_cons]
      simp [Outcome.no_creation h2]
    | drop h1 => exact plain (Ends.no_creation h1) (fun _ => rfl)
    | fulfilled h1 h2 h3 => exact plain (by simpa [isCreation] using Ends.no_creation h3) (fun _ => rfl)
    | unfulfilled h1 h2 h3 => exact plain (by simpa [isCreation] using Ends.no_creation h3) (fun _ => rfl)

theorem belongs_iff (tr : Trace α) (s n : Nat) : belongs tr s n = true ↔ tr.attached n s := by
  unfold belongs Trace.attached
  cases tr.decl n <;> simp

theorem members_oldest {tr : Trace α} {w : World α} (h : Reach tr w) (s : Nat) : OldestFirst (fun n => tr.attached n s) (members tr s) := by
  refine ⟨(List.pairwise_lt_range).filter _, ?_⟩
  intro n
  unfold members
  rw [List.mem_filter, List.mem_range, belongs_iff, ← numbered_iff h n]
  constructor
  · exact fun h => h.2
  · intro ha
    obtain ⟨d, hd, -⟩ := id ha
    exact ⟨⟨d, hd⟩, ha⟩

/-! ## All histories -/

theorem Same.capacity {e : Nat} {tr T : Trace α} {w : World α} (h : Same e tr T) (hr : Reach tr w) {s : Nat} (hc : T.atCapacity s) :
    tr.atCapacity s := by
  obtain ⟨es, he, hl⟩ := hc
  refine ⟨members tr s, members_oldest hr s, ?_⟩
  have := oldest_thin (members_oldest hr s) (Q := fun n => T.attached n s) (fun n hn => h.attached hn s)
  rw [oldestFirst_unique he this, thin_length] at hl
  exact Nat.lt_of_lt_of_le hl (List.length_filter_le _ _)

theorem Same.overflows {e : Nat} {tr T : Trace α} {w : World α} (h : Same e tr T) (hr : Reach tr w) {o o' : Op α} (ho : op e o = some o')
    (hn : ¬ tr.overflows o) : ¬ T.overflows o' := by
  cases o <;> simp only [op, Option.some.injEq] at ho <;> try (subst ho; exact hn)
  · subst ho
    rintro ⟨h1, h2, s, hs, hc⟩
    exact hn ⟨h1, h2, s, hs, h.capacity hr hc⟩
  · split at ho
    · cases ho
    · cases ho; exact id

theorem Same.valid {e : Nat} {tr T : Trace α} (h : Same e tr T) {o o' : Op α} (ho : op e o = some o') (hv : tr.valid o) : T.valid o' := by
  cases o <;> simp only [op, Option.some.injEq] at ho
  case destroy n =>
    split at ho
    · cases ho
    · rename_i hn
      cases ho
      exact (h.live hn).2 hv
  all_goals subst ho
  case expect =>
    obtain ⟨h1, h2, h3⟩ := hv
    exact ⟨(h.mocks _).2 h1, fun s hs => (h.handle s).2 (h2 s hs), h3⟩
  case dropSequence s => exact (h.handle s).2 hv
  case call => exact (h.mocks _).2 hv
  all_goals trivial

theorem thin_unhandled (tr : Trace α) (e : Nat) (us : List Nat) :
    (us.map Event.unhandled).filterMap (event tr e) = (thin e us).map Event.unhandled := by
  induction us with
  | nil => rfl
  | cons u us ih =>
    by_cases hu : u = e
    · subst hu
      rw [thin_same, List.map_cons, List.filterMap_cons_none (by simp [event, Unused.event]), ih]
    · rw [thin_cons hu, List.map_cons, List.map_cons, List.filterMap_cons_some (b := .unhandled (down e u)) (by simp [event, Unused.event, hu]), ih]

theorem next_down {e n : Nat} {P Q : Nat → Prop} (h : NextNumber P n) (hn : n ≠ e) (hpq : ∀ k, k ≠ e → (Q (down e k) ↔ P k)) :
    NextNumber Q (down e n) := by
  unfold NextNumber at *
  rw [forall_down (e := e)]
  intro k hk
  rw [hpq k hk, down_lt hk hn]
  exact h k

theorem Ends.nothing {tr : Trace α} {kept : Nat → Prop} {ss : List Nat} {evs : List Event} (h : Ends tr kept ss evs) (hk : ∀ s ∈ ss, kept s) :
    evs = [] := by
  induction h with
  | nil => rfl
  | keep _ _ ih => exact ih (fun s hs => hk s (by simp [hs]))
  | gone h1 => exact absurd (hk _ (by simp)) h1

/-- The sequences of another expectation end with it in both histories, or in none. -/
theorem Same.keepers {e : Nat} {tr T : Trace α} (h : Same e tr T) {n : Nat} (hn : n ≠ e) {ev : List Event}
    (hev : ∀ k, Event.destroyed k ∈ ev ↔ k = n) (hsc : ∀ s st, Event.sequenceCreated s st ∉ ev) (hk : NeverAlone (tr ++ [(Op.destroy n, ev)]) e) (s : Nat) :
    (T.handle s ∨ ∃ k, k ≠ down e n ∧ T.live k ∧ T.attached k s) ↔ (tr.handle s ∨ ∃ k, k ≠ n ∧ tr.live k ∧ tr.attached k s) := by
  rw [h.handle s, exists_down (e := e)]
  constructor
  · rintro (h1 | ⟨k, hke, hkn, h1, h2⟩)
    · exact .inl h1
    · exact .inr ⟨k, fun hh => hkn (by rw [hh]), (h.live hke).1 h1, (h.attached hke s).1 h2⟩
  · rintro (h1 | ⟨k, hkn, h1, h2⟩)
    · exact .inl h1
    · by_cases hke : k = e
      · subst hke
        have hdec : ∀ j, Trace.decl (tr ++ [(Op.destroy n, ev)]) j = tr.decl j := fun j => decl_snoc_none rfl
        have hlive : ∀ j, Trace.live (tr ++ [(Op.destroy n, ev)]) j ↔ tr.live j ∧ j ≠ n := by
          intro j
          unfold Trace.live
          rw [hdec, events_snoc, List.mem_append, hev j]
          grind
        have hatt : ∀ j, Trace.attached (tr ++ [(Op.destroy n, ev)]) j s ↔ tr.attached j s := by
          intro j
          unfold Trace.attached
          rw [hdec]
        rcases hk (tr ++ [(Op.destroy n, ev)]) [] (by simp) ((hlive k).2 ⟨h1, hkn⟩) s ((hatt k).2 h2) with h4 | ⟨j, hje, h5, h6⟩
        · left
          refine ⟨?_, fun ev' hm => h4.2 ev' (by simp [hm])⟩
          obtain ⟨st, hst⟩ := h4.1
          unfold Trace.kind at hst
          rw [events_snoc, List.mem_append] at hst
          exact ⟨st, hst.resolve_right (hsc s st)⟩
        · right
          have h7 := (hlive j).1 h5
          exact ⟨j, hje, fun hh => h7.2 ((down_inj hje hn).1 hh), (h.live hje).2 h7.1, (h.attached hje s).2 ((hatt j).1 h6)⟩
      · right
        exact ⟨k, hke, fun hh => hkn ((down_inj hke hn).1 hh), (h.live hke).2 h1, (h.attached hke s).2 h2⟩

theorem main {tr : Trace α} {w : World α} (h : Reach tr w) {e : Nat} (hd : ∀ d, tr.decl e = some d → d.seqs = [] ∨ d.min = 0)
    (hp : SameChoice tr e) (hk : NeverAlone tr e) (hi : NotAloneInapplicable tr e) :
    Lawful (without e tr) ∧ Same e tr (without e tr) ∧ tr.matched e = 0 := by
  induction h with
  | init => exact ⟨lawful_nil, Same.nil e, rfl⟩
  | @step tr w w' o ev hr hs ih =>
    obtain ⟨hv, hov, hpr⟩ := prescribed_step hr hs
    have hd0 : ∀ d, tr.decl e = some d → d.seqs = [] ∨ d.min = 0 := fun d hde => hd d (by rw [decl_snoc, hde]; rfl)
    obtain ⟨hl, hsame, hz⟩ := ih hd0 (fun pre m a ev' post htr => hp pre m a ev' (post ++ [(o, ev)]) (by rw [htr]; simp))
      (fun pre post htr => hk pre (post ++ [(o, ev)]) (by rw [htr]; simp))
      (fun ns hns => hi ns (by rw [events_snoc]; simp [hns]))
    have hm := members_oldest hr
    have hf : ∀ s, tr.attached e s → ¬ tr.tooFew e := by
      rintro s ⟨d, h1, h2⟩ ⟨d', h3, h4⟩
      rw [h1] at h3
      cases h3
      rcases hd0 d h1 with h5 | h5
      · rw [h5] at h2; cases h2
      · rw [h5] at h4; omega
    rw [without_snoc]
    -- an operation that stays
    have keep : ∀ {o' : Op α}, Event.created e ∉ ev → op e o = some o' → Event.fullMatch e ∉ ev →
        Prescribed (without e tr) o' (ev.filterMap (event tr e)) →
        Lawful (without e tr ++ left e tr (o, ev)) ∧ Same e (tr ++ [(o, ev)]) (without e tr ++ left e tr (o, ev)) ∧
          Trace.matched (tr ++ [(o, ev)]) e = 0 := by
      intro o' h1 h2 h3 h4
      have hleft : left e tr (o, ev) = [(o', ev.filterMap (event tr e))] := by simp [left, h1, h2]
      rw [hleft]
      refine ⟨lawful_snoc.mpr ⟨hl, hsame.valid h2 hv, hsame.overflows hr h2 hov, h4⟩, hsame.snoc h2, ?_⟩
      rw [matched_snoc, hz, List.count_eq_zero_of_not_mem h3]
    cases hpr with
    | @newSequence st n hn =>
      exact keep (by simp) rfl (by simp) (.newSequence (fun k => by simp only [hsame.kind]; exact hn k))
    | @newMock n hn => exact keep (by simp) rfl (by simp) (.newMock (fun k => by simp only [hsame.mocks]; exact hn k))
    | @created m min max ss ps n h1 h2 h3 hn =>
      by_cases hne : n = e
      · subst hne
        have hleft : left n tr (.expect m min max ss ps, [.created n]) = [] := by simp [left]
        rw [hleft, List.append_nil]
        refine ⟨hl, hsame.skip ?_ ?_ ?_ ?_ ?_ ?_, by rw [matched_snoc, hz]; simp⟩
        · intro k hk'; simp [declStep, hk']
        all_goals simp
      · refine keep (by simp [Ne.symm hne]) rfl (by simp) ?_
        have : [Event.created n].filterMap (event tr e) = [.created (down e n)] := by simp [event, Unused.event, hne]
        rw [this]
        exact .created h1 h2 h3 (next_down hn hne (fun k hk' => by rw [hsame.decl k hk']))
    | @rejected m min max ss ps h1 => exact keep (by simp) rfl (by simp) (.rejected h1)
    | @call m a us last h1 h2 =>
      obtain ⟨⟨last', h3, h4⟩, h5⟩ := hsame.outcome hf hz h2 (fun hc => by
          obtain ⟨x, older, r, g1, g2, g3⟩ := hp tr m a _ [] rfl hc
          exact ⟨x, older, r, g1, g2, by simpa [eq_comm] using g3⟩)
        (fun ns hns => hi ns (by rw [events_snoc]; simp [hns]))
      have hnc : Event.created e ∉ us.map Event.unhandled ++ [last] := by
        simp only [List.mem_append, List.mem_map, reduceCtorEq, and_false, exists_false, List.mem_singleton, false_or]
        rintro rfl
        cases h2
      refine keep hnc rfl (by simp [Ne.symm h5]) ?_
      rw [List.filterMap_append, thin_unhandled, List.filterMap_cons_some h3, List.filterMap_nil]
      exact .call (youngest_thin h1 (fun n hn => hsame.throws m a hn)) h4
    | @drop s _ h1 =>
      have hpl := Ends.plain h1
      refine keep (fun hc => by obtain ⟨_, ⟨_, _, h⟩ | h⟩ := hpl _ hc <;> cases h) rfl
        (fun hc => by obtain ⟨_, ⟨_, _, h⟩ | h⟩ := hpl _ hc <;> cases h) ?_
      refine .drop (hsame.ends hm hf h1 ?_)
      intro t ht
      simp only [List.mem_singleton] at ht
      subst ht
      rw [exists_down (e := e)]
      constructor
      · rintro ⟨n, hn, h2, h3⟩
        exact ⟨n, (hsame.live hn).1 h2, (hsame.attached hn t).1 h3⟩
      · rintro ⟨n, h2, h3⟩
        by_cases hn : n = e
        · subst hn
          have hdec : ∀ k, Trace.decl (tr ++ [(Op.dropSequence t, ev)]) k = tr.decl k := fun k => decl_snoc_none rfl
          have hlive : ∀ k, Trace.live (tr ++ [(Op.dropSequence t, ev)]) k ↔ tr.live k := by
            intro k
            unfold Trace.live
            rw [hdec, events_snoc, List.mem_append]
            have : Event.destroyed k ∉ ev := fun hc => by obtain ⟨_, ⟨_, _, h⟩ | h⟩ := hpl _ hc <;> cases h
            simp [this]
          have hatt : ∀ k, Trace.attached (tr ++ [(Op.dropSequence t, ev)]) k t ↔ tr.attached k t := by
            intro k
            unfold Trace.attached
            rw [hdec]
          rcases hk (tr ++ [(Op.dropSequence t, ev)]) [] (by simp) ((hlive n).2 h2) t ((hatt n).2 h3) with h4 | ⟨k, hke, h5, h6⟩
          · exact absurd (by simp) (h4.2 ev)
          · exact ⟨k, hke, (hsame.live hke).2 ((hlive k).1 h5), (hsame.attached hke t).2 ((hatt k).1 h6)⟩
        · exact ⟨n, hn, (hsame.live hn).2 h2, (hsame.attached hn t).2 h3⟩
    | @fulfilled n d evs h1 h2 h3 =>
      have hpl := Ends.plain h3
      by_cases hn : n = e
      · subst hn
        have h4 := Ends.nothing h3 (fun s hs' => hk tr [(Op.destroy n, .destroyed n :: evs)] rfl hv s ⟨d, h1, hs'⟩)
        subst h4
        have hleft : left n tr (Op.destroy n, [.destroyed n]) = [] := by simp [left, op]
        rw [hleft, List.append_nil]
        refine ⟨hl, hsame.skip (fun _ _ => rfl) ?_ ?_ ?_ ?_ ?_, by rw [matched_snoc, hz]; simp⟩ <;> simp
      · have hev : ∀ k, Event.destroyed k ∈ Event.destroyed n :: evs ↔ k = n := by
          intro k
          simp only [List.mem_cons, Event.destroyed.injEq, or_iff_left_iff_imp]
          intro hc
          obtain ⟨_, ⟨_, _, h⟩ | h⟩ := hpl _ hc <;> cases h
        refine keep (o' := .destroy (down e n)) ?_ (by simp [op, hn]) ?_ ?_
        · simp only [List.mem_cons, reduceCtorEq, false_or]
          intro hc
          obtain ⟨_, ⟨_, _, h⟩ | h⟩ := hpl _ hc <;> cases h
        · simp only [List.mem_cons, reduceCtorEq, false_or]
          intro hc
          obtain ⟨_, ⟨_, _, h⟩ | h⟩ := hpl _ hc <;> cases h
        · rw [List.filterMap_cons_some (b := .destroyed (down e n)) (by simp [event, Unused.event, hn])]
          refine .fulfilled (d := d) (by rw [hsame.decl n hn, h1]) (by rw [hsame.tooFew hn, hsame.dissatisfied hn]; exact h2) ?_
          exact hsame.ends hm hf h3 (fun s _ => hsame.keepers hn hev (fun s st => by
            simp only [List.mem_cons, reduceCtorEq, false_or]
            intro hc
            obtain ⟨_, ⟨_, _, h⟩ | h⟩ := hpl _ hc <;> cases h) hk s)
    | @unfulfilled n d evs h1 h2 h3 =>
      have hpl := Ends.plain h3
      by_cases hn : n = e
      · subst hn
        have h4 := Ends.nothing h3 (fun s hs' => hk tr [(Op.destroy n, .destroyed n :: .unfulfilled n :: evs)] rfl hv s ⟨d, h1, hs'⟩)
        subst h4
        have hleft : left n tr (Op.destroy n, [.destroyed n, .unfulfilled n]) = [] := by simp [left, op]
        rw [hleft, List.append_nil]
        refine ⟨hl, hsame.skip (fun _ _ => rfl) ?_ ?_ ?_ ?_ ?_, by rw [matched_snoc, hz]; simp⟩ <;> simp
      · have hev : ∀ k, Event.destroyed k ∈ Event.destroyed n :: .unfulfilled n :: evs ↔ k = n := by
          intro k
          simp only [List.mem_cons, Event.destroyed.injEq, or_iff_left_iff_imp, reduceCtorEq, false_or]
          intro hc
          obtain ⟨_, ⟨_, _, h⟩ | h⟩ := hpl _ hc <;> cases h
        refine keep (o' := .destroy (down e n)) ?_ (by simp [op, hn]) ?_ ?_
        · simp only [List.mem_cons, reduceCtorEq, false_or]
          intro hc
          obtain ⟨_, ⟨_, _, h⟩ | h⟩ := hpl _ hc <;> cases h
        · simp only [List.mem_cons, reduceCtorEq, false_or]
          intro hc
          obtain ⟨_, ⟨_, _, h⟩ | h⟩ := hpl _ hc <;> cases h
        · rw [List.filterMap_cons_some (b := .destroyed (down e n)) (by simp [event, Unused.event, hn]),
            List.filterMap_cons_some (b := .unfulfilled (down e n)) (by simp [event, Unused.event, hn])]
          refine .unfulfilled (d := d) (by rw [hsame.decl n hn, h1]) (by rw [hsame.tooFew hn, hsame.dissatisfied hn]; exact h2) ?_
          exact hsame.ends hm hf h3 (fun s _ => hsame.keepers hn hev (fun s st => by
            simp only [List.mem_cons, reduceCtorEq, false_or]
            intro hc
            obtain ⟨_, ⟨_, _, h⟩ | h⟩ := hpl _ hc <;> cases h) hk s)

/-! ## Sufficient conditions -/

theorem decl_split {tr : Trace α} {e : Nat} {d : Decl α} (h : tr.decl e = some d) :
    ∃ pre ev post, tr = pre ++ (Op.expect d.mock d.min d.max d.seqs d.policies, ev) :: post ∧ Event.created e ∈ ev := by
  induction tr with
  | nil => simp [Trace.decl] at h
  | cons st tr ih =>
    obtain ⟨o, ev⟩ := st
    unfold Trace.decl at h
    rw [List.findSome?_cons] at h
    split at h
    · rename_i d' hd'
      cases h
      cases o with
      | expect m min max ss ps =>
        simp only at hd'
        split at hd'
        · rename_i hc
          cases hd'
          exact ⟨[], ev, tr, rfl, hc⟩
        · cases hd'
      | _ => cases hd'
    · obtain ⟨pre, ev', post, h1, h2⟩ := ih h
      exact ⟨(o, ev) :: pre, ev', post, by rw [h1]; rfl, h2⟩

theorem decl_nodup {tr : Trace α} {w : World α} (h : Reach tr w) {e : Nat} {d : Decl α} (hd : tr.decl e = some d) : d.seqs.Nodup := by
  obtain ⟨pre, ev, post, htr, hc⟩ := decl_split hd
  have := (reach_lawful h pre _ ev post htr).2.2
  cases this with
  | created _ _ h3 => exact h3
  | rejected => simp at hc

/-- If `e` is looked at and nothing gives way to it, it makes no difference that it is there. -/
theorem chosen_skip {tr : Trace α} {e x r : Nat} {ys : List Nat} (hc : tr.Chosen x ys r) (hx : x ≠ e)
    (hp : (x :: ys).Pairwise (· > ·)) (hg : ∀ z ∈ x :: ys, e ∈ x :: ys → e < z → ¬ tr.givesWay z e) : tr.Chosen x (ys.filter (· ≠ e)) r := by
  induction hc with
  | done x => exact .done _
  | @move x y r ys hw _ ih =>
    have hxy : y < x := (List.pairwise_cons.mp hp).1 y (by simp)
    have hy : y ≠ e := by
      rintro rfl
      exact hg x (by simp) (by simp) hxy hw
    rw [List.filter_cons_of_pos (by simpa using hy)]
    exact .move hw (ih hy (List.pairwise_cons.mp hp).2 (fun z hz he => hg z (by grind) (by grind)))
  | @stay x y r ys hw _ ih =>
    have hp' : (x :: ys).Pairwise (· > ·) := by
      rw [List.pairwise_cons] at hp ⊢
      exact ⟨fun z hz => hp.1 z (by simp [hz]), (List.pairwise_cons.mp hp.2).2⟩
    have h1 := ih hx hp' (fun z hz he => hg z (by grind) (by grind))
    by_cases hy : y = e
    · rw [List.filter_cons_of_neg (by simpa using hy)]
      exact h1
    · rw [List.filter_cons_of_pos (by simpa using hy)]
      exact .stay hw h1

theorem youngest_others {P : Nat → Prop} {ns : List Nat} (e : Nat) (h : YoungestFirst P ns) :
    YoungestFirst (fun n => n ≠ e ∧ P n) (ns.filter (· ≠ e)) := by
  refine ⟨h.1.filter _, fun n => ?_⟩
  rw [List.mem_filter, h.2 n]
  simp [and_comm]

theorem candidate_resolved {tr : Trace α} {m : Nat} {a : α} {ev : List Event} {e : Nat} (h : Prescribed tr (.call m a) ev)
    (hc : tr.candidate m a e) : ∃ x older r, YoungestFirst (tr.candidate m a) (x :: older) ∧ tr.Chosen x older r ∧ Event.fullMatch r ∈ ev := by
  cases h with
  | call _ h2 =>
    cases h2 with
    | resolved h3 h4 => exact ⟨_, _, _, h3, h4, by simp⟩
    | inapplicable h3 => exact absurd hc (h3 e)
    | noMatch h3 => exact absurd hc.1 (h3 e)

theorem PassedOver.same {tr : Trace α} {e : Nat} (hl : Lawful tr) (hp : PassedOver tr e) : SameChoice tr e := by
  intro pre m a ev post htr hc
  obtain ⟨⟨y, hy, hcy⟩, hg⟩ := hp pre m a ev post htr hc
  obtain ⟨x, older, r, h1, h2, h3⟩ := candidate_resolved (hl pre _ ev post htr).2.2 hc
  have hx : x ≠ e := by
    rintro rfl
    have hm := (h1.2 y).2 hcy
    have := (List.pairwise_cons.mp h1.1).1
    simp only [List.mem_cons] at hm
    rcases hm with rfl | hm
    · omega
    · have := this y hm; omega
  refine ⟨x, older.filter (· ≠ e), r, ?_, chosen_skip h2 hx h1.1 (fun z hz he hez => hg z hez ((h1.2 z).1 hz)), h3⟩
  have := youngest_others e h1
  rwa [List.filter_cons_of_pos (by simpa using hx)] at this

theorem resolver_ne {tr : Trace α} {e : Nat} (hz : tr.matched e = 0) {pre post : Trace α} {o : Op α} {ev : List Event}
    (htr : tr = pre ++ (o, ev) :: post) {r : Nat} (h : Event.fullMatch r ∈ ev) : r ≠ e := by
  rintro rfl
  have : 0 < tr.matched r := by
    unfold Trace.matched
    rw [List.count_pos_iff, htr]
    simp only [Trace.events, List.flatMap_append, List.flatMap_cons, List.mem_append]
    exact .inr (.inl h)
  omega

theorem candidate_decl {tr : Trace α} {m : Nat} {a : α} {e : Nat} (h : tr.candidate m a e) : ∃ d, tr.decl e = some d := h.1.1.1

theorem kindCount_le {tr : Trace α} {st : Strategy} {xs ys : List Nat} (hx : xs.Nodup) (h : ∀ s ∈ xs, s ∈ ys) :
    tr.kindCount xs st ≤ tr.kindCount ys st := by
  unfold Trace.kindCount
  rw [List.countP_eq_length_filter, List.countP_eq_length_filter]
  refine List.Nodup.length_le_of_subset (hx.filter _) ?_
  intro s hs
  rw [List.mem_filter] at hs ⊢
  exact ⟨h s hs.1, hs.2⟩

/-- If all are attached to the same sequences, either none gives way, or each to all others. -/
theorem SameSequences.same {tr : Trace α} {w : World α} (h : Reach tr w) {e : Nat} (hz : tr.matched e = 0) (hs : SameSequences tr e) :
    SameChoice tr e := by
  intro pre m a ev post htr hc
  obtain ⟨x, older, r, h1, h2, h3⟩ := candidate_resolved (reach_lawful h pre _ ev post htr).2.2 hc
  have hre := resolver_ne hz htr h3
  have hlp : Lawful pre := lawful_prefix (post := (Op.call m a, ev) :: post) (htr ▸ reach_lawful h)
  obtain ⟨w0, hr0⟩ := lawful_reach hlp
  have hsame := hs pre m a ev post htr hc
  have hway : ∀ n k n' k', pre.candidate m a n → pre.candidate m a k → pre.candidate m a n' → pre.candidate m a k' →
      pre.givesWay n k → pre.givesWay n' k' := by
    rintro n k n' k' hn hk hn' hk' ⟨d, hd, g1, g2⟩
    obtain ⟨d', hd'⟩ := candidate_decl hn'
    have hsub : ∀ s, s ∈ d.seqs ↔ s ∈ d'.seqs := by
      intro s
      have q1 := hsame n hn s
      have q2 := hsame n' hn' s
      unfold Trace.attached at q1 q2
      rw [hd] at q1
      rw [hd'] at q2
      have r1 : s ∈ d.seqs ↔ pre.attached e s := by unfold Trace.attached; rw [← q1]; simp
      have r2 : s ∈ d'.seqs ↔ pre.attached e s := by unfold Trace.attached; rw [← q2]; simp
      rw [r1, r2]
    have n1 := decl_nodup hr0 hd
    have n2 := decl_nodup hr0 hd'
    refine ⟨d', hd', ?_, ?_⟩
    · intro s hs'
      exact (hsame k' hk' s).2 ((hsame n' hn' s).1 ⟨d', hd', hs'⟩)
    · have e1 := kindCount_le (tr := pre) (st := .greedy) n2 (fun s hs' => (hsub s).2 hs')
      have e2 := kindCount_le (tr := pre) (st := .lazy) n1 (fun s hs' => (hsub s).1 hs')
      omega
  have hcand : ∀ z ∈ x :: older, pre.candidate m a z := fun z hz' => (h1.2 z).1 hz'
  have hy := youngest_others e h1
  by_cases hg : pre.givesWay e e
  · -- the oldest one is chosen
    have hall : ∀ n k, pre.candidate m a n → pre.candidate m a k → pre.givesWay n k := fun n k hn hk => hway e e n k hc hc hn hk hg
    have last : ∀ (ys : List Nat) (y : Nat), (∀ z ∈ y :: ys, pre.candidate m a z) → ∀ r', pre.Chosen y ys r' → (y :: ys).getLast? = some r' := by
      intro ys
      induction ys with
      | nil => intro y _ r' hc'; cases hc'; rfl
      | cons z ys ih =>
        intro y hyz r' hc'
        rw [List.getLast?_cons_cons]
        cases hc' with
        | move _ h4 => exact ih z (fun q hq => hyz q (by simp [hq])) r' h4
        | stay h4 => exact absurd (hall y z (hyz y (by simp)) (hyz z (by simp))) h4
    have last' : ∀ (ys : List Nat) (y : Nat), (∀ z ∈ y :: ys, pre.candidate m a z) → ∀ r', (y :: ys).getLast? = some r' → pre.Chosen y ys r' := by
      intro ys
      induction ys with
      | nil => intro y _ r' hc'; simp at hc'; subst hc'; exact .done _
      | cons z ys ih =>
        intro y hyz r' hc'
        rw [List.getLast?_cons_cons] at hc'
        exact .move (hall y z (hyz y (by simp)) (hyz z (by simp))) (ih z (fun q hq => hyz q (by simp [hq])) r' hc')
    have hl := last older x hcand r h2
    have hl' : ((x :: older).filter (· ≠ e)).getLast? = some r := by
      obtain ⟨q, hq⟩ := List.getLast?_eq_some_iff.mp hl
      rw [hq, List.filter_append, List.filter_cons_of_pos (by simpa using hre)]
      simp
    cases hf : (x :: older).filter (· ≠ e) with
    | nil => rw [hf] at hl'; cases hl'
    | cons y ys =>
      rw [hf] at hl' hy
      exact ⟨y, ys, r, hy, last' ys y (fun z hz' => ((hy.2 z).1 hz').2) r hl', h3⟩
  · -- the youngest one is chosen
    have hno : ∀ n k, pre.candidate m a n → pre.candidate m a k → ¬ pre.givesWay n k := fun n k hn hk hw => hg (hway n k e e hn hk hc hc hw)
    have first : ∀ (ys : List Nat) (y : Nat), (∀ z ∈ y :: ys, pre.candidate m a z) → ∀ r', pre.Chosen y ys r' → r' = y := by
      intro ys
      induction ys with
      | nil => intro y _ r' hc'; cases hc'; rfl
      | cons z ys ih =>
        intro y hyz r' hc'
        cases hc' with
        | move h4 => exact absurd h4 (hno y z (hyz y (by simp)) (hyz z (by simp)))
        | stay _ h4 => exact ih y (fun q hq => hyz q (by grind)) r' h4
    have hrx := first older x hcand r h2
    subst hrx
    rw [List.filter_cons_of_pos (by simpa using hre)] at hy
    exact ⟨r, older.filter (· ≠ e), r, hy, chosen_skip h2 hre h1.1 (fun z hz' he _ => hno z e (hcand z hz') hc), h3⟩

/-! ## Necessary conditions -/

/-- At the moment, `e` is not the only one to keep a sequence in existence. -/
def NotAlone (tr : Trace α) (e : Nat) : Prop := tr.live e → ∀ s, tr.attached e s → tr.handle s ∨ ∃ e', e' ≠ e ∧ tr.live e' ∧ tr.attached e' s

theorem handle_snoc {tr : Trace α} {o : Op α} {ev : List Event} {s : Nat} (h : tr.handle s) (ho : o ≠ .dropSequence s) :
    Trace.handle (tr ++ [(o, ev)]) s := by
  obtain ⟨⟨st, h1⟩, h2⟩ := h
  refine ⟨⟨st, ?_⟩, ?_⟩
  · unfold Trace.kind at h1 ⊢
    rw [events_snoc, List.mem_append]
    exact .inl h1
  · intro ev' hm
    rcases List.mem_append.mp hm with hm | hm
    · exact h2 ev' hm
    · simp only [List.mem_singleton, Prod.mk.injEq] at hm
      exact ho hm.1.symm

theorem attached_snoc {tr : Trace α} {o : Op α} {ev : List Event} {n s : Nat} (h : tr.attached n s) : Trace.attached (tr ++ [(o, ev)]) n s := by
  obtain ⟨d, h1, h2⟩ := h
  exact ⟨d, by rw [decl_snoc, h1]; rfl, h2⟩

theorem live_snoc {tr : Trace α} {o : Op α} {ev : List Event} {n : Nat} (h : tr.live n) (hd : Event.destroyed n ∉ ev) :
    Trace.live (tr ++ [(o, ev)]) n := by
  obtain ⟨⟨d, h1⟩, h2⟩ := h
  refine ⟨⟨d, by rw [decl_snoc, h1]; rfl⟩, ?_⟩
  rw [events_snoc, List.mem_append]
  rintro (h | h)
  · exact h2 h
  · exact hd h

theorem live_of_snoc {tr : Trace α} {o : Op α} {ev : List Event} {n : Nat} (hd : declStep n o ev = none) (h : Trace.live (tr ++ [(o, ev)]) n) :
    tr.live n := by
  obtain ⟨⟨d, h1⟩, h2⟩ := h
  rw [decl_snoc_none hd] at h1
  refine ⟨⟨d, h1⟩, fun h => h2 ?_⟩
  rw [events_snoc, List.mem_append]
  exact .inl h

theorem attached_of_snoc {tr : Trace α} {o : Op α} {ev : List Event} {n s : Nat} (hd : declStep n o ev = none)
    (h : Trace.attached (tr ++ [(o, ev)]) n s) : tr.attached n s := by
  unfold Trace.attached at h ⊢
  rwa [decl_snoc_none hd] at h

/-- An operation that ends nothing leaves nobody alone. -/
theorem NotAlone.snoc {tr : Trace α} {e : Nat} (h : NotAlone tr e) {o : Op α} {ev : List Event} (h1 : ∀ k, Event.destroyed k ∉ ev)
    (h2 : ∀ s, o ≠ .dropSequence s) (h3 : declStep e o ev = none) : NotAlone (tr ++ [(o, ev)]) e := by
  intro hl s ha
  rcases h (live_of_snoc h3 hl) s (attached_of_snoc h3 ha) with g | ⟨k, hk, g1, g2⟩
  · exact .inl (handle_snoc g (h2 s))
  · exact .inr ⟨k, hk, live_snoc g1 (h1 k), attached_snoc g2⟩

theorem EndOf.mem {tr : Trace α} {s : Nat} {ev : List Event} (h : EndOf tr s ev) : Event.sequenceDestroyed s ∈ ev := by
  cases h <;> simp

theorem Ends.mem {tr : Trace α} {kept : Nat → Prop} {ss : List Nat} {evs : List Event} (h : Ends tr kept ss evs) {s : Nat} :
    Event.sequenceDestroyed s ∈ evs ↔ s ∈ ss ∧ ¬ kept s := by
  induction h with
  | nil => simp
  | @keep t ss evs hk _ ih =>
    rw [ih, List.mem_cons]
    constructor
    · exact fun h => ⟨.inr h.1, h.2⟩
    · rintro ⟨rfl | h1, h2⟩
      · exact absurd hk h2
      · exact ⟨h1, h2⟩
  | @gone t ss ev evs hk he _ ih =>
    rw [List.mem_append, ih, List.mem_cons]
    constructor
    · rintro (h1 | h1)
      · rcases EndOf.plain he _ h1 with ⟨_, _, h2⟩ | h2
        · cases h2
        · cases h2; exact ⟨.inl rfl, hk⟩
      · exact ⟨.inr h1.1, h1.2⟩
    · rintro ⟨rfl | h1, h2⟩
      · exact .inl (EndOf.mem he)
      · exact .inr ⟨h1, h2⟩

theorem destroyed_event (tr : Trace α) (e s : Nat) (ev : List Event) :
    Event.sequenceDestroyed s ∈ ev.filterMap (event tr e) ↔ Event.sequenceDestroyed s ∈ ev := by
  rw [List.mem_filterMap]
  constructor
  · rintro ⟨x, hx, h⟩
    cases x with
    | sequenceDestroyed t => simp only [event, Unused.event, Option.some.injEq] at h; cases h; exact hx
    | created n => simp only [event, Unused.event] at h; split at h <;> cases h
    | destroyed n => simp only [event, Unused.event] at h; split at h <;> cases h
    | unfulfilled n => simp only [event, Unused.event] at h; split at h <;> cases h
    | unhandled n => simp only [event, Unused.event] at h; split at h <;> cases h
    | fullMatch n => simp only [event, Unused.event] at h; split at h <;> cases h
    | _ => cases h
  · intro h
    exact ⟨_, h, rfl⟩

theorem youngest_up {e : Nat} {P Q : Nat → Prop} {ns : List Nat} (h : YoungestFirst Q ns) (hpq : ∀ n, n ≠ e → (Q (down e n) ↔ P n)) :
    YoungestFirst (fun n => n ≠ e ∧ P n) (ns.map (up e)) := by
  refine ⟨?_, ?_⟩
  · rw [List.pairwise_map]
    exact h.1.imp (fun hab => up_lt.2 hab)
  · intro n
    rw [List.mem_map]
    constructor
    · rintro ⟨k, hk, rfl⟩
      refine ⟨up_ne e k, ?_⟩
      rw [← hpq _ (up_ne e k), down_up]
      exact (h.2 k).1 hk
    · rintro ⟨hn, hp⟩
      exact ⟨down e n, (h.2 _).2 ((hpq n hn).2 hp), up_down hn⟩

theorem Prescribed.destroy {tr : Trace α} {n : Nat} {d : Decl α} {ev : List Event} (h : Prescribed tr (.destroy n) ev) (hd : tr.decl n = some d)
    (s : Nat) : Event.sequenceDestroyed s ∈ ev ↔ s ∈ d.seqs ∧ ¬ (tr.handle s ∨ ∃ k, k ≠ n ∧ tr.live k ∧ tr.attached k s) := by
  cases h with
  | fulfilled h1 _ h2 =>
    rw [hd] at h1
    cases h1
    simp [Ends.mem h2]
  | unfulfilled h1 _ h2 =>
    rw [hd] at h1
    cases h1
    simp [Ends.mem h2]

theorem NotAlone.destroy {e : Nat} {tr T : Trace α} (h : Same e tr T) (ha : NotAlone tr e) {n : Nat} (hn : n ≠ e) {d : Decl α}
    (hd : tr.decl n = some d) {ev : List Event} (hev : ∀ k, Event.destroyed k ∈ ev ↔ k = n) (hp : Prescribed tr (.destroy n) ev)
    (hp' : Prescribed T (.destroy (down e n)) (ev.filterMap (event tr e))) : NotAlone (tr ++ [(.destroy n, ev)]) e := by
  intro hl s hat
  have hl0 := live_of_snoc rfl hl
  have hat0 := attached_of_snoc rfl hat
  rcases ha hl0 s hat0 with g | ⟨k, hk, g1, g2⟩
  · exact .inl (handle_snoc g (by simp))
  · by_cases hkn : k = n
    · subst hkn
      have hs : s ∈ d.seqs := by
        obtain ⟨d', q1, q2⟩ := g2
        rw [hd] at q1
        cases q1
        exact q2
      have hno : Event.sequenceDestroyed s ∉ ev := by
        rw [Prescribed.destroy hp hd]
        exact fun hh => hh.2 (.inr ⟨e, Ne.symm hk, hl0, hat0⟩)
      rw [← destroyed_event tr e, Prescribed.destroy hp' ((h.decl k hk).trans hd)] at hno
      have : T.handle s ∨ ∃ j, j ≠ down e k ∧ T.live j ∧ T.attached j s := Classical.byContradiction (fun hh => hno ⟨hs, hh⟩)
      rcases this with g | g
      · exact .inl (handle_snoc ((h.handle s).1 g) (by simp))
      · obtain ⟨j, hj, p1, p2, p3⟩ := (exists_down (e := e)).1 g
        have hjk : j ≠ k := fun hh => p1 (by rw [hh])
        exact .inr ⟨j, hj, live_snoc ((h.live hj).1 p2) (fun hh => hjk ((hev j).1 hh)), attached_snoc ((h.attached hj s).1 p3)⟩
    · exact .inr ⟨k, hk, live_snoc g1 (fun hh => hkn ((hev k).1 hh)), attached_snoc g2⟩

theorem converse {tr : Trace α} {w : World α} (h : Reach tr w) {e : Nat} (hd : ∀ d, tr.decl e = some d → d.seqs = [] ∨ d.min = 0)
    (hz : tr.matched e = 0) (hl : Lawful (without e tr)) : SameChoice tr e ∧ NeverAlone tr e ∧ NotAloneInapplicable tr e := by
  induction h with
  | init =>
    refine ⟨fun pre m a ev post h => by cases pre <;> simp at h, ?_, fun ns h => by simp [Trace.events] at h⟩
    intro pre post h hv
    have : pre = [] := (List.append_eq_nil_iff.mp h.symm).1
    subst this
    obtain ⟨⟨d, hd⟩, -⟩ := hv
    simp [Trace.decl] at hd
  | @step tr w w' o ev hr hs ih =>
    obtain ⟨hv, hov, hpr⟩ := prescribed_step hr hs
    have hd0 : ∀ d, tr.decl e = some d → d.seqs = [] ∨ d.min = 0 := fun d hde => hd d (by rw [decl_snoc, hde]; rfl)
    have hz0 : tr.matched e = 0 := by rw [matched_snoc] at hz; omega
    have hze : Event.fullMatch e ∉ ev := by
      rw [matched_snoc] at hz
      have : ev.count (.fullMatch e) = 0 := by omega
      exact List.count_eq_zero.mp this
    rw [without_snoc] at hl
    obtain ⟨ic, ia, ii⟩ := ih hd0 hz0 (lawful_prefix hl)
    obtain ⟨-, hsame, -⟩ := main hr hd0 ic ia ii
    have hm := members_oldest hr
    have hf : ∀ s, tr.attached e s → ¬ tr.tooFew e := by
      rintro s ⟨d, h1, h2⟩ ⟨d', h3, h4⟩
      rw [h1] at h3
      cases h3
      rcases hd0 d h1 with h5 | h5
      · rw [h5] at h2; cases h2
      · rw [h5] at h4; omega
    have ia0 : NotAlone tr e := ia tr [] (by simp)
    have never : NotAlone (tr ++ [(o, ev)]) e → NeverAlone (tr ++ [(o, ev)]) e := by
      intro hna pre post htr
      rcases List.eq_nil_or_concat post with rfl | ⟨q, st, rfl⟩
      · rw [List.append_nil] at htr
        subst htr
        exact hna
      · rw [List.concat_eq_append, ← List.append_assoc] at htr
        have := (List.append_inj' htr rfl).1
        exact ia pre q this
    have choice : (∀ m a, o = .call m a → tr.candidate m a e → ∃ x older r, YoungestFirst (fun n => n ≠ e ∧ tr.candidate m a n) (x :: older) ∧
        tr.Chosen x older r ∧ Event.fullMatch r ∈ ev) → SameChoice (tr ++ [(o, ev)]) e := by
      intro hn pre m a ev' post htr
      rcases List.eq_nil_or_concat post with rfl | ⟨q, st, rfl⟩
      · have := List.append_inj' htr rfl
        simp only [List.cons.injEq, Prod.mk.injEq, and_true] at this
        obtain ⟨rfl, rfl, rfl⟩ := this
        exact hn m a rfl
      · rw [List.concat_eq_append] at htr
        have : pre ++ (Op.call m a, ev') :: (q ++ [st]) = (pre ++ (Op.call m a, ev') :: q) ++ [st] := by simp
        rw [this] at htr
        exact ic pre m a ev' q (List.append_inj' htr rfl).1
    have alone : (∀ ns, Event.inapplicable ns ∈ ev → ∃ n ∈ ns, n ≠ e) → NotAloneInapplicable (tr ++ [(o, ev)]) e := by
      intro hn ns hns
      rw [events_snoc, List.mem_append] at hns
      exact hns.elim (ii ns) (hn ns)
    -- the step in the history without `e`
    have other : ∀ {o' : Op α}, Event.created e ∉ ev → op e o = some o' → Prescribed (without e tr) o' (ev.filterMap (event tr e)) := by
      intro o' h1 h2
      have hleft : left e tr (o, ev) = [(o', ev.filterMap (event tr e))] := by simp [left, h1, h2]
      rw [hleft] at hl
      exact (lawful_snoc.mp hl).2.2.2
    cases hpr with
    | newSequence => exact ⟨choice (by simp), never (ia0.snoc (by simp) (by simp) rfl), alone (by simp)⟩
    | newMock => exact ⟨choice (by simp), never (ia0.snoc (by simp) (by simp) rfl), alone (by simp)⟩
    | rejected => exact ⟨choice (by simp), never (ia0.snoc (by simp) (by simp) (by simp [declStep])), alone (by simp)⟩
    | @created m min max ss ps n h1 h2 h3 hn =>
      refine ⟨choice (by simp), never ?_, alone (by simp)⟩
      by_cases hne : n = e
      · subst hne
        intro _ s ha
        left
        have hnone : tr.decl n = none := by
          cases hq : tr.decl n with
          | none => rfl
          | some d => have := (hn n).1 ⟨d, hq⟩; omega
        unfold Trace.attached at ha
        rw [decl_snoc, hnone] at ha
        simp only [declStep, List.mem_singleton, ↓reduceIte, Option.none_or, Option.some.injEq, exists_eq_left'] at ha
        exact handle_snoc (hv.2.1 s ha) (by simp)
      · exact ia0.snoc (by simp) (by simp) (by simp [declStep, Ne.symm hne])
    | @call m a us last h1 h2 =>
      have hnc : Event.created e ∉ us.map Event.unhandled ++ [last] := by
        simp only [List.mem_append, List.mem_map, reduceCtorEq, and_false, exists_false, List.mem_singleton, false_or]
        rintro rfl
        cases h2
      have hnd : ∀ k, Event.destroyed k ∉ us.map Event.unhandled ++ [last] := by
        intro k
        simp only [List.mem_append, List.mem_map, reduceCtorEq, and_false, exists_false, List.mem_singleton, false_or]
        rintro rfl
        cases h2
      have hp := other hnc (o' := .call m a) rfl
      rw [List.filterMap_append, thin_unhandled] at hp
      refine ⟨choice ?_, never (ia0.snoc hnd (by simp) rfl), alone ?_⟩
      · rintro m' a' heq hc
        cases heq
        cases h2 with
        | inapplicable g1 => exact absurd hc (g1 e)
        | noMatch g1 => exact absurd hc.1 (g1 e)
        | @resolved x r older g1 g2 =>
          have hre : r ≠ e := fun hh => hze (by simp [hh])
          rw [List.filterMap_cons_some (b := .fullMatch (down e r)) (by simp [event, Unused.event, hre]), List.filterMap_nil] at hp
          generalize hevs : (thin e us).map Event.unhandled ++ [Event.fullMatch (down e r)] = evs at hp
          cases hp with
          | @call _ _ us' last' p1 p2 =>
            have := List.append_inj' hevs rfl
            have hlast : Event.fullMatch (down e r) = last' := by simpa using this.2
            subst hlast
            cases p2 with
            | @resolved y _ ys q1 q2 =>
              refine ⟨up e y, ys.map (up e), r, ?_, ?_, by simp⟩
              · exact youngest_up (P := tr.candidate m a) q1 (fun n hn => hsame.candidate hf hz0 m a hn)
              · have := hsame.chosen_back q2
                rwa [up_down hre] at this
      · intro ns hns
        have hlast : last = .inapplicable ns := by simpa [eq_comm] using hns
        subst hlast
        rw [List.filterMap_cons_some (f := event tr e) (b := Event.inapplicable (thin e ns)) rfl, List.filterMap_nil] at hp
        generalize hevs : (thin e us).map Event.unhandled ++ [Event.inapplicable (thin e ns)] = evs at hp
        cases hp with
        | @call _ _ us' last' p1 p2 =>
          have := List.append_inj' hevs rfl
          have hl2 : Event.inapplicable (thin e ns) = last' := by simpa using this.2
          subst hl2
          generalize hthin : thin e ns = l at p2
          cases p2 with
          | @inapplicable y ys q1 q2 =>
            have hmem : y ∈ thin e ns := by rw [hthin]; simp
            unfold thin at hmem
            rw [List.mem_map] at hmem
            obtain ⟨n, hn, -⟩ := hmem
            rw [List.mem_filter] at hn
            exact ⟨n, hn.1, by simpa using hn.2⟩
    | @drop s _ h1 =>
      have hpl := Ends.plain h1
      have hp := other (o' := .dropSequence s) (fun hc => by obtain ⟨_, ⟨_, _, h⟩ | h⟩ := hpl _ hc <;> cases h) rfl
      refine ⟨choice (by simp), never ?_, alone (fun ns hc => by obtain ⟨_, ⟨_, _, h⟩ | h⟩ := hpl _ hc <;> cases h)⟩
      have hnd : ∀ k, Event.destroyed k ∉ ev := fun k hc => by obtain ⟨_, ⟨_, _, h⟩ | h⟩ := hpl _ hc <;> cases h
      intro hlive t ha
      have hlive0 := live_of_snoc rfl hlive
      have ha0 := attached_of_snoc rfl ha
      by_cases hts : t = s
      · subst hts
        right
        generalize hevs : ev.filterMap (event tr e) = evs at hp
        cases hp with
        | drop p1 =>
          have hno : Event.sequenceDestroyed t ∉ evs := by
            rw [← hevs, destroyed_event, Ends.mem h1]
            intro hh
            exact hh.2 ⟨e, hlive0, ha0⟩
          rw [Ends.mem p1] at hno
          simp only [List.mem_singleton, true_and, Classical.not_not] at hno
          obtain ⟨n, hn, g1, g2⟩ := (exists_down (e := e)).1 hno
          exact ⟨n, hn, live_snoc ((hsame.live hn).1 g1) (hnd n), attached_snoc ((hsame.attached hn t).1 g2)⟩
      · rcases ia0 hlive0 t ha0 with g | ⟨k, hk, g1, g2⟩
        · exact .inl (handle_snoc g (fun hh => hts (by cases hh; rfl)))
        · exact .inr ⟨k, hk, live_snoc g1 (hnd k), attached_snoc g2⟩
    | @fulfilled n d evs h1 h2 h3 =>
      have hpl := Ends.plain h3
      have hev : ∀ k, Event.destroyed k ∈ Event.destroyed n :: evs ↔ k = n := by
        intro k
        simp only [List.mem_cons, Event.destroyed.injEq, or_iff_left_iff_imp]
        intro hc
        obtain ⟨_, ⟨_, _, h⟩ | h⟩ := hpl _ hc <;> cases h
      refine ⟨choice (by simp), never ?_, alone ?_⟩
      · by_cases hn : n = e
        · subst hn
          intro hlive
          exact absurd (by rw [events_snoc]; simp) hlive.2
        · refine ia0.destroy hsame hn h1 hev (.fulfilled h1 h2 h3) (other ?_ (by simp [op, hn]))
          simp only [List.mem_cons, reduceCtorEq, false_or]
          intro hc
          obtain ⟨_, ⟨_, _, h⟩ | h⟩ := hpl _ hc <;> cases h
      · intro ns
        simp only [List.mem_cons, reduceCtorEq, false_or]
        intro hc
        obtain ⟨_, ⟨_, _, h⟩ | h⟩ := hpl _ hc <;> cases h
    | @unfulfilled n d evs h1 h2 h3 =>
      have hpl := Ends.plain h3
      have hev : ∀ k, Event.destroyed k ∈ Event.destroyed n :: .unfulfilled n :: evs ↔ k = n := by
        intro k
        simp only [List.mem_cons, Event.destroyed.injEq, or_iff_left_iff_imp, reduceCtorEq, false_or]
        intro hc
        obtain ⟨_, ⟨_, _, h⟩ | h⟩ := hpl _ hc <;> cases h
      refine ⟨choice (by simp), never ?_, alone ?_⟩
      · by_cases hn : n = e
        · subst hn
          intro hlive
          exact absurd (by rw [events_snoc]; simp) hlive.2
        · refine ia0.destroy hsame hn h1 hev (.unfulfilled h1 h2 h3) (other ?_ (by simp [op, hn]))
          simp only [List.mem_cons, reduceCtorEq, false_or]
          intro hc
          obtain ⟨_, ⟨_, _, h⟩ | h⟩ := hpl _ hc <;> cases h
      · intro ns
        simp only [List.mem_cons, reduceCtorEq, false_or]
        intro hc
        obtain ⟨_, ⟨_, _, h⟩ | h⟩ := hpl _ hc <;> cases h

end Mimic.Bystander
