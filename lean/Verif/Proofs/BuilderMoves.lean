import Verif.Spec.BuilderMoves
import Verif.Proofs.Builders

/-! # Proofs: builders that are moved -/

set_option autoImplicit false

namespace Mimic.BuilderMoves

variable {α φ : Type}

/-- The states of the tests without and with the move. The object that was moved from exists if `live`. -/
structure Moved (b n : Nat) (live : Bool) (bw bw' : BWorld α φ) : Prop where
  w : bw'.w = bw.w
  objs : bw'.objs = bw.objs
  len : bw'.builders.length = bw.builders.length + 1
  lt : b < n
  le : n ≤ bw.builders.length
  shell : bw'.builders[b]? = some ⟨none, [], live⟩
  cells : ∀ i, bw'.builders[number b n i]? = bw.builders[i]?

variable {b n : Nat} {live : Bool} {bw bw' : BWorld α φ}

theorem number_ne (h : b < n) (i : Nat) : number b n i ≠ b := by unfold number; grind

theorem number_inj {i j : Nat} (hb : b < n) (h : number b n i = number b n j) : i = j := by unfold number at h; grind

theorem number_onto {j : Nat} (hb : b < n) (h : j ≠ b) : ∃ i, number b n i = j := by
  by_cases h1 : j < n
  · exact ⟨j, by unfold number; grind⟩
  · by_cases h2 : j = n
    · exact ⟨b, by unfold number; grind⟩
    · exact ⟨j - 1, by unfold number; grind⟩

theorem Moved.object (h : Moved b n live bw bw') (s : Nat) : bw'.object s = bw.object s := by
  unfold BWorld.object; rw [h.objs]

theorem Moved.clientRef (h : Moved b n live bw bw') (s : Nat) : bw'.clientRef s = bw.clientRef s := by
  unfold BWorld.clientRef
  rw [h.object]
  congr 1
  rw [Bool.eq_iff_iff, List.any_eq_true, List.any_eq_true]
  constructor
  · rintro ⟨c, hc, hp⟩
    obtain ⟨j, hj⟩ := List.mem_iff_getElem?.mp hc
    by_cases hjb : j = b
    · subst hjb
      rw [h.shell] at hj
      cases hj
      simp at hp
    · obtain ⟨i, rfl⟩ := number_onto h.lt hjb
      rw [h.cells] at hj
      exact ⟨c, List.mem_iff_getElem?.mpr ⟨i, hj⟩, hp⟩
  · rintro ⟨c, hc, hp⟩
    obtain ⟨i, hi⟩ := List.mem_iff_getElem?.mp hc
    rw [← h.cells] at hi
    exact ⟨c, List.mem_iff_getElem?.mpr ⟨_, hi⟩, hp⟩

theorem Moved.usable (h : Moved b n live bw bw') (item : Item α φ) : bw'.usable item = bw.usable item := by
  cases item <;> simp only [BWorld.usable]
  congr 1
  funext s
  exact h.object s

theorem Moved.world (h : Moved b n live bw bw') (w : World α) : Moved b n live { bw with w := w } { bw' with w := w } :=
  ⟨rfl, h.objs, h.len, h.lt, h.le, h.shell, h.cells⟩

theorem Moved.objects (h : Moved b n live bw bw') (o : List Bool) : Moved b n live { bw with objs := o } { bw' with objs := o } :=
  ⟨h.w, rfl, h.len, h.lt, h.le, h.shell, h.cells⟩

theorem Moved.set (h : Moved b n live bw bw') (i : Nat) (c : BCell α φ) :
    Moved b n live { bw with builders := bw.builders.set i c } { bw' with builders := bw'.builders.set (number b n i) c } := by
  refine ⟨h.w, h.objs, by simp [h.len], h.lt, by simp [h.le], ?_, fun j => ?_⟩
  · simp only
    rw [List.getElem?_set_ne (number_ne h.lt i)]
    exact h.shell
  · simp only
    by_cases hj : i = j
    · subst hj
      have := h.cells i
      rw [List.getElem?_set_self', List.getElem?_set_self', this]
    · rw [List.getElem?_set_ne hj, List.getElem?_set_ne (fun hn => hj (number_inj h.lt hn)), h.cells]

theorem Moved.push (h : Moved b n live bw bw') (c : BCell α φ) :
    Moved b n live { bw with builders := bw.builders ++ [c] } { bw' with builders := bw'.builders ++ [c] } := by
  have hlt := h.lt
  have hle := h.le
  have hlen := h.len
  refine ⟨h.w, h.objs, by simp [h.len], h.lt, by simp; omega, ?_, fun j => ?_⟩
  · simp only
    rw [List.getElem?_append_left (by omega)]
    exact h.shell
  · simp only
    by_cases hj : j < bw.builders.length
    · rw [List.getElem?_append_left (by unfold number; grind), List.getElem?_append_left hj, h.cells]
    · have hn : number b n j = j + 1 := by unfold number; grind
      rw [hn, List.getElem?_append_right (by omega), List.getElem?_append_right (by omega)]
      congr 1
      omega

/-- The two results of a step belong together. -/
def Both (b n : Nat) (live : Bool) : M (BWorld α φ × List Event) → M (BWorld α φ × List Event) → Prop
  | .ok (x, ev), r => ∃ x', r = .ok (x', ev) ∧ Moved b n live x x'
  | .error e, r => r = .error e

theorem Moved.releaseRefs (ss : List Nat) : ∀ {bw bw' : BWorld α φ}, Moved b n live bw bw' → Both b n live (bw.releaseRefs ss) (bw'.releaseRefs ss) := by
  induction ss with
  | nil => intro bw bw' h; exact ⟨_, rfl, h⟩
  | cons s ss ih =>
    intro bw bw' h
    simp only [BWorld.releaseRefs, h.clientRef, h.w]
    split
    · exact ih h
    · cases hw : bw.w.step (.dropSequence s) with
      | error e => rfl
      | ok p =>
        have := ih (h.world p.1)
        simp only [bind, Except.bind]
        cases hr : BWorld.releaseRefs { bw with w := p.1 } ss with
        | error e => rw [hr] at this; simp only [Both] at this; rw [this]; rfl
        | ok q =>
          rw [hr] at this
          obtain ⟨x', h1, h2⟩ := this
          rw [h1]
          exact ⟨_, rfl, h2⟩

theorem Moved.plain (h : Moved b n live bw bw') (op : Op α) : Both b n live (bw.plain op) (bw'.plain op) := by
  simp only [BWorld.plain, h.w]
  cases hw : bw.w.step op with
  | error e => rfl
  | ok p => exact ⟨_, rfl, h.world p.1⟩

theorem Moved.step (h : Moved b n live bw bw') (op : BOp α φ) : Both b n live (bw.step op) (bw'.step (renamed b n op)) := by
  cases op with
  | newSequence st =>
    simp only [BWorld.step, renamed, h.w, h.objs]
    cases hw : bw.w.step (.newSequence st) with
    | error e => rfl
    | ok p => exact ⟨_, rfl, (h.world p.1).objects _⟩
  | dropObject s =>
    simp only [BWorld.step, renamed, h.object, h.objs]
    split
    · exact Moved.releaseRefs _ (h.objects _)
    · rfl
  | newMock => exact h.plain _
  | call m a => exact h.plain _
  | destroy e => exact h.plain _
  | beginExpect m rv args =>
    simp only [BWorld.step, renamed, h.w]
    split
    · exact ⟨_, rfl, by have := h.push ⟨some (.start m rv args), [], true⟩; rwa [h.w] at this⟩
    · rfl
  | extend i item =>
    simp only [BWorld.step, renamed, h.cells]
    split
    · rw [h.usable]
      split
      · split
        · exact ⟨_, rfl, h⟩
        · exact ⟨_, rfl, (h.set _ _).push _⟩
      · rfl
    · rfl
  | finalize i =>
    simp only [BWorld.step, renamed, h.cells, h.w]
    split
    · split
      · next x refs _ _ =>
        cases hw : bw.w.step (.expect x.coll x.times.min x.times.max x.seqs x.policies) with
        | error e => rfl
        | ok p => exact ⟨_, rfl, (h.set _ _).world p.1⟩
      · rfl
    · rfl
  | dropBuilder i =>
    simp only [BWorld.step, renamed, h.cells]
    split
    · exact Moved.releaseRefs _ (h.set _ _)
    · rfl
  | moveBuilder i =>
    simp only [BWorld.step, renamed, h.cells]
    split
    · exact ⟨_, rfl, (h.set _ _).push _⟩
    · rfl

theorem Moved.start {x : Option (Builder α φ)} {refs : List Nat} (hb : bw.builders[b]? = some ⟨x, refs, true⟩) :
    Moved b bw.builders.length true bw { bw with builders := bw.builders.set b ⟨none, [], true⟩ ++ [⟨x, refs, true⟩] } := by
  have hlt : b < bw.builders.length := by
    rcases Nat.lt_or_ge b bw.builders.length with h | h
    · exact h
    · rw [List.getElem?_eq_none h] at hb; simp at hb
  refine ⟨rfl, rfl, by simp, hlt, Nat.le_refl _, ?_, fun i => ?_⟩
  · simp only
    rw [List.getElem?_append_left (by simpa using hlt), List.getElem?_set_self hlt]
  · simp only
    by_cases hi : i = b
    · subst hi
      rw [hb, show number i bw.builders.length i = bw.builders.length by simp [number], List.getElem?_append_right (by simp)]
      simp
    · by_cases hil : i < bw.builders.length
      · rw [show number b bw.builders.length i = i by unfold number; grind, List.getElem?_append_left (by simpa using hil),
          List.getElem?_set_ne (fun hn => hi hn.symm)]
      · rw [show number b bw.builders.length i = i + 1 by unfold number; grind, List.getElem?_eq_none (by simp; omega),
          List.getElem?_eq_none (by omega)]

/-- The object that was moved from ends. -/
theorem Moved.drop (h : Moved b n true bw bw') : ∃ x, bw'.step (.dropBuilder b) = .ok (x, []) ∧ Moved b n false bw x := by
  refine ⟨{ bw' with builders := bw'.builders.set b ⟨none, [], false⟩ }, by simp only [BWorld.step, h.shell, BWorld.releaseRefs], ?_⟩
  have hlt := h.lt
  have hle := h.le
  have hlen := h.len
  refine ⟨h.w, h.objs, by simp [h.len], h.lt, h.le, ?_, fun i => ?_⟩
  · exact List.getElem?_set_self (by omega)
  · simp only
    rw [List.getElem?_set_ne (fun hn => number_ne h.lt i hn.symm), h.cells]

/-! ### Histories -/

theorem reach_snoc {tr : BTrace α φ} {op : BOp α φ} {ev : List Event} {bw' : BWorld α φ} (h : BReach (tr ++ [(op, ev)]) bw') :
    ∃ bw, BReach tr bw ∧ bw.step op = .ok (bw', ev) := by
  generalize ht : tr ++ [(op, ev)] = t at h
  cases h with
  | init => simp at ht
  | step h1 h2 =>
    obtain ⟨rfl, h3⟩ := List.append_inj' ht rfl
    simp only [List.cons.injEq, Prod.mk.injEq, and_true] at h3
    obtain ⟨rfl, rfl⟩ := h3
    exact ⟨_, h1, h2⟩

theorem reach_unique {tr : BTrace α φ} {bw : BWorld α φ} (h : BReach tr bw) : ∀ {bw' : BWorld α φ}, BReach tr bw' → bw = bw' := by
  induction h with
  | init =>
    intro bw' h'
    generalize ht : ([] : BTrace α φ) = t at h'
    cases h' with
    | init => rfl
    | step _ _ => simp at ht
  | step _ hs ih =>
    intro bw' h'
    obtain ⟨x, h1, h2⟩ := reach_snoc h'
    rw [← ih h1, hs] at h2
    simpa using h2

/-- Going on from two states that belong together. -/
theorem forward {btr btr' : BTrace α φ} (hr : BReach btr bw) (hr' : BReach btr' bw') (hm : Moved b n live bw bw') (l : BTrace α φ) :
    (∀ x, BReach (btr ++ l) x → ∃ x', BReach (btr' ++ renamedAll b n l) x' ∧ Moved b n live x x') ∧
    (∀ x', BReach (btr' ++ renamedAll b n l) x' → ∃ x, BReach (btr ++ l) x ∧ Moved b n live x x') := by
  obtain ⟨r, rfl⟩ : ∃ r, l = List.reverse r := ⟨l.reverse, by simp⟩
  induction r with
  | nil =>
    simp only [renamedAll, List.reverse_nil, List.map_nil, List.append_nil]
    exact ⟨fun x hx => ⟨bw', hr', reach_unique hr hx ▸ hm⟩, fun x hx => ⟨bw, hr, reach_unique hr' hx ▸ hm⟩⟩
  | cons st r ih =>
    obtain ⟨op, ev⟩ := st
    simp only [renamedAll, List.reverse_cons, List.map_append, List.map_cons, List.map_nil, ← List.append_assoc] at ih ⊢
    constructor
    · intro x hx
      obtain ⟨y, hy, hs⟩ := reach_snoc hx
      obtain ⟨y', hy', hyy⟩ := ih.1 y hy
      have := hyy.step op
      rw [hs] at this
      obtain ⟨x', h1, h2⟩ := this
      exact ⟨x', hy'.step h1, h2⟩
    · intro x' hx'
      obtain ⟨y', hy', hs⟩ := reach_snoc hx'
      obtain ⟨y, hy, hyy⟩ := ih.2 y' hy'
      have := hyy.step op
      cases ho : y.step op with
      | error e => rw [ho] at this; simp only [Both] at this; rw [this] at hs; simp at hs
      | ok p =>
        rw [ho] at this
        obtain ⟨z, h1, h2⟩ := this
        rw [h1] at hs
        simp only [Except.ok.injEq, Prod.mk.injEq] at hs
        obtain ⟨rfl, rfl⟩ := hs
        exact ⟨_, hy.step ho, h2⟩

theorem reach_prefix {btr l : BTrace α φ} {x : BWorld α φ} (h : BReach (btr ++ l) x) : ∃ bw, BReach btr bw := by
  obtain ⟨r, rfl⟩ : ∃ r, l = List.reverse r := ⟨l.reverse, by simp⟩
  induction r generalizing x with
  | nil => exact ⟨x, by simpa using h⟩
  | cons st r ih =>
    rw [List.reverse_cons, ← List.append_assoc] at h
    obtain ⟨y, hy, _⟩ := reach_snoc (op := st.1) (ev := st.2) h
    exact ih hy

/-- The states before and after the move of a builder that is there. -/
theorem move {btr : BTrace α φ} (hr : BReach btr bw) {i : Nat} {k : Builders.Note α φ} (hk : (Builders.notes btr)[i]? = some k)
    (ht : k.there = true) : ∃ bw', BReach (btr ++ [(.moveBuilder i, [])]) bw' ∧ Moved i (Builders.notes btr).length true bw bw' := by
  obtain ⟨_, _, hs⟩ := Builders.reach_sim hr
  have hc : bw.builders[i]? = some (Builders.cell k) := by rw [hs.cells, List.getElem?_map, hk]; rfl
  have hl : (Builders.notes btr).length = bw.builders.length := by rw [hs.cells, List.length_map]
  obtain ⟨x, refs, hx⟩ : ∃ x refs, Builders.cell k = ⟨x, refs, true⟩ := ⟨(Builders.cell k).builder, (Builders.cell k).refs, by
    rw [← ht]; rfl⟩
  rw [hx] at hc
  exact ⟨_, hr.step (by simp only [BWorld.step, hc]), hl ▸ Moved.start hc⟩

end Mimic.BuilderMoves
