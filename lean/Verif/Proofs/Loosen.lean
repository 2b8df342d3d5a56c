import Verif.Spec.Loosen
import Verif.Proofs.Kinds

/-! # Leaving out sequences: lemmas -/

set_option autoImplicit false

namespace Mimic.Loosen

variable {α : Type}

/-- An expectation with fewer sequences. -/
def ren (keep : Nat → Bool) (x : Spec.Exp α) : Spec.Exp α := { x with seqs := x.seqs.filter keep }

/-- The state with fewer sequences. -/
def Rel (keep : Nat → Bool) (S S' : Spec.State α) : Prop :=
  S'.mocks = S.mocks ∧ S'.seqs = S.seqs ∧ S'.exps = S.exps.map (ren keep)

variable {keep : Nat → Bool} {S S' : Spec.State α}

theorem rest_append (a b : List Event) : rest (a ++ b) = rest a ++ rest b := by simp [rest]

theorem rest_end (S : Spec.State α) (s : Nat) : rest (S.sequenceEnd s) = [] := by
  unfold Spec.State.sequenceEnd
  split <;> rfl

theorem rest_release (S : Spec.State α) (ss : List Nat) : rest (S.release ss) = [] := by
  unfold Spec.State.release
  induction ss with
  | nil => rfl
  | cons s ss ih =>
    rw [List.flatMap_cons, rest_append, ih, List.append_nil]
    split
    · rfl
    · exact rest_end S s

theorem attached_kept (h : Rel keep S S') {s : Nat} (hs : keep s = true) : S'.attached s = (S.attached s).map (ren keep) := by
  unfold Spec.State.attached
  rw [h.2.2, List.filter_map]
  congr 2
  funext x
  rw [Bool.eq_iff_iff]
  simp [ren, hs]

theorem attached_le (h : Rel keep S S') (s : Nat) : (S'.attached s).length ≤ (S.attached s).length := by
  by_cases hs : keep s = true
  · rw [attached_kept h hs, List.length_map]; exact Nat.le_refl _
  · have : S'.attached s = [] := by
      unfold Spec.State.attached
      rw [h.2.2, List.filter_eq_nil_iff]
      intro x hx
      obtain ⟨y, -, rfl⟩ := List.mem_map.mp hx
      simp [ren, hs]
    rw [this]; exact Nat.zero_le _

theorem applicable (h : Rel keep S S') {x : Spec.Exp α} (hx : S.applicable x = true) : S'.applicable (ren keep x) = true := by
  unfold Spec.State.applicable at hx ⊢
  rw [Bool.and_eq_true] at hx ⊢
  refine ⟨hx.1, ?_⟩
  have h2 := hx.2
  rw [List.all_eq_true] at h2 ⊢
  intro s hs
  have hs' := List.mem_filter.mp hs
  rw [attached_kept h hs'.2, List.all_map]
  exact h2 s hs'.1

theorem candidates (h : Rel keep S S') (m : Nat) : S'.candidates m = (S.candidates m).map (ren keep) := by
  unfold Spec.State.candidates
  rw [h.2.2, List.filter_map, List.map_reverse]
  rfl

theorem filter_ren (l : List (Spec.Exp α)) (P : Spec.Exp α → Bool) (h : ∀ x, P (ren keep x) = P x) :
    (l.map (ren keep)).filter P = (l.filter P).map (ren keep) := by
  rw [List.filter_map]
  congr 2
  funext x
  exact h x

theorem Rel.countMatch (h : Rel keep S S') (e : Nat) : Rel keep (S.countMatch e) (S'.countMatch e) := by
  refine ⟨h.1, h.2.1, ?_⟩
  unfold Spec.State.countMatch
  simp only [h.2.2, List.map_map]
  apply List.map_congr_left
  intro x _
  by_cases hx : x.id = e <;> simp [ren, hx]

theorem Rel.withdraw (h : Rel keep S S') (e : Nat) : Rel keep (S.withdraw e) (S'.withdraw e) := by
  refine ⟨h.1, h.2.1, ?_⟩
  unfold Spec.State.withdraw
  simp only [h.2.2, List.map_map]
  apply List.map_congr_left
  intro x _
  by_cases hx : x.id = e <;> simp [ren, hx]

theorem Rel.call (h : Rel keep S S') {m : Nat} {a : α} (hu : ((S.candidates m).filter (·.accepts a)).length ≤ 1)
    (hr : ∃ e, Event.fullMatch e ∈ (S.call m a).2.1) :
    (S'.call m a).2.1 = (S.call m a).2.1 ∧ Rel keep (S.call m a).1 (S'.call m a).1 := by
  have e1 : (S'.candidates m).filter (·.throws a) = ((S.candidates m).filter (·.throws a)).map (ren keep) := by
    rw [candidates h]; exact filter_ren _ _ fun x => rfl
  have e2 : (S'.candidates m).filter (·.accepts a) = ((S.candidates m).filter (·.accepts a)).map (ren keep) := by
    rw [candidates h]; exact filter_ren _ _ fun x => rfl
  have hun : (((S.candidates m).filter (·.throws a)).map (ren keep)).map (fun x => Event.unhandled x.id) =
      ((S.candidates m).filter (·.throws a)).map (fun x => Event.unhandled x.id) := by
    rw [List.map_map]; rfl
  have hx : ∃ x, (S.candidates m).filter (·.accepts a) = [x] ∧ S.applicable x = true := by
    obtain ⟨us, last, h1, -, h2⟩ := call_events S m a
    obtain ⟨e, he⟩ := hr
    rw [h1] at he
    have hl : last = .fullMatch e := by
      rcases List.mem_append.mp he with he | he
      · simp at he
      · exact (List.mem_singleton.mp he).symm
    rcases h2 with ⟨x, older, h3, -, -⟩ | ⟨-, -, h3, -⟩ | ⟨-, -, h3, -⟩
    · generalize (S.candidates m).filter (·.accepts a) = l at hu h3
      have hm : x ∈ l.filter S.applicable := by rw [h3]; simp
      obtain ⟨g1, g2⟩ := List.mem_filter.mp hm
      match l, hu, g1 with
      | [y], _, g1 => rw [List.mem_singleton] at g1; subst g1; exact ⟨x, rfl, g2⟩
    · rw [hl] at h3; cases h3
    · rw [hl] at h3; cases h3
  obtain ⟨x, hx, hax⟩ := hx
  have hax' := applicable h hax
  unfold Spec.State.call
  dsimp only
  rw [e1, e2, hun, hx]
  simp only [List.map_cons, List.map_nil, List.filter_cons, hax, hax', List.filter_nil, if_true, Spec.State.select]
  exact ⟨rfl, h.countMatch _⟩

theorem Rel.step (h : Rel keep S S') {o : Op α} {T : Spec.State α} {ev : List Event} (hs : S.step o = some (T, ev)) (hf : ¬ S.full o)
    (hrej : Event.rejected ∉ ev)
    (hu : ∀ m a, o = .call m a → ((S.candidates m).filter (·.accepts a)).length ≤ 1 ∧ ∃ e, Event.fullMatch e ∈ ev) :
    ∃ T' ev', S'.step (op keep o) = some (T', ev') ∧ ¬ S'.full (op keep o) ∧ rest ev' = rest ev ∧ Rel keep T T' := by
  cases o with
  | newSequence st =>
    simp only [Spec.State.step, Option.some.injEq, Prod.mk.injEq] at hs
    obtain ⟨rfl, rfl⟩ := hs
    exact ⟨_, _, rfl, id, rfl, h.1, by simp [h.2.1], h.2.2⟩
  | newMock =>
    simp only [Spec.State.step, Option.some.injEq, Prod.mk.injEq] at hs
    obtain ⟨rfl, rfl⟩ := hs
    exact ⟨_, _, rfl, id, by rw [h.1], by simp [h.1], h.2.1, h.2.2⟩
  | dropSequence s =>
    have hh : S'.hasHandle s = S.hasHandle s := by simp [Spec.State.hasHandle, h.2.1]
    simp only [op, Spec.State.step, hh] at hs ⊢
    by_cases hb : S.hasHandle s = true
    · rw [if_pos hb] at hs ⊢
      simp only [Option.some.injEq, Prod.mk.injEq] at hs
      obtain ⟨rfl, rfl⟩ := hs
      exact ⟨_, _, rfl, id, by rw [rest_release, rest_release], h.1, by simp [h.2.1], h.2.2⟩
    · rw [if_neg hb] at hs; cases hs
  | call m a =>
    obtain ⟨h1, h2⟩ := hu m a rfl
    simp only [op, Spec.State.step, h.1] at hs ⊢
    by_cases hm : m < S.mocks
    · rw [if_pos hm] at hs ⊢
      simp only [Option.some.injEq, Prod.mk.injEq] at hs
      obtain ⟨rfl, rfl⟩ := hs
      obtain ⟨g1, g2⟩ := h.call h1 h2
      exact ⟨_, _, rfl, id, by rw [g1], g2⟩
    · rw [if_neg hm] at hs; cases hs
  | expect m min max tags ps =>
    simp only [op, Spec.State.step, h.1] at hs ⊢
    by_cases hc : m < S.mocks ∧ tags.all S.hasHandle = true ∧ isInt min ∧ isInt max
    · rw [if_pos hc] at hs
      have hc' : m < S.mocks ∧ (tags.filter keep).all S'.hasHandle = true ∧ isInt min ∧ isInt max := by
        refine ⟨hc.1, ?_, hc.2.2⟩
        have := hc.2.1
        rw [List.all_eq_true] at this ⊢
        intro s hs
        have hh : S'.hasHandle s = S.hasHandle s := by simp [Spec.State.hasHandle, h.2.1]
        rw [hh]; exact this s (List.mem_filter.mp hs).1
      rw [if_pos hc']
      by_cases hv : Spec.validTimes min max ∧ tags.Nodup
      · rw [if_pos hv] at hs
        rw [if_pos ⟨hv.1, hv.2.filter keep⟩]
        simp only [Option.some.injEq, Prod.mk.injEq] at hs
        obtain ⟨rfl, rfl⟩ := hs
        refine ⟨_, _, rfl, ?_, by simp [h.2.2, rest], rfl, h.2.1, by simp [h.2.2, ren]⟩
        rintro ⟨-, -, s, hs, hl⟩
        refine hf ⟨hv.1, hv.2, s, (List.mem_filter.mp hs).1, ?_⟩
        have := attached_le h s
        omega
      · rw [if_neg hv] at hs
        simp only [Option.some.injEq, Prod.mk.injEq] at hs
        obtain ⟨rfl, rfl⟩ := hs
        exact absurd (List.mem_singleton.mpr rfl) hrej
    · rw [if_neg hc] at hs; cases hs
  | destroy e =>
    simp only [op, Spec.State.step] at hs ⊢
    have hfind : S'.exps.find? (fun x => x.id == e && x.alive) = (S.exps.find? (fun x => x.id == e && x.alive)).map (ren keep) := by
      rw [h.2.2, List.find?_map]; rfl
    rw [hfind]
    cases hx : S.exps.find? (fun x => x.id == e && x.alive) with
    | none => rw [hx] at hs; cases hs
    | some x =>
      rw [hx] at hs
      simp only [Option.some.injEq, Prod.mk.injEq] at hs
      obtain ⟨rfl, rfl⟩ := hs
      refine ⟨_, _, rfl, id, ?_, h.withdraw e⟩
      rw [rest_append, rest_append, rest_release, rest_release]
      rfl

end Mimic.Loosen
