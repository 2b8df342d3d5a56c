import Verif.Proofs.WatchedProgress

/-!
# C49, C50: What a client of watched objects may do
-/

set_option autoImplicit false

namespace Mimic

variable {α : Type} {a0 : Trigger α}

/-- C49, C50: everything else works: an operation that only uses what exists is carried out, or terminates the program (see
`C49_construct_terminates`, `C49_assign_terminates`, `C49_drop_terminates`), unless one of the operations on the single watchers uses an
object that carries nothing (C35), or the operation attaches an expectation to a sequence that is full (C17). -/
theorem C49_progress {tr : CTrace α} {cw : CWorld α} (h : CReach a0 tr cw) {op : COp α} (hv : tr.valid op)
    (hf : ∀ o ∈ tr.work op, ¬ tr.flat.overfull o) :
    (∃ cw' log, cw.step a0 op = .ok (cw', log)) ∨ (∃ why, cw.step a0 op = .error (.terminate why)) ∨ StuckIn a0 tr.flat (tr.work op) := by
  have hr := h.inv.reach
  cases op with
  | plain op =>
    by_cases hu : tr.flat.undefined (.plain op)
    · exact .inr (.inr (.here hr hu))
    · obtain ⟨ww', log, h1⟩ := C34_progress (op := .plain op) hr hv hu (hf _ (by simp [CTrace.work]))
      exact .inl ⟨_, _, by simp only [CWorld.step, h1]; rfl⟩
  | create base kinds fails =>
    exact construct_progress hr (by simp [makes]) (by simp [WTrace.valid])
  | copy s fails =>
    obtain ⟨x, hx, h1, h2, h3, h4, h5⟩ := h.there hv
    simp only [CWorld.step, hx, CTrace.work, ← h1]
    refine construct_progress hr (by simp [makes]) ?_
    intro op hop
    obtain ⟨o, ho, rfl⟩ := List.mem_map.mp hop
    exact h3 o ho
  | move s fails =>
    obtain ⟨x, hx, h1, h2, h3, h4, h5⟩ := h.there hv
    simp only [CWorld.step, hx, CTrace.work, ← h1]
    refine construct_progress hr (by simp [makes]) ?_
    intro op hop
    obtain ⟨o, ho, rfl⟩ := List.mem_map.mp hop
    exact h3 o ho
  | copyAssign d s fails =>
    obtain ⟨hd, hs, ht⟩ := hv
    obtain ⟨x, hx, x1, x2, x3, x4, x5⟩ := h.there hd
    obtain ⟨y, hy, y1, y2, y3, y4, y5⟩ := h.there hs
    rw [x4, y4, Option.some.injEq, Prod.mk.injEq] at ht
    simp only [CWorld.step, hx, hy, CTrace.work, ← x1, ← y1, if_pos ht]
    rw [← ht.2] at y5
    cases ha : assign a0 false cw.ww (List.zipWith WOp.copyAssign x.parts y.parts) with
    | ok r => exact .inl ⟨_, _, rfl⟩
    | error e =>
      rcases assign_progress hr (by intro o ho; obtain ⟨_, _, rfl⟩ := mem_zipWith ho; trivial)
        (zipWith_valid (f := WOp.copyAssign) (fun _ _ k1 k2 k3 => ⟨k1, k2, k3⟩) x3 y3 x5 y5) ha with ⟨why, rfl⟩ | h1
      · exact .inr (.inl ⟨why, rfl⟩)
      · exact .inr (.inr h1)
  | moveAssign d s fails =>
    obtain ⟨hd, hs, ht⟩ := hv
    obtain ⟨x, hx, x1, x2, x3, x4, x5⟩ := h.there hd
    obtain ⟨y, hy, y1, y2, y3, y4, y5⟩ := h.there hs
    rw [x4, y4, Option.some.injEq, Prod.mk.injEq] at ht
    simp only [CWorld.step, hx, hy, CTrace.work, ← x1, ← y1, if_pos ht]
    rw [← ht.2] at y5
    cases ha : assign a0 y.base.nothrowMoveAssign cw.ww (List.zipWith WOp.moveAssign x.parts y.parts) with
    | ok r =>
      obtain ⟨ww', t, r⟩ := r
      simp only
      by_cases hc : (fails && y.base.nothrowMoveAssign) = true
      · rw [if_pos hc]; exact .inr (.inl ⟨_, rfl⟩)
      · rw [if_neg hc]; exact .inl ⟨_, _, rfl⟩
    | error e =>
      rcases assign_progress hr (by intro o ho; obtain ⟨_, _, rfl⟩ := mem_zipWith ho; trivial)
        (zipWith_valid (f := WOp.moveAssign) (fun _ _ k1 k2 k3 => ⟨k1, k2, k3⟩) x3 y3 x5 y5) ha with ⟨why, rfl⟩ | h1
      · exact .inr (.inl ⟨why, rfl⟩)
      · exact .inr (.inr h1)
  | drop c =>
    obtain ⟨x, hx, h1, h2, h3, h4, h5⟩ := h.there hv
    simp only [CWorld.step, hx]
    cases ha : dropParts a0 x.base.nothrowDtor cw.ww false x.parts.reverse with
    | ok r => exact .inl ⟨_, _, rfl⟩
    | error e =>
      obtain ⟨why, rfl⟩ := dropParts_progress hr ((List.reverse_perm _).symm.nodup h2) (by simpa using h3) ha
      exact .inr (.inl ⟨why, rfl⟩)
  | expect c i min max seqs ps =>
    obtain ⟨hc, hi, hq, hmin, hmax⟩ := hv
    obtain ⟨x, hx, h1, h2, h3, h4, h5⟩ := h.there hc
    rw [← h1] at hi
    have hg : x.parts[i]? = some x.parts[i] := List.getElem?_eq_getElem hi
    have hw : tr.work (.expect c i min max seqs ps) = [.expect x.parts[i] min max seqs ps] := by
      simp only [CTrace.work, ← h1, hg, Option.toList_some, List.map_cons, List.map_nil]
    rw [hw] at hf ⊢
    simp only [CWorld.step, hx, hg]
    by_cases hu : tr.flat.undefined (.expect x.parts[i] min max seqs ps)
    · exact .inr (.inr (.here hr hu))
    · obtain ⟨ww', log, h1⟩ := C34_progress hr (op := .expect x.parts[i] min max seqs ps)
        ⟨h3 _ (List.getElem_mem hi), hq, hmin, hmax⟩ hu (hf _ (by simp))
      exact .inl ⟨_, _, by rw [h1]⟩

theorem assigned_fine {tr : CTrace α} {d s : Nat} {fails : Bool} : ∀ o ∈ tr.work (.copyAssign d s fails), ¬ tr.flat.overfull o := by
  intro o ho
  simp only [CTrace.work] at ho
  obtain ⟨_, _, rfl⟩ := mem_zipWith ho
  rintro ⟨m, min, max, seqs, ps, -, h | ⟨o, h, -⟩ | ⟨o, _, _, -, -, h, -⟩⟩ <;> cases h

open WatcherExamples WatchedExamples in
/-- The hypotheses can be met: there is a watched object with two watchers, and another one of its type. -/
example : ∃ (tr : CTrace Unit) (cw : CWorld Unit), CReach calm tr cw ∧ tr.valid (.copyAssign 0 1 false) ∧
    (tr.work (.copyAssign 0 1 false)).length = 2 ∧ (∀ o ∈ tr.work (.copyAssign 0 1 false), ¬ tr.flat.overfull o) := by
  refine ⟨_, _, .step (op := .copy 0 false) (.step (op := .create loose [.lifetime, .relocation] false) .init rfl) rfl, ⟨⟨⟨_, rfl⟩, ?_⟩, ⟨⟨_, rfl⟩, ?_⟩, rfl⟩, rfl, ?_⟩
  · rintro ⟨log, hl⟩; simp at hl
  · rintro ⟨log, hl⟩; simp at hl
  · exact assigned_fine

end Mimic
