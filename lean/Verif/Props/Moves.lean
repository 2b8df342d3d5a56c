import Verif.Proofs.Moves
import Verif.Props.Language

/-!
# C82: Declarations may be moved
-/

set_option autoImplicit false

namespace Mimic.Moves

open Language

variable {α : Type}

/-- C82: an expectation may be declared earlier (after `p` instead of after `p` and `b`), if everything it refers to exists there and none
of the calls in between concerns it. Nothing else changes, except that it appears in the reports about calls of its mock that match nothing. -/
theorem C82_earlier {m : Nat} {min max : Int} {tags : List Nat} {ps : List (Policy α)} {p b r : Trace α} {c : List Event} {w : World α}
    (hb : ∀ st ∈ b, Ignores m ps st.1) (hv : p.valid (.expect m min max tags ps))
    (h : Reach (p ++ b ++ (.expect m min max tags ps, c) :: r) w) :
    ∃ b' w', Reach (p ++ (.expect m min max tags ps, c) :: b' ++ r) w' ∧
      ((c = [.rejected] ∧ b' = b) ∨ ∃ e, c = [.created e] ∧ b'.map (fun st => (st.1, st.2.map (hide e))) = b) := by
  obtain ⟨b', w', h1, -, h2⟩ := reach_earlier hb hv h
  exact ⟨b', w', h1, h2⟩

/-- C82: two expectations that are declared one right after the other may be declared in the other order, if they have no sequence in common
and no call can be meant for both. Apart from their numbers everything stays the same, operation by operation. -/
theorem C82_order {m m' : Nat} {min max min' max' : Int} {tags tags' : List Nat} {ps ps' : List (Policy α)} {p r : Trace α} {i j : Nat}
    {w : World α} (ha : Apart m m' ps ps') (hd : ∀ s ∈ tags, s ∉ tags')
    (h : Reach (p ++ (.expect m min max tags ps, [.created i]) :: (.expect m' min' max' tags' ps', [.created j]) :: r) w) :
    j = i + 1 ∧ ∃ r' w', Reach (p ++ (.expect m' min' max' tags' ps', [.created i]) :: (.expect m min max tags ps, [.created j]) :: r') w' ∧
      r'.map (·.1) = r.map (fun st => turn i st.1) ∧
      ∀ (k : Nat) (st st' : Op α × List Event), r[k]? = some st → r'[k]? = some st' → (st.2.map (report i)).Perm st'.2 :=
  reach_order ha hd h

theorem failure_hide (e : Nat) (ev : Event) : failure (hide e ev) = failure ev := by
  cases ev <;> rfl

theorem failure_report (e : Nat) (ev : Event) : failure (report e ev) = failure ev := by
  cases ev <;> rfl

theorem passes_map {f : Event → Event} (hf : ∀ ev, failure (f ev) = failure ev) {evs evs' : List Event} (h : (evs.map f).Perm evs') :
    passes evs ↔ passes evs' := by
  have : passes evs ↔ passes (evs.map f) := by
    unfold passes
    simp [hf]
  rw [this]
  unfold passes
  exact ⟨fun hp ev hev => hp ev (h.mem_iff.mpr hev), fun hp ev hev => hp ev (h.mem_iff.mp hev)⟩

/-- C82: and the test with the earlier declaration passes iff the other one does. -/
theorem C82_earlier_passes {m : Nat} {min max : Int} {tags : List Nat} {ps : List (Policy α)} {p b r : Trace α} {c : List Event} {w : World α}
    (hb : ∀ st ∈ b, Ignores m ps st.1) (hv : p.valid (.expect m min max tags ps))
    (h : Reach (p ++ b ++ (.expect m min max tags ps, c) :: r) w) :
    ∃ tr' w', Reach tr' w' ∧ tr'.map (·.1) = p.map (·.1) ++ .expect m min max tags ps :: b.map (·.1) ++ r.map (·.1) ∧
      (passes tr'.events ↔ passes (p ++ b ++ (.expect m min max tags ps, c) :: r : Trace α).events) := by
  obtain ⟨b', w', h1, h2⟩ := C82_earlier hb hv h
  have hbb : b'.map (·.1) = b.map (·.1) ∧ (passes (Trace.events b') ↔ passes (Trace.events b)) := by
    rcases h2 with ⟨-, rfl⟩ | ⟨e, -, rfl⟩
    · exact ⟨rfl, Iff.rfl⟩
    · refine ⟨by simp, passes_map (failure_hide e) ?_⟩
      unfold Trace.events
      rw [List.flatMap_map, List.map_flatMap]
  refine ⟨_, w', h1, by simp [hbb.1], ?_⟩
  have happ : ∀ x y : List Event, passes (x ++ y) ↔ passes x ∧ passes y := by
    intro x y; unfold passes; simp [or_imp, forall_and]
  have e1 : ∀ x y : Trace α, Trace.events (x ++ y) = x.events ++ y.events := fun x y => by simp [Trace.events]
  have e2 : ∀ (st : Op α × List Event) (y : Trace α), Trace.events (st :: y) = st.2 ++ y.events := fun x y => by simp [Trace.events]
  simp only [e1, e2, happ, hbb.2]
  grind

/-- C82: and so does the test with the other order. -/
theorem C82_order_passes {m m' : Nat} {min max min' max' : Int} {tags tags' : List Nat} {ps ps' : List (Policy α)} {p r : Trace α} {i j : Nat}
    {w : World α} (ha : Apart m m' ps ps') (hd : ∀ s ∈ tags, s ∉ tags')
    (h : Reach (p ++ (.expect m min max tags ps, [.created i]) :: (.expect m' min' max' tags' ps', [.created j]) :: r) w) :
    ∃ tr' w', Reach tr' w' ∧
      tr'.map (·.1) = p.map (·.1) ++ .expect m' min' max' tags' ps' :: .expect m min max tags ps :: r.map (fun st => turn i st.1) ∧
      (passes tr'.events ↔
        passes (p ++ (.expect m min max tags ps, [.created i]) :: (.expect m' min' max' tags' ps', [.created j]) :: r : Trace α).events) := by
  obtain ⟨-, r', w', h1, h2, h3⟩ := C82_order ha hd h
  refine ⟨_, w', h1, by simp [h2], ?_⟩
  have hr : ((Trace.events r).map (report i)).Perm (Trace.events r') := by
    clear h h1
    induction r generalizing r' with
    | nil =>
      cases r' with
      | nil => exact List.Perm.refl _
      | cons => simp at h2
    | cons st r ih =>
      cases r' with
      | nil => simp at h2
      | cons st' r' =>
        simp only [List.map_cons, List.cons.injEq] at h2
        have := ih r' h2.2 (fun k a b ha hb => h3 (k + 1) a b (by simpa using ha) (by simpa using hb))
        have h0 := h3 0 st st' rfl rfl
        simp only [Trace.events, List.flatMap_cons, List.map_append] at this ⊢
        exact h0.append this
  have hp := passes_map (failure_report i) hr
  have happ : ∀ x y : List Event, passes (x ++ y) ↔ passes x ∧ passes y := by
    intro x y; unfold passes; simp [or_imp, forall_and]
  have e1 : ∀ x y : Trace α, Trace.events (x ++ y) = x.events ++ y.events := fun x y => by simp [Trace.events]
  have e2 : ∀ (st : Op α × List Event) (y : Trace α), Trace.events (st :: y) = st.2 ++ y.events := fun x y => by simp [Trace.events]
  simp only [e1, e2, happ, hp]

/-- The order matters if a call fits both: the younger one is taken. -/
theorem C82_overlap : ∃ evs evs' : List Event,
    reports [.newMock, .expect 0 1 1 [] [], .expect 0 1 2 [] [], .call 0 7, .call 0 7, .destroy 1, .destroy 0] = some evs ∧
    reports [.newMock, .expect 0 1 2 [] [], .expect 0 1 1 [] [], .call 0 7, .call 0 7, .destroy 1, .destroy 0] = some evs' ∧
    ¬ passes evs ∧ passes evs' := by
  refine ⟨[.mockCreated 0, .created 0, .created 1, .fullMatch 1, .fullMatch 1, .destroyed 1, .destroyed 0, .unfulfilled 0],
    [.mockCreated 0, .created 0, .created 1, .fullMatch 1, .fullMatch 0, .destroyed 1, .destroyed 0], by decide +kernel, by decide +kernel, ?_, ?_⟩
  · intro h
    exact absurd (h (.unfulfilled 0) (by decide)) (by decide)
  · unfold passes
    decide

/-- The order matters in a common sequence, although no call fits both. -/
theorem C82_sequence : ∃ evs evs' : List Event,
    reports [.newSequence .lazy, .newMock, .newMock, .expect 0 1 1 [0] [], .expect 1 1 1 [0] [], .call 0 7, .call 1 7] = some evs ∧
    reports [.newSequence .lazy, .newMock, .newMock, .expect 1 1 1 [0] [], .expect 0 1 1 [0] [], .call 0 7, .call 1 7] = some evs' ∧
    passes evs ∧ ¬ passes evs' := by
  refine ⟨[.sequenceCreated 0 .lazy, .mockCreated 0, .mockCreated 1, .created 0, .created 1, .fullMatch 0, .fullMatch 1],
    [.sequenceCreated 0 .lazy, .mockCreated 0, .mockCreated 1, .created 0, .created 1, .inapplicable [1], .fullMatch 0],
    by decide +kernel, by decide +kernel, ?_, ?_⟩
  · unfold passes
    decide
  · intro h
    exact absurd (h (.inapplicable [1]) (by decide)) (by decide)

/-- Non-vacuity of the first part: a call that is resolved, one that matches nothing, ends, and a sequence. -/
example : ∃ (p b r : Trace Nat) (w : World Nat),
    Reach (p ++ b ++ (.expect 0 1 1 [0] [onlyArg 5], [.created 2]) :: r) w ∧ (∀ st ∈ b, Ignores 0 [onlyArg 5] st.1) ∧
    p.valid (.expect 0 1 1 [0] [onlyArg 5]) ∧ (Op.call 0 9, [Event.noMatch [0]]) ∈ b ∧ (Op.call 0 6, [Event.fullMatch 0]) ∈ b ∧
    (Op.call 0 5, [Event.fullMatch 2]) ∈ r := by
  have h : Reach _ _ := record_reach (α := Nat)
    [.newMock, .newSequence .lazy, .expect 0 0 1 [0] [onlyArg 6], .expect 0 1 1 [] [onlyArg 8],
     .call 0 8, .destroy 1, .call 0 9, .call 0 6, .newMock,
     .expect 0 1 1 [0] [onlyArg 5], .call 0 5] Reach.init rfl
  refine ⟨[(.newMock, [.mockCreated 0]), (.newSequence .lazy, [.sequenceCreated 0 .lazy]), (.expect 0 0 1 [0] [onlyArg 6], [.created 0]),
      (.expect 0 1 1 [] [onlyArg 8], [.created 1])],
    [(.call 0 8, [.fullMatch 1]), (.destroy 1, [.destroyed 1]), (.call 0 9, [.noMatch [0]]), (.call 0 6, [.fullMatch 0]), (.newMock, [.mockCreated 1])],
    [(.call 0 5, [.fullMatch 2])], _, h, ?_, ?_, by simp, by simp, by simp⟩
  · simp [Ignores, onlyArg]
  · simp [Trace.valid, Trace.handle, Trace.events, Trace.kind]

/-- Non-vacuity of the second part: a call that fits neither, calls for both, and the ends. -/
example : ∃ (p r : Trace Nat) (w : World Nat),
    Reach (p ++ (.expect 0 1 1 [0] [onlyArg 5], [.created 1]) :: (.expect 0 0 1 [1] [onlyArg 6], [.created 2]) :: r) w ∧
    Apart 0 0 [onlyArg 5] [onlyArg 6] ∧ (∀ s ∈ [0], s ∉ [1]) ∧
    r = [(.expect 0 1 1 [0, 1] [onlyArg 7], [.created 3]), (.call 0 8, [.noMatch [3, 2, 1, 0]]), (.call 0 5, [.fullMatch 1]),
      (.call 0 6, [.fullMatch 2]), (.destroy 2, [.destroyed 2]), (.destroy 1, [.destroyed 1])] := by
  have h : Reach _ _ := record_reach (α := Nat)
    [.newMock, .newSequence .lazy, .newSequence .greedy, .expect 0 0 1 [0] [onlyArg 9],
     .expect 0 1 1 [0] [onlyArg 5], .expect 0 0 1 [1] [onlyArg 6], .expect 0 1 1 [0, 1] [onlyArg 7],
     .call 0 8, .call 0 5, .call 0 6, .destroy 2, .destroy 1] Reach.init rfl
  exact ⟨[(.newMock, [.mockCreated 0]), (.newSequence .lazy, [.sequenceCreated 0 .lazy]), (.newSequence .greedy, [.sequenceCreated 1 .greedy]),
    (.expect 0 0 1 [0] [onlyArg 9], [.created 0])], _, _, h, .inr (by simp [onlyArg]), by simp, rfl⟩

end Mimic.Moves
