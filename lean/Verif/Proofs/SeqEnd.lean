import Verif.Proofs.Outcome

/-!
# Which operations end which sequences
-/

set_option autoImplicit false

namespace Mimic

variable {α : Type}

/-- The observations about the end of sequence `s`. -/
def Event.ends (s : Nat) : Event → Bool
  | .sequenceDestroyed t => t == s
  | .sequenceError t _ _ => t == s
  | _ => false

theorem sequenceEnd_filter (S : Spec.State α) (s t : Nat) :
    (S.sequenceEnd t).filter (Event.ends s) = if t = s then S.sequenceEnd s else [] := by
  by_cases h : t = s
  · subst h
    rw [if_pos rfl]
    unfold Spec.State.sequenceEnd
    cases (S.attached t).findIdx? (·.unfulfilled) <;> simp [Event.ends]
  · rw [if_neg h]
    unfold Spec.State.sequenceEnd
    cases (S.attached t).findIdx? (·.unfulfilled) <;> simp [Event.ends, h]

theorem release_filter (S : Spec.State α) (s : Nat) (ss : List Nat) (hn : ss.Nodup) :
    (S.release ss).filter (Event.ends s)
      = if s ∈ ss ∧ S.owned s = false then S.sequenceEnd s else [] := by
  induction ss with
  | nil => simp [Spec.State.release]
  | cons t ss ih =>
    rw [List.nodup_cons] at hn
    have ih := ih hn.2
    unfold Spec.State.release at ih ⊢
    rw [List.flatMap_cons, List.filter_append, ih]
    by_cases hts : t = s
    · subst hts
      cases ho : S.owned t with
      | true => simp
      | false => simp [hn.1, sequenceEnd_filter]
    · have hts' : ¬ s = t := fun h => hts h.symm
      cases ho : S.owned t with
      | true => simp [hts']
      | false => simp [sequenceEnd_filter, hts, hts']

theorem owned_eq (S : Spec.State α) (s : Nat) :
    S.owned s = (S.hasHandle s || S.exps.any (fun x => x.alive && x.seqs.contains s)) := rfl

theorem call_owned (S : Spec.State α) (m : Nat) (a : α) (s : Nat) :
    (S.call m a).1.owned s = S.owned s := by
  unfold Spec.State.call
  simp only
  split
  · exact owned_countMatch _ _ _
  · split <;> rfl

theorem call_filter_ends (S : Spec.State α) (m : Nat) (a : α) (s : Nat) :
    (S.call m a).2.1.filter (Event.ends s) = [] := by
  obtain ⟨us, last, hev, hus, hcase⟩ := call_events S m a
  rw [hev, List.filter_eq_nil_iff]
  intro e he
  rcases List.mem_append.mp he with he | he
  · obtain ⟨x, _, rfl⟩ := List.mem_map.mp he
    simp [Event.ends]
  · rcases hcase with ⟨x, older, _, hl, _⟩ | ⟨_, _, hl, _⟩ | ⟨_, _, hl, _⟩ <;>
      · simp only [List.mem_singleton] at he
        rw [he, hl]; simp [Event.ends]

theorem hasHandle_modify (S : Spec.State α) (t s : Nat) :
    ({ S with seqs := S.seqs.modify t (fun q => { q with handle := false }) } : Spec.State α).hasHandle s
      = (if t = s then false else S.hasHandle s) := by
  unfold Spec.State.hasHandle
  simp only [List.getElem?_modify]
  by_cases h : t = s
  · subst h
    cases S.seqs[t]? <;> simp
  · cases S.seqs[s]? <;> simp [h]

theorem any_withdraw (S : Spec.State α) (e s : Nat) :
    (S.withdraw e).exps.any (fun x => x.alive && x.seqs.contains s)
      = S.exps.any (fun x => decide (x.id ≠ e) && (x.alive && x.seqs.contains s)) := by
  unfold Spec.State.withdraw
  rw [List.any_map]
  congr 1
  funext x
  simp only [Function.comp]
  split
  · rename_i h; simp [h]
  · rename_i h; simp [h]

/-- The observations about the end of sequence `s` in one operation: they occur exactly if the operation
removed the last reference. -/
theorem ends_filter {tr : Trace α} {w w' : World α} (h : Reach tr w) {op : Op α} {ev : List Event}
    (hs : w.step op = .ok (w', ev)) (s : Nat) :
    ev.filter (Event.ends s)
      = (if (abs w).owned s = true ∧ (abs w').owned s = false then (abs w').sequenceEnd s else [])
    ∧ ((abs w).owned s = false → (abs w').owned s = true → (abs w).seqs.length ≤ s) := by
  have hspec := h.spec_step hs
  have hinv := h.view.1
  have hv := h.view.2
  generalize abs w' = S' at hspec ⊢
  have same : ev.filter (Event.ends s) = [] → S'.owned s = (abs w).owned s →
      ev.filter (Event.ends s)
        = (if (abs w).owned s = true ∧ S'.owned s = false then S'.sequenceEnd s else [])
      ∧ ((abs w).owned s = false → S'.owned s = true → (abs w).seqs.length ≤ s) := by
    intro h1 h2
    rw [h1, h2]
    cases (abs w).owned s <;> simp
  cases op with
  | newSequence st =>
    simp only [Spec.State.step, Option.some.injEq, Prod.mk.injEq] at hspec
    obtain ⟨rfl, rfl⟩ := hspec
    by_cases hlt : s < (abs w).seqs.length
    · apply same
      · simp [Event.ends]
      · simp only [Spec.State.owned]
        rw [List.getElem?_append_left hlt]
    · refine ⟨?_, fun _ _ => by omega⟩
      have : (abs w).owned s = false := by
        rw [owned_eq]
        have hnone : (abs w).seqs[s]? = none := by rw [List.getElem?_eq_none_iff]; omega
        simp only [Spec.State.hasHandle, hnone, Bool.false_or, List.any_eq_false]
        intro x hx hc
        rw [Bool.and_eq_true, List.contains_iff_mem] at hc
        have := hinv.seq_lt x hx s hc.2
        have hl : (abs w).seqs.length = w.seqs.length := by simp [abs]
        omega
      simp [this, Event.ends]
  | newMock =>
    simp only [Spec.State.step, Option.some.injEq, Prod.mk.injEq] at hspec
    obtain ⟨rfl, rfl⟩ := hspec
    exact same (by simp [Event.ends]) rfl
  | dropSequence t =>
    simp only [Spec.State.step] at hspec
    split at hspec
    · rename_i hh
      simp only [Option.some.injEq, Prod.mk.injEq] at hspec
      obtain ⟨h1, h2⟩ := hspec
      have hown : S'.owned s = ((if t = s then false else (abs w).hasHandle s)
          || (abs w).exps.any (fun x => x.alive && x.seqs.contains s)) := by
        rw [← h1, owned_eq, hasHandle_modify]
      rw [← h2, h1]
      rw [release_filter _ _ _ (by simp)]
      by_cases hst : t = s
      · subst hst
        have ho : (abs w).owned t = true := by rw [owned_eq, hh]; rfl
        simp [ho]
      · have : S'.owned s = (abs w).owned s := by rw [hown, owned_eq]; simp [hst]
        have hst' : ¬ s = t := fun h => hst h.symm
        rw [this]
        cases (abs w).owned s <;> simp [hst']
    · simp at hspec
  | call m a =>
    simp only [Spec.State.step] at hspec
    split at hspec
    · simp only [Option.some.injEq, Prod.mk.injEq] at hspec
      obtain ⟨rfl, rfl⟩ := hspec
      exact same (call_filter_ends _ _ _ _) (call_owned _ _ _ _)
    · simp at hspec
  | expect m min max ss ps =>
    simp only [Spec.State.step] at hspec
    split at hspec
    · rename_i hok
      split at hspec
      · simp only [Option.some.injEq, Prod.mk.injEq] at hspec
        obtain ⟨rfl, rfl⟩ := hspec
        apply same
        · simp [Event.ends]
        · rw [owned_eq, owned_eq]
          simp only [List.any_append, List.any_cons, List.any_nil, Bool.or_false, Bool.true_and]
          have hh : ∀ t ∈ ss, (abs w).hasHandle t = true := List.all_eq_true.mp hok.2.1
          have e1 : Spec.State.hasHandle ({ abs w with exps := (abs w).exps ++
            [{ id := (abs w).exps.length, mock := m, min := min, max := max, seqs := ss,
               policies := ps, count := 0, alive := true }] }) s = (abs w).hasHandle s := rfl
          rw [e1]
          by_cases hm : s ∈ ss
          · simp [hh s hm]
          · have : ss.contains s = false := by simpa using hm
            simp [hm]
      · simp only [Option.some.injEq, Prod.mk.injEq] at hspec
        obtain ⟨rfl, rfl⟩ := hspec
        exact same (by simp [Event.ends]) rfl
    · simp at hspec
  | destroy e =>
    simp only [Spec.State.step] at hspec
    split at hspec
    · simp at hspec
    · rename_i x hx
      simp only [Option.some.injEq, Prod.mk.injEq] at hspec
      obtain ⟨h1, h2⟩ := hspec
      have hxm := List.mem_of_find?_eq_some hx
      have hxp := List.find?_some hx
      rw [Bool.and_eq_true, beq_iff_eq] at hxp
      obtain ⟨hid, hal⟩ := hxp
      have hfil : ev.filter (Event.ends s) = (S'.release x.seqs).filter (Event.ends s) := by
        rw [← h2, h1]
        simp only [List.cons_append, List.filter_cons, List.filter_append]
        have : ∀ b : Bool, List.filter (Event.ends s) (if b = true then [Event.unfulfilled e] else []) = [] := by
          intro b; cases b <;> simp [Event.ends]
        rw [this]
        simp [Event.ends]
      rw [hfil, release_filter _ _ _ (hinv.nodup x hxm)]
      have hown : S'.owned s = ((abs w).hasHandle s ||
          (abs w).exps.any (fun y => decide (y.id ≠ e) && (y.alive && y.seqs.contains s))) := by
        rw [← h1, owned_eq, any_withdraw]; rfl
      by_cases hm : s ∈ x.seqs
      · have ho : (abs w).owned s = true := by
          rw [owned_eq, Bool.or_eq_true]
          right
          rw [List.any_eq_true]
          exact ⟨x, hxm, by simp [hal, hm]⟩
        simp [ho, hm]
      · have : S'.owned s = (abs w).owned s := by
          rw [hown, owned_eq]
          congr 1
          rw [Bool.eq_iff_iff, List.any_eq_true, List.any_eq_true]
          constructor
          · rintro ⟨y, hy, hp⟩
            rw [Bool.and_eq_true] at hp
            exact ⟨y, hy, hp.2⟩
          · rintro ⟨y, hy, hp⟩
            refine ⟨y, hy, ?_⟩
            rw [Bool.and_eq_true]
            refine ⟨?_, hp⟩
            rw [decide_eq_true_eq]
            intro hye
            have := sorted_mem_id hv.sorted hxm hy (by rw [hid, hye])
            subst this
            rw [Bool.and_eq_true, List.contains_iff_mem] at hp
            exact hm hp.2
        rw [this]
        cases (abs w).owned s <;> simp [hm]

theorem mem_ends {ev : List Event} {x : Event} {s : Nat} (hx : x.ends s = true) :
    x ∈ ev ↔ x ∈ ev.filter (Event.ends s) := by
  rw [List.mem_filter]; simp [hx]

theorem sequenceEnd_destroyed (S : Spec.State α) (s : Nat) :
    Event.sequenceDestroyed s ∈ S.sequenceEnd s ∧
    (S.sequenceEnd s).count (.sequenceDestroyed s) = 1 := by
  unfold Spec.State.sequenceEnd
  cases (S.attached s).findIdx? (·.unfulfilled) <;> simp

theorem sequenceEnd_error (S : Spec.State α) (s k n : Nat) :
    Event.sequenceError s k n ∈ S.sequenceEnd s ↔
      (S.attached s).findIdx? (·.unfulfilled) = some k ∧ n = (S.attached s).length := by
  unfold Spec.State.sequenceEnd
  cases (S.attached s).findIdx? (·.unfulfilled) with
  | none => simp
  | some k' =>
    simp
    exact fun _ => eq_comm

theorem count_filter_ends (ev : List Event) (s : Nat) :
    ev.count (.sequenceDestroyed s) = (ev.filter (Event.ends s)).count (.sequenceDestroyed s) := by
  rw [List.count_filter]
  simp [Event.ends]

end Mimic
