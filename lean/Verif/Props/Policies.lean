import Verif.Spec.Matcher
import Verif.Proofs.Outcome

/-!
# C33: the policies of an expectation
-/

set_option autoImplicit false

namespace Mimic

variable {α : Type}

/-! ## C33 -/

/-- C33: every policy is asked, none is skipped: if none of them throws, the report has one entry for each policy, in
their order, with its own verdict and description; if one throws, there is no report. -/
theorem C33_report (a : α) (ps : List (Policy α)) :
    (∀ rs, evalPolicies a ps = some rs ↔
      (∀ p ∈ ps, p.accepts a ≠ none) ∧ rs = ps.map (fun p => (p.accepts a == some true, p.description))) ∧
    (evalPolicies a ps = none ↔ ∃ p ∈ ps, p.accepts a = none) := by
  induction ps with
  | nil => simp [evalPolicies, eq_comm]
  | cons p ps ih =>
    obtain ⟨ih1, ih2⟩ := ih
    simp only [evalPolicies]
    cases hp : p.accepts a with
    | none => simp [hp]
    | some b =>
      cases he : evalPolicies a ps with
      | none =>
        have := ih2.mp he
        refine ⟨fun rs => ?_, ?_⟩
        · constructor
          · simp
          · rintro ⟨h, _⟩
            obtain ⟨q, hq, hqn⟩ := this
            exact absurd hqn (h q (by simp [hq]))
        · obtain ⟨q, hq, hqn⟩ := this
          exact ⟨fun _ => ⟨q, by simp [hq], hqn⟩, fun _ => rfl⟩
      | some rs' =>
        obtain ⟨h1, h2⟩ := (ih1 rs').mp he
        refine ⟨fun rs => ?_, ?_⟩
        · constructor
          · intro h
            simp only [Option.some.injEq] at h
            refine ⟨?_, ?_⟩
            · intro q hq
              simp only [List.mem_cons] at hq
              rcases hq with rfl | hq
              · simp [hp]
              · exact h1 q hq
            · rw [← h, h2]
              cases b <;> simp [hp]
          · rintro ⟨_, h⟩
            rw [h, h2]
            cases b <;> simp [hp]
        · simp only [reduceCtorEq, List.mem_cons, exists_eq_or_imp, hp, false_or, false_iff, not_exists, not_and]
          exact h1

/-- The verdict of `BasicExpectation::matches` about a call, without the control policy. -/
def policiesAccept (a : α) (ps : List (Policy α)) : Bool :=
  match evalPolicies a ps with
  | some rs => rs.all (·.1)
  | none => false

/-- C33: a call is accepted exactly when every single policy accepts it. -/
theorem C33_conjunction (a : α) (ps : List (Policy α)) :
    policiesAccept a ps = true ↔ ∀ p ∈ ps, p.accepts a = some true := by
  unfold policiesAccept
  obtain ⟨h1, h2⟩ := C33_report a ps
  cases he : evalPolicies a ps with
  | none =>
    obtain ⟨p, hp, hpn⟩ := h2.mp he
    simp only [Bool.false_eq_true, false_iff]
    intro h
    rw [h p hp] at hpn
    simp at hpn
  | some rs =>
    obtain ⟨h3, h4⟩ := (h1 rs).mp he
    subst h4
    simp [List.all_map, List.all_eq_true]

/-- C33: the verdict does not depend on the order and the multiplicity of the policies. -/
theorem C33_order (a : α) (ps qs : List (Policy α)) (h : ∀ p, p ∈ ps ↔ p ∈ qs) :
    policiesAccept a ps = policiesAccept a qs := by
  rw [Bool.eq_iff_iff, C33_conjunction, C33_conjunction]
  exact ⟨fun hh p hp => hh p ((h p).mpr hp), fun hh p hp => hh p ((h p).mp hp)⟩

/-- C33: adding a policy can only take calls away. -/
theorem C33_monotone (a : α) (p : Policy α) (ps : List (Policy α)) (h : policiesAccept a (p :: ps) = true) :
    policiesAccept a ps = true := by
  rw [C33_conjunction] at h ⊢
  exact fun q hq => h q (by simp [hq])

/-- C33: whether the match report of an expectation is a full match is decided by all policies and the control policy
alone. -/
theorem C33_full (e : Nat) (x : Exp α) (seqs : Seqs) (a : α) {r : MatchReport}
    (h : x.matchReport e seqs a = .ok (some r)) :
    (evaluateMatchReport r = .full ↔ (∀ p ∈ x.policies, p.accepts a = some true) ∧ r.control.isApplicable = true) ∧
    (evaluateMatchReport r = .none ↔ ∃ p ∈ x.policies, p.accepts a = some false) ∧
    x.control.state seqs = .ok r.control := by
  unfold Exp.matchReport at h
  simp only [bind, Except.bind] at h
  cases hst : x.control.state seqs with
  | error y => rw [hst] at h; simp at h
  | ok st =>
    rw [hst] at h
    simp only at h
    cases he : evalPolicies a x.policies with
    | none => rw [he] at h; simp [pure, Except.pure] at h
    | some rs =>
      rw [he] at h
      simp only [pure, Except.pure, Except.ok.injEq, Option.some.injEq] at h
      subst h
      obtain ⟨h3, h4⟩ := ((C33_report a x.policies).1 rs).mp he
      have hacc : rs.all (·.1) = policiesAccept a x.policies := by unfold policiesAccept; rw [he]
      refine ⟨?_, ?_, rfl⟩
      · simp only [evaluateMatchReport, hacc]
        rw [← C33_conjunction]
        cases policiesAccept a x.policies <;> cases st.isApplicable <;> simp
      · have hn : (∃ p ∈ x.policies, p.accepts a = some false) ↔ ¬ policiesAccept a x.policies = true := by
          rw [C33_conjunction]
          constructor
          · rintro ⟨p, hp, hf⟩ hh
            rw [hh p hp] at hf
            simp at hf
          · intro hh
            apply Classical.byContradiction
            intro hne
            apply hh
            intro p hp
            cases hpa : p.accepts a with
            | none => exact absurd hpa (h3 p hp)
            | some b =>
              cases b with
              | true => rfl
              | false => exact absurd ⟨p, hp, hpa⟩ hne
        rw [hn]
        simp only [evaluateMatchReport, hacc]
        cases policiesAccept a x.policies <;> cases st.isApplicable <;> simp

/-- Three policies: the middle one rejects, all are listed. -/
example : evalPolicies (7 : Nat) [⟨fun a => some (a > 5), true, some "a"⟩, ⟨fun a => some (a > 10), true, some "b"⟩,
    ⟨fun _ => some true, true, none⟩] = some [(true, some "a"), (false, some "b"), (true, none)] := by decide

end Mimic
