import Verif.Props.SequenceEnd

/-!
# C17, C18: no assertion fails, no undefined behaviour, and the capacity of sequences
-/

set_option autoImplicit false

namespace Mimic

variable {α : Type}

/-- More expectations than `int` can number are attached to sequence `s`. -/
def Trace.atCapacity (tr : Trace α) (s : Nat) : Prop :=
  ∃ es, OldestFirst (fun e => tr.attached e s) es ∧ 2147483647 < es.length

theorem atCapacity_iff {tr : Trace α} {S : Spec.State α} (h : View tr S) (s : Nat) :
    tr.atCapacity s ↔ ¬ ((S.attached s).length : Int) ≤ intMax := by
  unfold Trace.atCapacity
  constructor
  · rintro ⟨es, he, hl⟩
    have := oldestFirst_unique he (attached_oldestFirst h s)
    rw [this, List.length_map] at hl
    unfold intMax; omega
  · intro hl
    refine ⟨_, attached_oldestFirst h s, ?_⟩
    rw [List.length_map]
    unfold intMax at hl; omega

/-- The operation attaches a new expectation to a sequence that is at capacity. -/
def Trace.overflows (tr : Trace α) : Op α → Prop
  | .expect _ min max seqs _ => (0 ≤ min ∧ min ≤ max) ∧ seqs.Nodup ∧ ∃ s ∈ seqs, tr.atCapacity s
  | _ => False

theorem overflows_iff {tr : Trace α} {S : Spec.State α} (h : View tr S) (op : Op α) :
    tr.overflows op ↔ S.full op := by
  cases op <;> simp only [Trace.overflows, Spec.State.full]
  unfold Spec.validTimes
  simp only [atCapacity_iff h]

/-- C17: every client operation on existing objects is carried out, except that attaching to a sequence at
capacity ends in `std::terminate`; and an operation is classified as client error iff it uses something
that does not exist. In particular no assertion fails, nothing is accessed out of range and no `int`
overflows. -/
theorem C17_progress {tr : Trace α} {w : World α} (h : Reach tr w) (op : Op α) :
    (tr.valid op → ¬ tr.overflows op → ∃ w' ev, w.step op = .ok (w', ev)) ∧
    (tr.valid op → tr.overflows op → ∃ why, w.step op = .error (.terminate why)) ∧
    (¬ tr.valid op → ∃ why, w.step op = .error (.client why)) := by
  have hv := h.view.2
  have hst := h.view.1.step op
  rw [hv.valid_iff, overflows_iff hv]
  split at hst
  · rename_i hn
    rw [hn]
    simp only [reduceCtorEq, exists_false, false_implies, not_false_eq_true, true_implies, true_and]
    exact hst
  · rename_i S' ev hn
    rw [hn]
    refine ⟨fun _ hf => ?_, fun _ hf => hst.1 hf, fun hne => absurd ⟨_, rfl⟩ hne⟩
    obtain ⟨w', h1, _⟩ := hst.2 hf
    exact ⟨w', ev, h1⟩

/-- C17: no operation of any client, in any reachable state, runs into undefined behaviour. -/
theorem C17_no_ub {tr : Trace α} {w : World α} (h : Reach tr w) (op : Op α) (why : String) :
    w.step op ≠ .error (.ub why) := by
  obtain ⟨h1, h2, h3⟩ := C17_progress h op
  intro hc
  by_cases hv : tr.valid op
  · by_cases hf : tr.overflows op
    · obtain ⟨_, h⟩ := h2 hv hf; rw [hc] at h; simp at h
    · obtain ⟨_, _, h⟩ := h1 hv hf; rw [hc] at h; simp at h
  · obtain ⟨_, h⟩ := h3 hv; rw [hc] at h; simp at h

/-- C17 for whole programs. -/
theorem C17_program_no_ub (ops : List (Op α)) (why : String) : runProgram ops ≠ .error (.ub why) := by
  have key : ∀ (ops : List (Op α)) {tr : Trace α} {w : World α}, Reach tr w →
      w.run ops ≠ .error (.ub why) := by
    intro ops
    induction ops with
    | nil => intro tr w _ hc; simp [World.run] at hc
    | cons op ops ih =>
      intro tr w h hc
      simp only [World.run, bind, Except.bind] at hc
      cases hs : w.step op with
      | error x =>
        rw [hs] at hc
        simp only [Except.error.injEq] at hc
        rw [hc] at hs
        exact C17_no_ub h op why hs
      | ok r =>
        rw [hs] at hc
        simp only at hc
        have := ih (h.step (w' := r.1) (ev := r.2) hs)
        cases hr : r.1.run ops with
        | error x =>
          rw [hr] at hc
          simp only [Except.error.injEq] at hc
          rw [hc] at hr
          exact this hr
        | ok r' => rw [hr] at hc; simp [pure, Except.pure] at hc
  exact key ops Reach.init

/-- A valid operation, an invalid one, and the state they are tried in. -/
example : ∃ (tr : Trace Nat) (w : World Nat), Reach tr w ∧ tr.valid (.dropSequence 0) ∧
    ¬ tr.valid (.destroy 3) := by
  have hr := reach_final (α := Nat) [.newMock, .newSequence .lazy, .expect 0 1 1 [0] []]
  refine ⟨_, _, hr, (hr.view.2.valid_iff _).mpr ⟨_, rfl⟩, ?_⟩
  rw [hr.view.2.valid_iff]
  rintro ⟨r, hr⟩
  have : (none : Option (Spec.State Nat × List Event)) = some r := by rw [← hr]; rfl
  simp at this

/-! ### C18 -/

/-- `n` successive `add`s on a fresh sequence: the ids handed out, or `none` if one of them threw. -/
def Sequence.addMany (s : Sequence) : Nat → Option (Sequence × List Int)
  | 0 => some (s, [])
  | n + 1 =>
    match s.addMany n with
    | none => none
    | some (s', ids) =>
      match s'.add with
      | none => none
      | some (s'', i) => some (s'', ids ++ [i])

/-- C18: a sequence hands out the ids 0, 1, 2, ... in this order, for up to 2^31 expectations, all of
them representable as `int`; one more `add` throws. -/
theorem C18_ids (st : Strategy) (n : Nat) :
    (n ≤ 2147483648 → ∃ s, (Sequence.new st).addMany n = some (s, (List.range n).map Int.ofNat) ∧
      s.entries.length = n ∧ ∀ i ∈ (List.range n).map Int.ofNat, 0 ≤ i ∧ i ≤ 2147483647) ∧
    (2147483648 < n → (Sequence.new st).addMany n = none) := by
  induction n with
  | zero => exact ⟨fun _ => ⟨_, rfl, rfl, by simp⟩, fun h => by omega⟩
  | succ n ih =>
    constructor
    · intro hn
      obtain ⟨s, h1, h2, h3⟩ := ih.1 (by omega)
      have hadd : s.add = some ({ s with entries := s.entries ++ [EState.unsatisfied] }, (n : Int)) := by
        unfold Sequence.add
        rw [if_pos (by rw [h2]; unfold intMax; omega)]
        simp [h2]
      refine ⟨{ s with entries := s.entries ++ [EState.unsatisfied] }, ?_, by simp [h2], ?_⟩
      · unfold Sequence.addMany
        rw [h1]
        simp only [hadd, List.range_succ, List.map_append, List.map_cons, List.map_nil]
        rfl
      · intro i hi
        rw [List.mem_map] at hi
        obtain ⟨j, hj, rfl⟩ := hi
        rw [List.mem_range] at hj
        constructor
        · exact Int.natCast_nonneg j
        · show (j : Int) ≤ 2147483647
          omega
    · intro hn
      unfold Sequence.addMany
      by_cases hlt : 2147483648 < n
      · rw [ih.2 hlt]
      · obtain ⟨s, h1, h2, _⟩ := ih.1 (by omega)
        rw [h1]
        have : s.add = none := by
          unfold Sequence.add
          rw [if_neg (by rw [h2]; unfold intMax; omega)]
        simp [this]

theorem fill (st : Strategy) (n : Nat) (hn : n ≤ 2147483648) :
    ∃ (tr : Trace α) (w : World α), Reach tr w ∧ ((abs w).attached 0).length = n ∧
      tr.valid (.expect 0 1 1 [0] []) := by
  induction n with
  | zero =>
    have hr := reach_final (α := α) [.newMock, .newSequence st]
    refine ⟨_, _, hr, ?_, (hr.view.2.valid_iff _).mpr ?_⟩
    · cases st <;> rfl
    · cases st <;> exact ⟨_, rfl⟩
  | succ n ih =>
    obtain ⟨tr, w, hr, hlen, hval⟩ := ih (by omega)
    have hno : ¬ tr.overflows (.expect 0 1 1 [0] []) := by
      rintro ⟨_, _, s, hs, hc⟩
      rw [List.mem_singleton] at hs
      subst hs
      rw [atCapacity_iff hr.view.2, hlen] at hc
      unfold intMax at hc; omega
    obtain ⟨w', ev, hs⟩ := (C17_progress hr _).1 hval hno
    have hspec := hr.spec_step hs
    obtain ⟨r, hvs⟩ := (hr.view.2.valid_iff _).mp hval
    have hv' := (hr.step hs).view.2
    refine ⟨_, w', hr.step hs, ?_, ?_⟩
    · simp only [Spec.State.step] at hspec
      split at hspec
      · rw [if_pos (by constructor; exact ⟨by omega, by omega⟩; simp)] at hspec
        simp only [Option.some.injEq, Prod.mk.injEq] at hspec
        rw [← hspec.1]
        have : ∀ (x : Spec.Exp α), x.seqs = [0] →
            (({ abs w with exps := (abs w).exps ++ [x] } : Spec.State α).attached 0).length = n + 1 := by
          intro x hx
          unfold Spec.State.attached at hlen ⊢
          simp only [List.filter_append, List.length_append, hlen]
          simp [hx]
        exact this _ rfl
      · simp at hspec
    · rw [hv'.valid_iff]
      simp only [Spec.State.step] at hspec hvs
      split at hspec
      · rename_i hok
        rw [if_pos (by constructor; exact ⟨by omega, by omega⟩; simp)] at hspec
        simp only [Option.some.injEq, Prod.mk.injEq] at hspec
        rw [← hspec.1]
        rw [← Option.isSome_iff_exists]
        simp only [Spec.State.step]
        split
        · split <;> rfl
        · rename_i hn
          exact absurd hok hn
      · simp at hspec

/-- C18: the boundary is reached exactly as stated: there are histories where 2^31 expectations are attached
to one sequence, all of them accepted, and in each such state attaching one more ends in
`std::terminate`. -/
theorem C18_boundary (st : Strategy) : ∃ (tr : Trace α) (w : World α), Reach tr w ∧
    (∃ es, OldestFirst (fun e => tr.attached e 0) es ∧ es.length = 2147483648) ∧
    ∃ why, w.step (.expect 0 1 1 [0] []) = .error (.terminate why) := by
  obtain ⟨tr, w, hr, hlen, hval⟩ := fill (α := α) st 2147483648 (Nat.le_refl _)
  refine ⟨tr, w, hr, ⟨_, attached_oldestFirst hr.view.2 0, by rw [List.length_map, hlen]⟩, ?_⟩
  refine (C17_progress hr _).2.1 hval ⟨⟨by omega, by omega⟩, by simp, 0, by simp, ?_⟩
  exact ⟨_, attached_oldestFirst hr.view.2 0, by rw [List.length_map, hlen]; omega⟩

/-- C18: as long as no sequence holds more than `INT_MAX` expectations, definitions never fail abnormally. -/
theorem C18_accepts_below {tr : Trace α} {w : World α} (h : Reach tr w) {m : Nat} {min max : Int}
    {ss : List Nat} {ps : List (Policy α)} (hv : tr.valid (.expect m min max ss ps))
    (hc : ∀ s ∈ ss, ∀ es, OldestFirst (fun e => tr.attached e s) es → es.length ≤ 2147483647) :
    ∃ w' ev, w.step (.expect m min max ss ps) = .ok (w', ev) := by
  refine (C17_progress h _).1 hv ?_
  rintro ⟨_, _, s, hs, es, he, hl⟩
  have := hc s hs es he
  omega

end Mimic
