import Verif.Proofs.Ahead
import Verif.Proofs.Demo

/-!
# Tests do not run into dead ends (C94)
-/

set_option autoImplicit false

namespace Mimic.Ahead

open Language (passes)

variable {α : Type}

/-- C94: if nothing has failed so far, and each expectation that wants calls accepts some call at all, then there are calls after which
nothing is wanted anymore; then the expectations and sequences may end in any order and nothing fails. -/
theorem C94_calls {tr : Trace α} {w : World α} (h : Reach tr w) (hp : passes tr.events) (hc : ∀ e, Wants tr e → Possible tr e)
    (hsat : ∀ e d, tr.live e → tr.decl e = some d → ∀ p ∈ d.policies, p.isSatisfied = true) :
    ∃ calls w', (∀ st ∈ calls, isCall st.1 = true) ∧ Reach (tr ++ calls) w' ∧
      ∀ (ends : Trace α) (w'' : World α), (∀ st ∈ ends, isEnd st.1 = true) → Reach (tr ++ calls ++ ends) w'' →
        passes (Trace.events (tr ++ calls ++ ends)) := by
  obtain ⟨calls, w', h1, h2, h3, h4⟩ := satisfiable (abs w).exps.length _ h hp hc (fun e d hd => by
    apply Classical.byContradiction
    intro hn
    have := h.view.2.exps e
    rw [hd, List.getElem?_eq_none (by omega)] at this
    simp at this) (Nat.le_refl _)
  refine ⟨calls, w', h1, h2, fun ends w'' he hr => ?_⟩
  refine (ends_pass h3 (fun e ht => ?_) ?_ _ rfl he hr).1
  · by_cases hd : Event.destroyed e ∈ Trace.events (tr ++ calls)
    · exact enough_at_end h2 h3 hd ht
    · obtain ⟨d, hd', -⟩ := id ht
      exact h4 e ⟨⟨⟨d, hd'⟩, hd⟩, ht⟩
  · intro e d hl hd
    obtain ⟨g1, g2⟩ := kept h h1 h2 e
    exact hsat e d (g1.mp hl) (by rw [← g2]; exact hd)

/-- C94: a test that has been carried out up to some point can be finished without a failure, by calls only, iff nothing has failed so far and
each expectation that wants calls accepts some call. The calls so far do not matter, nor do sequences, nor other expectations. -/
theorem C94_open {tr : Trace α} {w : World α} (h : Reach tr w)
    (hsat : ∀ e d, tr.live e → tr.decl e = some d → ∀ p ∈ d.policies, p.isSatisfied = true) :
    (∃ calls ends, Finishes tr calls ends ∧ passes (Trace.events (tr ++ calls ++ ends))) ↔
      passes tr.events ∧ ∀ e, Wants tr e → Possible tr e := by
  constructor
  · rintro ⟨calls, ends, hf, hp⟩
    obtain ⟨w', hr⟩ := hf.possible
    refine ⟨fun ev hev => hp ev (by rw [List.append_assoc, events_append]; simp [hev]), ?_⟩
    rintro e ⟨hl, d, hd, hlt⟩
    have hd1 : Trace.decl (tr ++ calls ++ ends) e = some d := decl_mono (decl_mono hd)
    have hdead : Event.destroyed e ∈ Trace.events (tr ++ calls ++ ends) := by
      apply Classical.byContradiction
      intro hn
      exact hf.expectations e ⟨⟨d, hd1⟩, hn⟩
    have hen := enough_at_end hr hp hdead
    have hmore : tr.matched e < Trace.matched (tr ++ calls ++ ends) e := by
      apply Classical.byContradiction
      intro hn
      exact hen ⟨d, hd1, by omega⟩
    have hin : Event.fullMatch e ∈ Trace.events (calls ++ ends) := by
      rw [List.append_assoc] at hmore
      simp only [Trace.matched, events_append tr, List.count_append] at hmore
      exact List.count_pos_iff.mp (by omega)
    obtain ⟨⟨op, ev⟩, hst, hev⟩ := List.mem_flatMap.mp hin
    obtain ⟨pre, post, hsplit⟩ := List.append_of_mem hst
    rw [List.append_assoc, hsplit, ← List.append_assoc] at hr
    obtain ⟨w0, w1, h0, hs⟩ := hr.split
    obtain ⟨m, a, -, ⟨-, d', hd', -, hacc⟩, -⟩ := fullMatch_source h0 hs hev
    have : Trace.decl (tr ++ pre) e = some d := decl_mono hd
    rw [this] at hd'
    obtain rfl := Option.some.inj hd'
    exact ⟨d, a, hd, hacc⟩
  · rintro ⟨hp, hc⟩
    obtain ⟨calls, w', h1, h2, h3⟩ := C94_calls h hp hc hsat
    obtain ⟨ends, w'', h4, h5, h6, h7⟩ := ends_exist h2
    exact ⟨calls, ends, ⟨h1, h4, ⟨w'', h5⟩, h6, h7⟩, h3 ends w'' h4 h5⟩

/-- C94: whatever is done to finish a test without a failure, at least as many calls are made as the expectations in force lack together. -/
theorem C94_at_least {tr rest : Trace α} {w : World α} (h : Reach (tr ++ rest) w) (hp : passes (Trace.events (tr ++ rest)))
    {es : List Nat} (hes : YoungestFirst tr.live es) (hend : ∀ e ∈ es, ¬ Trace.live (tr ++ rest) e) :
    (es.map (missing tr)).sum ≤ rest.countP (fun st => isCall st.1) := by
  have h1 := at_least (hes.1.imp (fun h => by omega)) (fun e he => ((hes.2 e).mp he).1) _ rfl h
  have h2 : (es.map (missing (tr ++ rest))).sum = 0 := by
    apply sum_zero
    intro k hk
    obtain ⟨e, he, rfl⟩ := List.mem_map.mp hk
    obtain ⟨d, hd⟩ := ((hes.2 e).mp he).1
    have hd1 : Trace.decl (tr ++ rest) e = some d := decl_mono hd
    have hdead : Event.destroyed e ∈ Trace.events (tr ++ rest) := by
      apply Classical.byContradiction
      intro hn
      exact hend e he ⟨⟨d, hd1⟩, hn⟩
    have := enough_at_end h hp hdead
    have h3 : ¬ ((Trace.matched (tr ++ rest) e : Int) < d.min) := fun hlt => this ⟨d, hd1, hlt⟩
    simp only [missing, hd1]
    omega
  omega

/-- C94: if each expectation that wants calls has a call of its own, exactly as many calls are enough as they lack together. -/
theorem C94_exactly {tr : Trace α} {w : World α} (h : Reach tr w) (hp : passes tr.events) (hc : ∀ e, Wants tr e → Own tr e)
    (hsat : ∀ e d, tr.live e → tr.decl e = some d → ∀ p ∈ d.policies, p.isSatisfied = true)
    {es : List Nat} (hes : YoungestFirst tr.live es) :
    ∃ calls ends, Finishes tr calls ends ∧ passes (Trace.events (tr ++ calls ++ ends)) ∧ calls.length = (es.map (missing tr)).sum := by
  obtain ⟨calls, w', h1, h2, h3, h4, h5⟩ := exactly es _ h hp hc hes rfl
  obtain ⟨ends, w'', k1, k2, k3, k4⟩ := ends_exist h2
  refine ⟨calls, ends, ⟨h1, k1, ⟨w'', k2⟩, k3, k4⟩, ?_, h5⟩
  refine (ends_pass h3 (fun e ht => ?_) ?_ _ rfl k1 k2).1
  · by_cases hd : Event.destroyed e ∈ Trace.events (tr ++ calls)
    · exact enough_at_end h2 h3 hd ht
    · obtain ⟨d, hd', -⟩ := id ht
      exact h4 e ⟨⟨⟨d, hd'⟩, hd⟩, ht⟩
  · intro e d hl hd
    obtain ⟨g1, g2⟩ := kept h h1 h2 e
    exact hsat e d (g1.mp hl) (by rw [← g2]; exact hd)

/-! ## Concrete cases -/

/-- Accepts calls with the number `n`. -/
def is (n : Nat) : Policy Nat := { accepts := fun a => some (a == n) }

/-- In the middle of a test: two sequences of different kinds, the third expectation is in both; the first one has got one of two calls, the
optional fourth one has been skipped or not. -/
def middle : List (Op Nat) :=
  [.newSequence .lazy, .newSequence .greedy, .newMock, .newMock, .expect 0 2 3 [0] [is 1], .expect 1 1 1 [1] [is 1],
    .expect 0 1 2 [0, 1] [is 2], .expect 1 0 2 [1] [is 2], .expect 0 0 1 [] [is 1], .call 0 1, .call 0 1, .call 1 1]

/-- The hypotheses are met: nothing failed, and the expectations 0 and 2 want one call each, which exist. -/
example : (World.final middle).2.events = [.sequenceCreated 0 .lazy, .sequenceCreated 1 .greedy, .mockCreated 0, .mockCreated 1, .created 0,
    .created 1, .created 2, .created 3, .created 4, .fullMatch 4, .fullMatch 0, .fullMatch 1] ∧
    ([4, 3, 2, 1, 0].map (missing (World.final middle).2)) = [0, 0, 1, 0, 1] := by decide +kernel

/-- Two more calls finish it. -/
example : (runProgram (middle ++ [.call 0 1, .call 0 2, .destroy 4, .destroy 3, .dropSequence 0, .destroy 2, .destroy 1, .destroy 0,
    .dropSequence 1])).toOption.map (fun r => r.2.filter Language.failure) = some [] := by decide +kernel

/-- Expectations without calls of their own may need more calls than they lack: here the older one lacks one call, but the younger one gets
all calls until it has had enough. With one or two calls the test fails, with three it passes. -/
theorem C94_own_needed : ∀ n, n < 4 →
    ((runProgram ([.newMock, .expect 0 1 1 [] [], .expect 0 0 2 [] []] ++ List.replicate n (.call 0 0) ++ [.destroy 1, .destroy 0] : List (Op Nat))).toOption.map
      (fun r => r.2.any Language.failure)) = some (decide (n ≠ 3)) := by decide +kernel

end Mimic.Ahead
