import Verif.Proofs.Again

/-!
# C84: mocks have no memory
-/

set_option autoImplicit false

namespace Mimic.Again

open Mimic.Parts

variable {α : Type}

/-- C84: whatever happened before, mocks all of whose expectations have ended are like new: a part of a test that uses them observes exactly
what it observes with new mocks in a test of its own. -/
theorem C84_like_new {tr : Trace α} {w : World α} (h : Reach tr w) {ms : List Nat} (hn : ms.Nodup) (hb : ∀ m ∈ ms, Bare tr m)
    (ops : List (Op α)) (log : List Event) :
    (∃ w', beginWith ms w ops = .ok (w', log)) ↔
      ∃ v, runProgram (alone ms.length ops) = .ok (v, creations ms.length ++ log) := by
  have hw := within_bare hn (fun m hm => bare_coll h (hb m hm))
  rw [runProgram_alone]
  rcases goOn_like ops hw (older_all (entries_lt h) ms) with ⟨v', w', log', N', h1, h2, _⟩ | ⟨x, y, h1, h2⟩
  · unfold beginWith
    rw [h1, h2]
    constructor
    · rintro ⟨w'', h3⟩
      simp only [Except.ok.injEq, Prod.mk.injEq] at h3
      exact ⟨v', by rw [h3.2]⟩
    · rintro ⟨v'', h3⟩
      simp only [Except.ok.injEq, Prod.mk.injEq, List.append_cancel_left_eq] at h3
      exact ⟨w', by rw [h3.2]⟩
  · unfold beginWith
    rw [h1, h2]
    constructor
    · rintro ⟨_, h3⟩; cases h3
    · rintro ⟨_, h3⟩; cases h3

/-- C84: when such a part has ended all the expectations it declared, the mocks are like new again. -/
theorem C84_still_like_new {tr : Trace α} {w w' : World α} (h : Reach tr w) {ms : List Nat} (hn : ms.Nodup) (hb : ∀ m ∈ ms, Bare tr m)
    {ops : List (Op α)} {log : List Event} (hr : beginWith ms w ops = .ok (w', log)) (ht : Tidy log) :
    ∃ tr', Reach (tr ++ tr') w' ∧ ∀ m ∈ ms, Bare (tr ++ tr') m := by
  obtain ⟨tr', h'⟩ := goOn_reach ops h hr
  refine ⟨tr', h', fun m hm => coll_bare h' ?_⟩
  have hw := within_bare hn (fun m hm => bare_coll h (hb m hm))
  rcases goOn_like ops hw (older_all (entries_lt h) ms) with ⟨v', w'', log', N', h1, h2, h3, _, h4⟩ | ⟨x, y, _, h2⟩
  · unfold beginWith at hr
    rw [hr] at h2
    simp only [Except.ok.injEq, Prod.mk.injEq] at h2
    obtain ⟨rfl, rfl⟩ := h2
    obtain ⟨k, hk⟩ := At.of_mem hm
    have hk' : At N'.mocks k m := by
      obtain ⟨t, ht'⟩ := h4
      rw [← ht']
      exact hk.more_list t
    obtain ⟨es, Es, h5, h6, h7⟩ := h3.colls.get k m hk'
    have hv : runProgram (alone ms.length ops) = .ok (v', creations ms.length ++ log) := by rw [runProgram_alone, h1]
    have := tidy_coll hv ht h5
    subst this
    cases h7
    exact h6
  · unfold beginWith at hr
    rw [hr] at h2
    cases h2

/-- C84: so parts of a test that clean up after themselves can be carried out one after the other with the same mocks, in any order and
any number of times: each of them observes what it observes alone. -/
theorem C84_sections {ms : List Nat} (hn : ms.Nodup) (parts : List (List (Op α) × List Event))
    (hp : ∀ p ∈ parts, Tidy p.2 ∧ ∃ v, runProgram (alone ms.length p.1) = .ok (v, creations ms.length ++ p.2)) :
    ∀ {tr : Trace α} {w : World α}, Reach tr w → (∀ m ∈ ms, Bare tr m) → sections ms (parts.map (·.1)) w = .ok (parts.map (·.2)) := by
  induction parts with
  | nil => intro _ _ _ _; rfl
  | cons p parts ih =>
    intro tr w h hb
    obtain ⟨ht, hv⟩ := hp p (by simp)
    obtain ⟨w', hr⟩ := (C84_like_new h hn hb p.1 p.2).mpr hv
    obtain ⟨tr', h', hb'⟩ := C84_still_like_new h hn hb hr ht
    simp only [List.map_cons, sections, hr, ih (fun q hq => hp q (by simp [hq])) h' hb']

/-! ## Examples -/

def wants (n : Nat) : Policy Nat := { accepts := fun a => some (a == n) }

/-- Two sections with the same mock: one expects a call and gets another one, the other one is fine. -/
def bad : List (Op Nat) := [.expect 0 1 1 [] [wants 1], .call 0 2, .destroy 0]
def good : List (Op Nat) :=
  [.newSequence .lazy, .expect 0 1 1 [0] [wants 1], .expect 0 1 1 [0] [wants 2], .call 0 1, .call 0 2, .destroy 0, .destroy 1]

/-- A history before: a mock, an expectation, a call, and its end. -/
def before : List (Op Nat) := [.newMock, .newMock, .expect 1 1 1 [] [wants 7], .call 1 7, .destroy 0]

example : ((runProgram before).toOption.map fun r => (sections [1] [bad, good, bad] r.1).toOption) =
    some (some [[.created 0, .noMatch [0], .destroyed 0, .unfulfilled 0],
      [.sequenceCreated 0 .lazy, .created 0, .created 1, .fullMatch 0, .fullMatch 1, .destroyed 0, .destroyed 1],
      [.created 0, .noMatch [0], .destroyed 0, .unfulfilled 0]]) := by decide +kernel

/-- It is needed that expectations end: a leftover makes a difference. -/
example : ((runProgram [.newMock, .expect 0 0 9 [] [wants 2]]).toOption.map fun r => (sections [0] [bad] r.1).toOption) =
    some (some [[.created 0, .fullMatch 1, .destroyed 0, .unfulfilled 0]]) := by decide +kernel

end Mimic.Again
