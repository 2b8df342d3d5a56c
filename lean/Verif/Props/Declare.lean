import Verif.Proofs.Declare
import Verif.Proofs.Demo

/-!
# C102: the order of declarations
-/

set_option autoImplicit false

namespace Mimic.Declare

open Mimic.Tell Mimic.Language

variable {α : Type}

/-- C102: two declarations next to each other, which name no common sequence and which no call fits both, can be exchanged. The rest of the
test then reports the same about the same expectations. -/
theorem C102_swap {before after : List (Op α)} {d d' : Decl α} (hd : Legal d) (hd' : Legal d') (hu : Unrelated d d')
    {w : World α} {evs : List Event} (h : runProgram (before ++ op d :: op d' :: after) = .ok (w, evs)) :
    ∃ (ev₀ rest rest' : List Event) (w₀ w' : World α), runProgram before = .ok (w₀, ev₀) ∧
      evs = ev₀ ++ .created (Merge.creations ev₀) :: .created (Merge.creations ev₀ + 1) :: rest ∧
      runProgram (before ++ op d' :: op d :: after.map (renameOp (Merge.creations ev₀))) =
        .ok (w', ev₀ ++ .created (Merge.creations ev₀) :: .created (Merge.creations ev₀ + 1) :: rest') ∧
      Same (Merge.creations ev₀) rest rest' :=
  exchange hd hd' hu h

/-- C102: in particular, the test passes in both cases or in none. -/
theorem C102_passes {j : Nat} {evs evs' : List Event} (h : Same j evs evs') : passes evs ↔ passes evs' := h.passes

/-- C102: declarations of which no two have a sequence or a call in common can be brought into any order. -/
theorem C102_any {ds ds' : List (Decl α)} (hp : ds.Perm ds') (hl : ∀ d ∈ ds, Legal d) (hu : ds.Pairwise Unrelated)
    {before after : List (Op α)} {w₀ w : World α} {ev₀ evs : List Event} (h₀ : runProgram before = .ok (w₀, ev₀))
    (h : runProgram (before ++ ds.map op ++ after) = .ok (w, evs)) :
    ∃ σ w' evs', Moved (Merge.creations ev₀) ds ds' σ ∧
      runProgram (before ++ ds'.map op ++ after.map (renumber σ)) = .ok (w', evs') ∧ (passes evs ↔ passes evs') :=
  rearrange hp hl hu h₀ h

/-- One call of the mock with exactly this argument. -/
def once (mock : Nat) (seqs : List Nat) (v : Nat) : Decl Nat where
  mock := mock
  min := 1
  max := 1
  seqs := seqs
  policies := [{ accepts := fun a => some (a == v) }]

/-- `n` calls of the mock with any argument. -/
def often (mock : Nat) (n : Int) : Decl Nat where
  mock := mock
  min := 0
  max := n
  seqs := []
  policies := []

theorem once_legal (mock : Nat) (seqs : List Nat) (v : Nat) (h : seqs.Nodup) : Legal (once mock seqs v) := ⟨by simp [once], by simp [once], h⟩

theorem once_says (mock : Nat) (seqs : List Nat) (v a : Nat) : Policy.says (once mock seqs v).policies a = some (a == v) := by
  simp [Policy.says, once]

/-- Whether a test passes, if it runs. -/
def verdict (p : List (Op Nat)) : Option Bool := (runProgram p).toOption.map fun r => r.2.all fun ev => !Language.failure ev

/-- A test with two declarations and two calls. -/
def test (d d' : Decl Nat) : List (Op Nat) :=
  [.newSequence .lazy, .newMock] ++ op d :: op d' :: [.call 0 1, .call 0 2, .dropSequence 0, .destroy 0, .destroy 1]

/-- C102: neither condition can be dropped. Two declarations with a common sequence, and two with a common call, that cannot be
exchanged: in this order the test passes, in the other order it does not. -/
theorem C102_needed :
    (∃ d d' : Decl Nat, Legal d ∧ Legal d' ∧ (∀ a, ¬ (Policy.says d.policies a = some true ∧ Policy.says d'.policies a = some true)) ∧
      verdict (test d d') = some true ∧ verdict (test d' d) = some false) ∧
    (∃ d d' : Decl Nat, Legal d ∧ Legal d' ∧ d.seqs = [] ∧ d'.seqs = [] ∧
      verdict (test d d') = some true ∧ verdict (test d' d) = some false) := by
  refine ⟨⟨once 0 [0] 1, once 0 [0] 2, once_legal _ _ _ (by simp), once_legal _ _ _ (by simp), ?_, by decide +kernel, by decide +kernel⟩,
    ⟨often 0 1, once 0 [] 1, ⟨by decide, by decide, by simp [often]⟩, once_legal _ _ _ (by simp), rfl, rfl, by decide +kernel,
      by decide +kernel⟩⟩
  intro a
  rw [once_says, once_says]
  simp
  omega

/-- The verdict is that of `Language.passes`. -/
theorem verdict_iff {p : List (Op Nat)} {w : World Nat} {evs : List Event} (h : runProgram p = .ok (w, evs)) :
    verdict p = some true ↔ passes evs := by
  simp [verdict, h, passes, Except.toOption]

/-- Declarations with pairwise different arguments and sequences are unrelated. -/
theorem once_unrelated {m m' : Nat} {ss ss' : List Nat} {v v' : Nat} (hs : ∀ s ∈ ss, s ∉ ss') (hv : m = m' → v ≠ v') :
    Unrelated (once m ss v) (once m' ss' v') := by
  refine ⟨hs, fun hm a => ?_⟩
  rw [once_says, once_says]
  have := hv hm
  simp
  omega

/-- Non-vacuity of C102_swap and C102_passes: exchanging the declarations in a test with two sequences, in which a call comes too often. -/
example : ∃ w' evs', runProgram ([.newSequence .lazy, .newSequence .greedy, .newMock] ++ op (once 0 [1] 2) :: op (once 0 [0] 1) ::
      ([.call 0 2, .call 0 2, .destroy 0, .call 0 1, .destroy 1] : List (Op Nat)).map (renameOp 0)) = .ok (w', evs') ∧ ¬ passes evs' := by
  let p : List (Op Nat) := [.newSequence .lazy, .newSequence .greedy, .newMock] ++ op (once 0 [0] 1) :: op (once 0 [1] 2) ::
    [.call 0 2, .call 0 2, .destroy 0, .call 0 1, .destroy 1]
  cases h : runProgram p with
  | error e =>
    have : (runProgram p).toOption.isSome = true := by decide +kernel
    rw [h] at this
    cases this
  | ok r =>
    obtain ⟨w, evs⟩ := r
    have hv : ¬ verdict p = some true := by decide +kernel
    rw [verdict_iff h] at hv
    obtain ⟨ev₀, rest, rest', w₀, w', h₀, rfl, h', hs⟩ := C102_swap (once_legal _ _ _ (by simp)) (once_legal _ _ _ (by simp))
      (once_unrelated (by simp) (by simp)) h
    have hev : ((runProgram ([.newSequence .lazy, .newSequence .greedy, .newMock] : List (Op Nat))).toOption.map fun r =>
        Merge.creations r.2) = some 0 := by decide +kernel
    rw [h₀] at hev
    have hj : Merge.creations ev₀ = 0 := by simpa [Except.toOption] using hev
    rw [hj] at h' hs hv
    refine ⟨w', _, h', fun hp => hv ?_⟩
    have := C102_passes hs
    unfold passes at *
    simp only [List.forall_mem_append, List.forall_mem_cons] at hp ⊢
    exact ⟨hp.1, hp.2.1, hp.2.2.1, this.mpr hp.2.2.2⟩

/-- Non-vacuity of C102_any: three declarations, in another order. -/
example : ∃ σ w' evs', Moved 0 [once 0 [0] 1, once 0 [] 2, once 1 [] 1] [once 1 [] 1, once 0 [0] 1, once 0 [] 2] σ ∧
    runProgram ([.newSequence .lazy, .newMock, .newMock] ++ [once 1 [] 1, once 0 [0] 1, once 0 [] 2].map op ++
      ([.call 1 1, .destroy 2, .call 0 2, .call 0 1, .destroy 1, .destroy 0] : List (Op Nat)).map (renumber σ)) = .ok (w', evs') ∧
    passes evs' := by
  let before : List (Op Nat) := [.newSequence .lazy, .newMock, .newMock]
  let p : List (Op Nat) := before ++ [once 0 [0] 1, once 0 [] 2, once 1 [] 1].map op ++
    [.call 1 1, .destroy 2, .call 0 2, .call 0 1, .destroy 1, .destroy 0]
  have hv : verdict p = some true := by decide +kernel
  have hb : ((runProgram before).toOption.map fun r => Merge.creations r.2) = some 0 := by decide +kernel
  cases h₀ : runProgram before with
  | error e => rw [h₀] at hb; cases hb
  | ok r₀ =>
    obtain ⟨w₀, ev₀⟩ := r₀
    have hj : Merge.creations ev₀ = 0 := by simpa [h₀, Except.toOption] using hb
    cases h : runProgram p with
    | error e => rw [verdict, h] at hv; cases hv
    | ok r =>
      obtain ⟨w, evs⟩ := r
      obtain ⟨σ, w', evs', m, r, q⟩ := C102_any (ds := [once 0 [0] 1, once 0 [] 2, once 1 [] 1]) (ds' := [once 1 [] 1, once 0 [0] 1, once 0 [] 2])
        ((List.perm_append_comm (l₁ := [once 0 [0] 1, once 0 [] 2]) (l₂ := [once 1 [] 1])))
        (by simp only [List.mem_cons, List.not_mem_nil, or_false]; rintro d (rfl | rfl | rfl) <;> exact once_legal _ _ _ (by simp))
        (by
          refine .cons ?_ (.cons ?_ (.cons (by simp) .nil))
          · simp only [List.mem_cons, List.not_mem_nil, or_false]
            rintro d (rfl | rfl) <;> exact once_unrelated (by simp) (by simp)
          · simp only [List.mem_cons, List.not_mem_nil, or_false]
            rintro d rfl
            exact once_unrelated (by simp) (by simp)) h₀ h
      rw [hj] at m
      exact ⟨σ, w', evs', m, r, q.mp ((verdict_iff h).mp hv)⟩

end Mimic.Declare
