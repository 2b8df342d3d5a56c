import Verif.Proofs.BuilderMoves
import Verif.Props.Builders

/-!
# C115: moving a builder changes nothing
-/

set_option autoImplicit false

namespace Mimic

open Builders BuilderMoves

variable {α φ : Type}

/-- C115: a builder may be moved to a new object at any time. If the new object is used instead of the old one from then on, the test goes on
in the same way: the same operations are possible, and the same is observed at each of them. -/
theorem C115_moved {btr rest : BTrace α φ} {b : Nat} {k : Note α φ} (hk : (notes btr)[b]? = some k) (ht : k.there = true) :
    (∃ bw, BReach (btr ++ rest) bw) ↔
      ∃ bw, BReach (btr ++ (.moveBuilder b, []) :: renamedAll b (notes btr).length rest) bw := by
  rw [List.append_cons]
  constructor
  · rintro ⟨x, hx⟩
    obtain ⟨bw, hr⟩ := reach_prefix hx
    obtain ⟨bw', hr', hm⟩ := move hr hk ht
    obtain ⟨x', h1, _⟩ := (forward hr hr' hm rest).1 x hx
    exact ⟨x', h1⟩
  · rintro ⟨x', hx'⟩
    obtain ⟨y, hy⟩ := reach_prefix hx'
    obtain ⟨bw, hr, _⟩ := reach_snoc hy
    obtain ⟨bw', hr', hm⟩ := move hr hk ht
    obtain ⟨x, h1, _⟩ := (forward hr hr' hm rest).2 x' hx'
    exact ⟨x, h1⟩

/-- C115: the program also ends in the same way, if it does, and the same operations are forbidden. -/
theorem C115_stops {btr rest : BTrace α φ} {b : Nat} {k : Note α φ} (hk : (notes btr)[b]? = some k) (ht : k.there = true) {x x' : BWorld α φ}
    (h : BReach (btr ++ rest) x) (h' : BReach (btr ++ (.moveBuilder b, []) :: renamedAll b (notes btr).length rest) x') (op : BOp α φ)
    (s : Stop) : x.step op = .error s ↔ x'.step (renamed b (notes btr).length op) = .error s := by
  rw [List.append_cons] at h'
  obtain ⟨bw, hr⟩ := reach_prefix h
  obtain ⟨bw', hr', hm⟩ := move hr hk ht
  obtain ⟨y, h1, h2⟩ := (forward hr hr' hm rest).1 x h
  obtain rfl := reach_unique h1 h'
  have := h2.step op
  cases ho : x.step op with
  | error e => rw [ho] at this; simp only [Both] at this; rw [this]
  | ok p =>
    rw [ho] at this
    obtain ⟨z, h3, _⟩ := this
    rw [h3]
    simp

/-- C115: the object that was moved from is still there, but it has nothing to offer and keeps no sequence alive; only ending it or moving it
again is allowed. -/
theorem C115_shell {btr : BTrace α φ} {tr : Trace α} {b : Nat} {k : Note α φ} (hk : (notes btr)[b]? = some k) :
    (∃ k', (notes (btr ++ [(.moveBuilder b, [])]))[b]? = some k' ∧ k'.keeps = []) ∧
    (∀ item, ¬ Allowed (btr ++ [(.moveBuilder b, [])]) tr (.extend b item)) ∧
    ¬ Allowed (btr ++ [(.moveBuilder b, [])]) tr (.finalize b) := by
  have hlt : b < (notes btr).length := by
    rcases Nat.lt_or_ge b (notes btr).length with h | h
    · exact h
    · rw [List.getElem?_eq_none h] at hk; simp at hk
  have hn : (notes (btr ++ [(BOp.moveBuilder b, ([] : List Event))]))[b]? = some { k with usable := false, keeps := [] } := by
    unfold notes at hk hlt ⊢
    rw [List.foldl_append]
    simp only [List.foldl_cons, List.foldl_nil, noteStep, hk]
    rw [List.getElem?_append_left (by simpa using hlt), List.getElem?_set_self hlt]
  refine ⟨⟨_, hn, rfl⟩, fun item => ?_, ?_⟩
  · rintro ⟨k', h1, _, h3, _⟩
    rw [hn] at h1
    cases h1
    simp at h3
  · rintro ⟨k', h1, _, h3, _⟩
    rw [hn] at h1
    cases h1
    simp at h3

/-- C115: whenever the object that was moved from ends, nothing happens, and everything goes on in the same way. -/
theorem C115_end {btr rest after : BTrace α φ} {b : Nat} {k : Note α φ} (hk : (notes btr)[b]? = some k) (ht : k.there = true) :
    (∃ bw, BReach (btr ++ rest ++ after) bw) ↔
      ∃ bw, BReach (btr ++ (.moveBuilder b, []) :: renamedAll b (notes btr).length rest ++
        (.dropBuilder b, []) :: renamedAll b (notes btr).length after) bw := by
  rw [List.append_cons (btr ++ (BOp.moveBuilder b, ([] : List Event)) :: renamedAll b (notes btr).length rest),
    List.append_cons btr (BOp.moveBuilder b, ([] : List Event))]
  constructor
  · rintro ⟨x, hx⟩
    obtain ⟨y, hy⟩ := reach_prefix hx
    obtain ⟨bw, hr⟩ := reach_prefix hy
    obtain ⟨bw', hr', hm⟩ := move hr hk ht
    obtain ⟨y', h1, h2⟩ := (forward hr hr' hm rest).1 y hy
    obtain ⟨z, h3, h4⟩ := h2.drop
    obtain ⟨x', h5, _⟩ := (forward hy (h1.step h3) h4 after).1 x hx
    exact ⟨x', h5⟩
  · rintro ⟨x', hx'⟩
    obtain ⟨z, hz⟩ := reach_prefix hx'
    obtain ⟨y', hy', _⟩ := reach_snoc hz
    obtain ⟨v, hv⟩ := reach_prefix hy'
    obtain ⟨bw, hr, _⟩ := reach_snoc hv
    obtain ⟨bw', hr', hm⟩ := move hr hk ht
    obtain ⟨y, h1, h2⟩ := (forward hr hr' hm rest).2 y' hy'
    obtain ⟨z', h3, h4⟩ := h2.drop
    obtain ⟨x, h5, _⟩ := (forward h1 (hy'.step h3) h4 after).2 x' hx'
    exact ⟨x, h5⟩

namespace BuilderMoves

/-- A test that keeps a builder, adds to it, and makes an expectation out of it. -/
def start : List (BOp Nat Nat) := [.newMock, .newSequence .lazy, .beginExpect 0 true [], .extend 0 (.sequences [0])]

/-- How it goes on; builder 2 is another one, and builder 3 is what becomes of builder 1. -/
def go : List (BOp Nat Nat) :=
  [.dropObject 0, .beginExpect 0 true [], .extend 1 (.times 2 3), .finalize 3, .call 0 7, .dropBuilder 0, .dropBuilder 1, .dropBuilder 3, .destroy 0]

/-- With a move of builder 1 in between: the new object has the number 2. -/
example : go.map (renamed 1 2) =
    [.dropObject 0, .beginExpect 0 true [], .extend 2 (.times 2 3), .finalize 4, .call 0 7, .dropBuilder 0, .dropBuilder 2, .dropBuilder 4,
      .destroy 0] := rfl

/-- The history of the operations. -/
def record (ops : List (BOp Nat Nat)) : BTrace Nat Nat := (Builders.play ([], BWorld.init) ops).1

/-- Builder 1 is there after the first part, and both tests happen as `C115_moved` says; the expectation is unfulfilled in both. -/
example : ((notes (record start))[1]?.map (·.there)) = some true ∧ (notes (record start)).length = 2 := by decide +kernel

example : (record (start ++ go)).map (·.2) =
    [[.mockCreated 0], [.sequenceCreated 0 .lazy], [], [], [], [], [], [.created 0], [.fullMatch 0], [], [], [],
      [.destroyed 0, .unfulfilled 0, .sequenceError 0 0 1, .sequenceDestroyed 0]] := by decide +kernel

example : (record (start ++ .moveBuilder 1 :: go.map (renamed 1 2))).map (·.2) =
    [[.mockCreated 0], [.sequenceCreated 0 .lazy], [], [], [], [], [], [], [.created 0], [.fullMatch 0], [], [], [],
      [.destroyed 0, .unfulfilled 0, .sequenceError 0 0 1, .sequenceDestroyed 0]] := by decide +kernel

/-- The old object may end in between, as `C115_end` says. -/
example : (record (start ++ .moveBuilder 1 :: (go.take 4).map (renamed 1 2) ++ .dropBuilder 1 :: (go.drop 4).map (renamed 1 2))).map (·.2) =
    [[.mockCreated 0], [.sequenceCreated 0 .lazy], [], [], [], [], [], [], [.created 0], [], [.fullMatch 0], [], [], [],
      [.destroyed 0, .unfulfilled 0, .sequenceError 0 0 1, .sequenceDestroyed 0]] := by decide +kernel

/-- Without the renaming it would not work: what was moved from cannot be used. -/
example : (record (start ++ .moveBuilder 1 :: go)).map (·.2) ≠ (record (start ++ .moveBuilder 1 :: go.map (renamed 1 2))).map (·.2) := by
  decide +kernel

end BuilderMoves

end Mimic
