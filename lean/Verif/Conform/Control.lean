import Verif.Conform.Sequence

/-!
# The repository's own tests of `ControlPolicy` and the `expect::times` family, carried out by the model

Transcribes the test cases of `/repo/test/unit-tests/ControlPolicy.cpp`. The tests use a strategy of their own whose priority is the
id (TestTypes.hpp 472-480), and the model has only the library's two. While the cursor is at zero `GreedyStrategy` yields the id too, so
it stands for the test's strategy; the one test that looks at a priority after the cursor moved says so.
-/

set_option autoImplicit false

namespace Mimic.Conform

/-- `GENERATE(range(a, b))`. -/
def range (a b : Nat) : List Int := (List.range (b - a)).map (fun n => ((n + a : Nat) : Int))

def intMin : Int := -2147483648

/-- 19-28: the default limits. -/
example : defaultTimes.min = 1 ∧ defaultTimes.max = 1 := by decide

/-- 30-42: the limits can be set. -/
example : ∀ mn ∈ range 0 5, ∀ d ∈ range 0 5,
    (TimesConfig.make mn (mn + d)).map (fun c => (c.min, c.max)) = some (mn, mn + d) := by decide

/-- 44-68: invalid limits throw. -/
example : ∀ mx ∈ range 0 5, ∀ d ∈ range 1 5, TimesConfig.make (mx + d) mx = none := by decide

example : ∀ mn ∈ [intMin, -42, -1], ∀ d ∈ range 0 5, TimesConfig.make mn (mn + d) = none := by decide

/-- Everything the tests look at: `is_satisfied()` and `state()`. -/
def look (r : M (Seqs × List Control)) (i : Nat) : Option (Bool × ControlState) :=
  value do
    let (h, cs) ← r
    match cs[i]? with
    | some c => return (c.isSatisfied, ← c.state h)
    | none => .error (.terminate "no such policy")

/-- Live sequences of the given strategies and no policies. -/
def start (sts : List Strategy) : M (Seqs × List Control) :=
  .ok (sts.map (fun st => ⟨Sequence.new st, true, true⟩), [])

/-- `ControlPolicy policyN{times, in_sequences(...)}`. -/
def policy (t : Option TimesConfig) (tags : List Nat) (r : M (Seqs × List Control)) : M (Seqs × List Control) := do
  let (h, cs) ← r
  match t with
  | some t =>
    let (h', c) ← Control.make t tags h
    return (h', cs ++ [c])
  | none => .error (.terminate "invalid limits")

/-- `policyN.consume()`. -/
def consume (i : Nat) (r : M (Seqs × List Control)) : M (Seqs × List Control) := do
  let (h, cs) ← r
  match cs[i]? with
  | some c =>
    let (h', c') ← c.consume h
    return (h', cs.set i c')
  | none => .error (.terminate "no such policy")

/-- `n` times `policyN.consume()`. -/
def consumeN (i : Nat) : Nat → M (Seqs × List Control) → M (Seqs × List Control)
  | 0, r => r
  | n + 1, r => consume i (consumeN i n r)

/-- The number of errors the destructors of the sequences in `tags` report. -/
def errors (tags : List Nat) (r : M (Seqs × List Control)) : Option Nat :=
  value do
    let (h, _) ← r
    let outs ← tags.mapM (fun t => do (← h.deref t).destruct)
    return (outs.filter Option.isSome).length

/-- 70-121: limits, no sequence. Every count below `max` is applicable, it is satisfied from `min` on, and saturated at `max`. -/
example : ∀ mn ∈ List.range 5, ∀ d ∈ List.range 5,
    let p := policy (TimesConfig.make mn (mn + d : Nat)) [] (start [])
    (∀ i ∈ List.range (mn + d), look (consumeN 0 i p) 0 = some (decide (mn ≤ i), .applicable mn (mn + d : Nat) i [])) ∧
      look (consumeN 0 (mn + d) p) 0 = some (true, .saturated mn (mn + d : Nat) (mn + d : Nat) []) := by decide

/-- 130-190: a single sequence and the default limits. -/
example :
    let p := policy (some defaultTimes) [0] (start [.greedy])
    look p 0 = some (false, .applicable 1 1 0 [⟨0, 0⟩]) ∧
    look (consume 0 p) 0 = some (true, .saturated 1 1 1 [0]) ∧
    errors [0] p = some 1 := by decide

/-- 192-261: two sequences and the default limits. -/
example :
    let p := policy (some defaultTimes) [0, 1] (start [.greedy, .greedy])
    look p 0 = some (false, .applicable 1 1 0 [⟨0, 0⟩, ⟨0, 1⟩]) ∧
    look (consume 0 p) 0 = some (true, .saturated 1 1 1 [0, 1]) ∧
    errors [0] p = some 1 ∧ errors [1] p = some 1 ∧ errors [0, 1] p = some 2 := by decide

/-- 264-334: a sequence and limits; no error once satisfied. -/
example : ∀ mn ∈ List.range 5, ∀ d ∈ List.range 5,
    let p := policy (times mn (mn + d : Nat)) [0] (start [.greedy])
    (∀ i ∈ List.range (mn + d),
      look (consumeN 0 i p) 0 = some (decide (mn ≤ i), .applicable mn (mn + d : Nat) i [⟨0, 0⟩])) ∧
      look (consumeN 0 (mn + d) p) 0 = some (true, .saturated mn (mn + d : Nat) (mn + d : Nat) [0]) ∧
      ∀ i ∈ List.range (d + 1), errors [0] (consumeN 0 (mn + i) p) = some 0 := by decide

/-- 336-385: the sequence has just one expectation. -/
example : ∀ n ∈ [1, 2, 3, 4],
    let p := policy (timesExactly (n : Nat)) [0] (start [.greedy])
    (∀ i ∈ List.range n, look (consumeN 0 i p) 0 = some (false, .applicable n n i [⟨0, 0⟩])) ∧
      look (consumeN 0 n p) 0 = some (true, .saturated n n n [0]) := by decide

/-- 387-499: of two expectations, the order matters. -/
example : ∀ n ∈ [1, 2, 3, 4],
    let p := policy (timesExactly (n : Nat)) [0] (policy once [0] (start [.greedy]))
    look p 0 = some (false, .applicable 1 1 0 [⟨0, 0⟩]) ∧
    look p 1 = some (false, .inapplicable n n 0 [] [0]) ∧
    (∀ i ∈ List.range n,
      let q := consumeN 1 i (consume 0 p)
      look q 0 = some (true, .saturated 1 1 1 [0]) ∧
      -- with the test's strategy the priority stays the id; the greedy one follows the cursor, which the first `consume` moves to it
      look q 1 = some (false, .applicable n n i [⟨if i = 0 then 1 else 0, 0⟩])) ∧
    (let q := consumeN 1 n (consume 0 p);
      look q 0 = some (true, .saturated 1 1 1 [0]) ∧ look q 1 = some (true, .saturated n n n [0])) := by decide

/-- 501-606: the first expectation is the prefix of two sequences. -/
example :
    let p := policy once [1] (policy once [0, 1] (start [.greedy, .greedy]))
    let q := consume 0 p
    let r := consume 1 q
    look p 0 = some (false, .applicable 1 1 0 [⟨0, 0⟩, ⟨0, 1⟩]) ∧ look p 1 = some (false, .inapplicable 1 1 0 [] [1]) ∧
    look q 0 = some (true, .saturated 1 1 1 [0, 1]) ∧ look q 1 = some (false, .applicable 1 1 0 [⟨1, 1⟩]) ∧
    look r 0 = some (true, .saturated 1 1 1 [0, 1]) ∧ look r 1 = some (true, .saturated 1 1 1 [1]) := by decide

/-- 608-775: an expectation waits for two sequences. -/
example :
    let p := policy once [0, 1] (policy once [1] (policy once [0] (start [.greedy, .greedy])))
    let q := consume 0 p
    let r := consume 1 q
    let s := consume 2 r
    [0, 1, 2].map (look p) =
      [some (false, .applicable 1 1 0 [⟨0, 0⟩]), some (false, .applicable 1 1 0 [⟨0, 1⟩]),
        some (false, .inapplicable 1 1 0 [] [0, 1])] ∧
    [0, 1, 2].map (look q) =
      [some (true, .saturated 1 1 1 [0]), some (false, .applicable 1 1 0 [⟨0, 1⟩]),
        some (false, .inapplicable 1 1 0 [⟨1, 0⟩] [1])] ∧
    [0, 1, 2].map (look r) =
      [some (true, .saturated 1 1 1 [0]), some (true, .saturated 1 1 1 [1]),
        some (false, .applicable 1 1 0 [⟨1, 0⟩, ⟨1, 1⟩])] ∧
    [0, 1, 2].map (look s) =
      [some (true, .saturated 1 1 1 [0]), some (true, .saturated 1 1 1 [1]), some (true, .saturated 1 1 1 [0, 1])] := by decide

/-- 777-893: `LazySequence` and skippable expectations. -/
example :
    let p1 := policy (atMost 1) [0] (start [.lazy])
    let p := policy (atMost 1) [0] p1
    look p1 0 = some (true, .applicable 0 1 0 [⟨intMax, 0⟩]) ∧
    look p 1 = some (true, .applicable 0 1 0 [⟨intMax - 1, 0⟩]) ∧
    errors [0] p = some 0 ∧
    [0, 1].map (look (consume 0 p)) =
      [some (true, .saturated 0 1 1 [0]), some (true, .applicable 0 1 0 [⟨intMax - 1, 0⟩])] ∧
    [0, 1].map (look (consume 1 p)) =
      [some (true, .inapplicable 0 1 0 [] [0]), some (true, .saturated 0 1 1 [0])] ∧
    [0, 1].map (look (consume 1 (consume 0 p))) =
      [some (true, .saturated 0 1 1 [0]), some (true, .saturated 0 1 1 [0])] ∧
    errors [0] (consume 0 p) = some 0 ∧ errors [0] (consume 1 p) = some 0 ∧
    errors [0] (consume 1 (consume 0 p)) = some 0 := by decide

/-- 895-1010: `GreedySequence` and skippable expectations. -/
example :
    let p1 := policy (atMost 1) [0] (start [.greedy])
    let p := policy (atMost 1) [0] p1
    look p1 0 = some (true, .applicable 0 1 0 [⟨0, 0⟩]) ∧
    look p 1 = some (true, .applicable 0 1 0 [⟨1, 0⟩]) ∧
    errors [0] p = some 0 ∧
    [0, 1].map (look (consume 0 p)) =
      [some (true, .saturated 0 1 1 [0]), some (true, .applicable 0 1 0 [⟨1, 0⟩])] ∧
    [0, 1].map (look (consume 1 p)) =
      [some (true, .inapplicable 0 1 0 [] [0]), some (true, .saturated 0 1 1 [0])] ∧
    [0, 1].map (look (consume 1 (consume 0 p))) =
      [some (true, .saturated 0 1 1 [0]), some (true, .saturated 0 1 1 [0])] ∧
    errors [0] (consume 0 p) = some 0 ∧ errors [0] (consume 1 p) = some 0 ∧
    errors [0] (consume 1 (consume 0 p)) = some 0 := by decide

/-- 1012-1080: the factories of limits. -/
example : (∀ mn ∈ range 0 5, ∀ d ∈ range 0 5, times mn (mn + d) = some ⟨mn, mn + d⟩) ∧
    (∀ n ∈ range 0 5, timesExactly n = some ⟨n, n⟩) ∧
    (∀ n ∈ range 0 5, atMost n = some ⟨0, n⟩) ∧
    (∀ n ∈ range 0 5, atLeast n = some ⟨n, intMax⟩) ∧
    once = some ⟨1, 1⟩ ∧ twice = some ⟨2, 2⟩ := by decide

/-- 1082-1151: invalid limits. -/
example : (∀ mn ∈ [intMin, -1], times mn 42 = none) ∧ (∀ mx ∈ [intMin, -1], times 42 mx = none) ∧
    (∀ mx ∈ range 0 5, ∀ d ∈ range 1 5, times (mx + d) mx = none) ∧
    (∀ n ∈ [intMin, -1], timesExactly n = none ∧ atLeast n = none ∧ atMost n = none) := by decide

end Mimic.Conform
