import Verif.Proofs.PrintCall
import Verif.Proofs.Demo

/-!
# C59: printing the arguments decides how calls end
-/

set_option autoImplicit false

namespace Mimic.Shown

variable {V α : Type}

/-! ### Which objects can be printed -/

/-- C59: what is printed does not depend on how deep the recursion may get. -/
theorem C59_stable (F : V → Facts V) {n m : Nat} {v : V} {r s : Except Fail Text} (hn : shown F n v = some r)
    (hm : shown F m v = some s) : r = s := by
  have h1 := show_mono F (Nat.le_max_left n m) hn
  have h2 := show_mono F (Nat.le_max_right n m) hm
  rw [h1] at h2
  exact Option.some.inj h2

/-- C59: an object gets a text exactly if it is nested finitely, no printer in it throws, and no string in it is unreadable. -/
theorem C59_printable (F : V → Facts V) (v : V) :
    (∃ n t, shown F n v = some (.ok t)) ↔ Finite F v ∧ ¬ HasThrowing F v ∧ ¬ HasBad F v := by
  constructor
  · rintro ⟨n, t, h⟩
    exact ⟨ok_finite n h, ok_clean n h⟩
  · rintro ⟨hf, ht, hb⟩
    obtain ⟨n, r, h⟩ := finite_total hf
    cases r with
    | ok t => exact ⟨n, t, h⟩
    | error x =>
      obtain ⟨h1, h2⟩ := error_source n h
      cases x with
      | thrown e => exact absurd (h1 e rfl) ht
      | stop s => exact absurd (h2 s rfl).1 hb

/-- C59: printing fails for no other reasons, and it always ends if the nesting is finite. -/
theorem C59_fails (F : V → Facts V) (v : V) :
    (Finite F v → ∃ n r, shown F n v = some r) ∧
    (∀ n x, shown F n v = some (.error (.thrown x)) → HasThrowing F v) ∧
    (∀ n s, shown F n v = some (.error (.stop s)) → HasBad F v ∧ ∃ why, s = .ub why) :=
  ⟨finite_total, fun n x h => (error_source n h).1 x rfl, fun n s h => (error_source n h).2 s rfl⟩

/-- C59: a printer of the client decides alone, whatever the object is besides. -/
theorem C59_custom (F : V → Facts V) {v : V} :
    (∀ t, (F v).custom = some (.ok t) → ∀ n, shown F (n + 1) v = some (.ok t)) ∧
    (∀ x, (F v).custom = some (.error x) → ∀ n, shown F (n + 1) v = some (.error (.thrown x))) := by
  constructor <;> intro t h n <;> rcases show_succ F n v with ⟨c, hc, hs⟩ | hs
  · rw [h] at hc; cases hc; exact hs
  · simp [h] at hs
  · rw [h] at hc; cases hc; exact hs
  · simp [h] at hs

/-- C59: without one, tuples come before ranges, and ranges before formatted types; the parts are separated by commas. -/
theorem C59_text (F : V → Facts V) {v : V} (hc : (F v).custom = none) :
    (∀ vs, ((F v).own = some (.tuple vs) ∨ (F v).own = none ∧ (F v).elems = some vs) → ∀ t,
      ((∃ n, shown F n v = some (.ok t)) ↔
        ∃ ts, ts.length = vs.length ∧ (∀ i : Nat, ∀ u s, vs[i]? = some u → ts[i]? = some s → ∃ n, shown F n u = some (.ok s)) ∧
          t = lit "{ " ++ List.intercalate (lit ", ") ts ++ lit " }")) ∧
    ((F v).own = none → (F v).elems = none → ∀ n, shown F (n + 1) v = some (.ok ((F v).format.getD (lit "{?}")))) := by
  constructor
  · intro vs hv t
    have key : ∀ n, shown F (n + 1) v = inBraces (each (shown F n) vs) := by
      intro n
      have := show_succ F n v
      rcases hv with ho | ⟨ho, he⟩ <;> simp_all
    constructor
    · rintro ⟨n, h⟩
      cases n with
      | zero => simp [shown] at h
      | succ n =>
        rw [key] at h
        unfold inBraces at h
        split at h
        · simp at h
        · simp at h
        · rename_i ts he
          simp only [Option.some.injEq, Except.ok.injEq] at h
          have hm := each_ok he
          refine ⟨ts, by simpa using (congrArg List.length hm).symm, fun i u s hu hs => ⟨n, ?_⟩, by rw [← h, commas_eq]⟩
          have := congrArg (·[i]?) hm
          simpa [hu, hs] using this
    · rintro ⟨ts, hl, hp, rfl⟩
      have : ∃ n, vs.map (shown F n) = ts.map (fun t => some (.ok t)) := by
        clear hv key
        induction vs generalizing ts with
        | nil => cases ts <;> simp_all
        | cons u vs ih =>
          cases ts with
          | nil => simp at hl
          | cons t ts =>
            obtain ⟨n, hn⟩ := hp 0 u t rfl rfl
            obtain ⟨m, hm⟩ := ih ts (by simpa using hl) (fun i u t h1 h2 => hp (i + 1) u t (by simpa using h1) (by simpa using h2))
            refine ⟨max n m, ?_⟩
            have hm' := each_of_ok hm
            have h2 : each (shown F (max n m)) vs = some (.ok ts) :=
              each_mono _ (fun v _ r => show_mono F (Nat.le_max_right n m)) hm'
            simp [each_ok h2, show_mono F (Nat.le_max_left n m) hn]
      obtain ⟨n, hn⟩ := this
      refine ⟨n + 1, ?_⟩
      rw [key, each_of_ok hn, ← commas_eq]
      rfl
  · intro ho he n
    have := show_succ F n v
    simp_all

/-- C59: for finite values without throwing printers this is the printing of `Model/Printer.lean`, which C44 and C45 are about. -/
theorem C59_agrees (v : Val) : ∃ n, shown valFacts n v = lift (print v) := show_val v

/-- C59: printing a path, other than the empty one, never ends; a printer of the client is the only remedy. -/
theorem C59_path (format : List Text → Option Text) (p : List Text) :
    ((∃ c ∈ p, c ≠ []) → ∀ n, shown (pathFacts format) n p = none) ∧
    (p = [] → ∀ n, shown (pathFacts format) (n + 1) p = some (.ok (lit "{  }"))) :=
  ⟨fun h n => path_endless format n p h, by rintro rfl n; rfl⟩

/-! ### What that means for calls -/

/-- C59: if all arguments can be printed, the call ends as C10 and C11 say. -/
theorem C59_partial {tr : Trace α} {w : World α} (h : Reach tr w) {m : Nat} (a : α) (hm : Event.mockCreated m ∈ tr.events)
    (F : V → Facts V) {args : List V} (ha : ∀ v ∈ args, ∃ n t, shown F n v = some (.ok t)) :
    ∃ n w' ev, call F n w args m a = some (.done w' ev) ∧ w.step (.call m a) = .ok (w', ev) := by
  obtain ⟨n, ts, hn⟩ := each_all ha
  obtain ⟨w', ev, h1, h2⟩ := (call_eq h a hm F n args).2.2.2.2 ts hn
  exact ⟨n, w', ev, h2, h1⟩

/-- C59: if the printer of an argument throws, the call ends with that exception whatever the expectations say; nothing is
reported and nothing is counted. -/
theorem C59_throws {tr : Trace α} {w : World α} (h : Reach tr w) {m : Nat} {a : α} (hm : Event.mockCreated m ∈ tr.events)
    (F : V → Facts V) {pre post : List V} {v : V} {x : Nat} (hp : ∀ u ∈ pre, ∃ n t, shown F n u = some (.ok t))
    (hv : ∃ n, shown F n v = some (.error (.thrown x))) (ht : ∀ e, ¬ tr.throws m a e) :
    ∃ n, call F n w (pre ++ v :: post) m a = some (.threw x w) := by
  obtain ⟨n, hn⟩ := each_first (post := post) hp hv
  exact ⟨n, (call_eq h a hm F n _).2.2.1 x hn ht⟩

/-- C59: if a matcher throws as well, the program ends. -/
theorem C59_terminates {tr : Trace α} {w : World α} (h : Reach tr w) {m : Nat} {a : α} (hm : Event.mockCreated m ∈ tr.events)
    (F : V → Facts V) {pre post : List V} {v : V} {x : Nat} (hp : ∀ u ∈ pre, ∃ n t, shown F n u = some (.ok t))
    (hv : ∃ n, shown F n v = some (.error (.thrown x))) {e : Nat} (ht : tr.throws m a e) :
    ∃ n why, call F n w (pre ++ v :: post) m a = some (.stop (.terminate why)) := by
  obtain ⟨n, hn⟩ := each_first (post := post) hp hv
  exact ⟨n, _, (call_eq h a hm F n _).2.2.2.1 x hn ⟨e, ht⟩⟩

/-- C59: a call does not return if printing one of its arguments does not end. -/
theorem C59_endless {tr : Trace α} {w : World α} (h : Reach tr w) {m : Nat} {a : α} (hm : Event.mockCreated m ∈ tr.events)
    (F : V → Facts V) {pre post : List V} {v : V} (hp : ∀ u ∈ pre, ∃ n t, shown F n u = some (.ok t))
    (hv : ∀ n, shown F n v = none) (n : Nat) : call F n w (pre ++ v :: post) m a = none :=
  (call_eq h a hm F n _).1 (each_endless hp hv n)

/-- An argument of the examples: 0 prints, the printer of 1 throws. -/
def demo : Nat → Facts Nat
  | 0 => { custom := some (.ok (lit "zero")), own := none, elems := none, format := none }
  | _ => { custom := some (.error 13), own := none, elems := none, format := none }

/-- C59 fails: a call that an expectation accepts ends with the printer's exception, and the expectation stays unsatisfied; the
same holds for a call that nothing accepts, so that no failure is reported. -/
theorem C59_counterexample : ∃ (tr : Trace Nat) (w : World Nat), Reach tr w ∧
    (∃ w', w.step (.call 0 5) = .ok (w', [.fullMatch 0])) ∧ (∃ w', w.step (.call 0 7) = .ok (w', [.noMatch [0]])) ∧
    (∀ n, call demo (n + 1) w [0, 1] 0 5 = some (.threw 13 w)) ∧ (∀ n, call demo (n + 1) w [0, 1] 0 7 = some (.threw 13 w)) ∧
    (∃ w' ev, call demo 1 w [0, 0] 0 5 = some (.done w' ev) ∧ ev = [.fullMatch 0]) :=
  ⟨_, _, reach_final [.newMock, .expect 0 1 1 [] [onlyArg 5]], ⟨_, rfl⟩, ⟨_, rfl⟩, fun _ => rfl, fun _ => rfl, _, _, rfl, rfl⟩

/-- C59 fails: calls with a path never return, even if they are expected. -/
theorem C59_path_counterexample (format : List Text → Option Text) : ∃ (tr : Trace Nat) (w : World Nat), Reach tr w ∧
    (∃ w', w.step (.call 0 5) = .ok (w', [.fullMatch 0])) ∧ ∀ n, call (pathFacts format) n w [[lit "home"]] 0 5 = none := by
  have h := reach_final (α := Nat) [.newMock, .expect 0 1 1 [] [onlyArg 5]]
  refine ⟨_, _, h, ⟨_, rfl⟩, fun n => ?_⟩
  exact C59_endless (pre := []) (post := []) h (by decide) _ (by simp) (fun n => (C59_path format _).1 ⟨_, List.mem_cons_self, by decide⟩ n) n

/-- A matcher and a printer that throw. -/
example : ∃ (tr : Trace Nat) (w : World Nat), Reach tr w ∧ tr.throws 0 5 0 ∧
    ∃ why, call demo 1 w [1] 0 5 = some (.stop (.terminate why)) :=
  ⟨_, _, reach_final [.newMock, .expect 0 1 1 [] [throwing]],
    ⟨⟨⟨_, rfl⟩, by decide⟩, _, rfl, rfl, _, List.mem_cons_self, rfl⟩, _, rfl⟩

/-- Objects of the examples: a range of paths' kind, a tuple that is also a range, and a tree with a printer that throws. -/
inductive Thing where
  | leaf
  | iterator
  | subrange (ts : List Thing)
  | bad
  | tree (ts : List Thing)
  | loop

def thingFacts : Thing → Facts Thing
  | .leaf => { custom := none, own := none, elems := none, format := some (lit "1") }
  | .iterator => { custom := none, own := none, elems := none, format := none }
  /- `std::ranges::subrange` has `std::tuple_size`: its iterators are printed, not its elements -/
  | .subrange ts => { custom := none, own := some (.tuple [.iterator, .iterator]), elems := some ts, format := none }
  | .bad => { custom := some (.error 4), own := none, elems := some [], format := some [] }
  | .tree ts => { custom := none, own := none, elems := some ts, format := some (lit "tree") }
  | .loop => { custom := none, own := none, elems := some [.loop], format := none }

/-- C59: the elements of a view that is a tuple of iterators are not shown. -/
theorem C59_subrange (ts : List Thing) (n : Nat) :
    shown thingFacts (n + 2) (.subrange ts) = some (.ok (lit "{ {?}, {?} }")) := by rfl

/-- A nested range, one with a throwing printer, and one that contains itself: what comes first counts. -/
example : shown thingFacts 3 (.tree [.leaf, .tree [.leaf, .leaf]]) = some (.ok (lit "{ 1, { 1, 1 } }")) ∧
    shown thingFacts 3 (.tree [.leaf, .bad, .loop]) = some (.error (.thrown 4)) ∧
    (∀ n, shown thingFacts n (.tree [.leaf, .loop, .bad]) = none) ∧
    Finite thingFacts (.tree [.leaf, .tree [.leaf, .leaf]]) ∧ ¬ Finite thingFacts .loop := by
  have hl : ∀ n, shown thingFacts n .loop = none := by
    intro n
    induction n with
    | zero => rfl
    | succ n ih =>
      have : shown thingFacts (n + 1) .loop = inBraces (each (shown thingFacts n) [.loop]) := rfl
      rw [this]; simp [each, ih, inBraces]
  refine ⟨rfl, rfl, fun n => ?_, ((C59_printable _ _).mp ⟨3, _, rfl⟩).1, fun hf => ?_⟩
  · cases n with
    | zero => rfl
    | succ n =>
      have : shown thingFacts (n + 1) (.tree [.leaf, .loop, .bad]) = inBraces (each (shown thingFacts n) [.leaf, .loop, .bad]) := rfl
      rw [this]
      cases n with
      | zero => rfl
      | succ n => simp [each, hl, inBraces, show shown thingFacts (n + 1) .leaf = some (.ok (lit "1")) from rfl]
  · obtain ⟨n, r, h⟩ := (C59_fails thingFacts .loop).1 hf
    rw [hl n] at h
    simp at h

end Mimic.Shown
