import Verif.Proofs.WatchedTerminate
import Verif.Props.WatchedObjects

/-!
# C49, C50: When operations on watched objects terminate the program
-/

set_option autoImplicit false

namespace Mimic

variable {α : Type} {a0 : Trigger α}

/-- C49, C50: if a new watched object is created and the program is terminated, there was an exception: of a watcher, or of the client's
class after all watchers were created. And either the client's class promises not to throw, or a second exception was thrown while the
finished watchers were destroyed in reverse order. So in all other cases the exception reaches the client. -/
theorem C49_construct_terminates {tr : CTrace α} {cw : CWorld α} (h : CReach a0 tr cw) {op : COp α} {ops : List (WOp α)} {fails promise : Bool}
    (hop : (∃ base kinds, op = .create base kinds fails ∧ ops = kinds.map .create ∧ promise = false) ∨
      (∃ c x ps, cw.obj c = some x ∧ tr.parts c = some ps ∧
        ((op = .copy c fails ∧ ops = ps.map (fun p => .copy p.1) ∧ promise = false) ∨
         (op = .move c fails ∧ ops = ps.map (fun p => .move p.1) ∧ promise = x.base.nothrowMove))))
    {why : String} (hs : cw.step a0 op = .error (.terminate why)) :
    ∃ b d ww, WReach a0 (tr.flat ++ b ++ d) ww ∧ FailsIn ops fails b ∧
      (promise = true ∨ (d.map (·.1) <+: b.createdIn.reverse.map .drop ∧ ∃ st ∈ d, ¬ completed st.2)) := by
  have hi := h.inv
  rcases hop with ⟨base, kinds, rfl, rfl, rfl⟩ | ⟨c, x, ps, hx, hp, ⟨rfl, rfl, rfl⟩ | ⟨rfl, rfl, rfl⟩⟩
  · exact construct_terminate hi.reach (by simp [makes]) hs
  · obtain ⟨h1, h2⟩ := cobj_some hx
    obtain ⟨ps', h3, h4, -⟩ := hi.parts c x h1
    rw [hp] at h3
    cases h3
    simp only [CWorld.step, hx] at hs
    rw [← h4, List.map_map] at hs
    exact construct_terminate hi.reach (by rintro o ho; obtain ⟨p, -, rfl⟩ := List.mem_map.mp ho; trivial) hs
  · obtain ⟨h1, h2⟩ := cobj_some hx
    obtain ⟨ps', h3, h4, -⟩ := hi.parts c x h1
    rw [hp] at h3
    cases h3
    simp only [CWorld.step, hx] at hs
    rw [← h4, List.map_map] at hs
    exact construct_terminate hi.reach (by rintro o ho; obtain ⟨p, -, rfl⟩ := List.mem_map.mp ho; trivial) hs

/-- C49: a copy assignment never terminates the program. A move assignment does only if the client's class promises not to throw, and a
watcher or the class itself throws. -/
theorem C49_assign_terminates {tr : CTrace α} {cw : CWorld α} (h : CReach a0 tr cw) {d s : Nat} {fails : Bool} {why : String} :
    cw.step a0 (.copyAssign d s fails) ≠ .error (.terminate why) ∧
    (cw.step a0 (.moveAssign d s fails) = .error (.terminate why) →
      ∀ y ps qs, cw.obj s = some y → tr.parts d = some ps → tr.parts s = some qs →
      y.base.nothrowMoveAssign = true ∧
        ∃ b ww, WReach a0 (tr.flat ++ b) ww ∧ FailsIn (List.zipWith .moveAssign (ps.map (·.1)) (qs.map (·.1))) fails b) := by
  have hi := h.inv
  constructor
  · intro hs
    simp only [CWorld.step] at hs
    split at hs
    · split at hs
      · split at hs
        · rename_i e he
          simp only [Except.error.injEq] at hs
          subst hs
          have := assign_terminate hi.reach (by intro o ho; obtain ⟨_, _, -, -, rfl⟩ := mem_zipWith ho; rfl) he
          exact absurd this.1 (by simp)
        · cases hs
      · cases hs
    · cases hs
  · intro hs y ps qs hy hp hq
    simp only [CWorld.step] at hs
    split at hs
    · rename_i x y' hx hy'
      rw [hy] at hy'
      cases hy'
      obtain ⟨x1, x2⟩ := cobj_some hx
      obtain ⟨ps', x3, x4, -⟩ := hi.parts d x x1
      rw [hp] at x3
      cases x3
      obtain ⟨y1, y2⟩ := cobj_some hy
      obtain ⟨qs', y3, y4, -⟩ := hi.parts s y y1
      rw [hq] at y3
      cases y3
      rw [x4, y4]
      split at hs
      · split at hs
        · rename_i e he
          simp only [Except.error.injEq] at hs
          subst hs
          obtain ⟨h1, b, st, ww', h2, h3, h4, h5⟩ := assign_terminate hi.reach (by intro o ho; obtain ⟨_, _, -, -, rfl⟩ := mem_zipWith ho; rfl) he
          exact ⟨h1, b ++ [st], ww', h2.reach hi.reach, .inl ⟨b, st, rfl, h3, h4, h5⟩⟩
        · rename_i ww' t r he
          split at hs
          · rename_i hf
            simp only [Bool.and_eq_true] at hf
            obtain ⟨k1, k2, k3⟩ := assign_runs he
            have hr : r = false := by
              cases r with
              | false => rfl
              | true => have := (k3 rfl).1; rw [hf.2] at this; cases this
            obtain ⟨k4, k5⟩ := k2 hr
            exact ⟨hf.2, t, ww', k1.reach hi.reach, .inr ⟨hf.1, k4, fun z hz => thrown_false.mp (k5 z hz)⟩⟩
          · cases hs
      · cases hs
    · cases hs

/-- C49: a destructor terminates the program only if the client's class promises not to throw and a watcher throws, or if two watchers
throw. -/
theorem C49_drop_terminates {tr : CTrace α} {cw : CWorld α} (h : CReach a0 tr cw) {c : Nat} {x : Watched} {ps : List (Nat × Watcher)}
    (hx : cw.obj c = some x) (hp : tr.parts c = some ps) {why : String} (hs : cw.step a0 (.drop c) = .error (.terminate why)) :
    ∃ b st ww, WReach a0 (tr.flat ++ (b ++ [st])) ww ∧ (b ++ [st]).map (·.1) <+: (ps.map (·.1)).reverse.map .drop ∧ ¬ completed st.2 ∧
      (x.base.nothrowDtor = true ∨ ∃ st' ∈ b, ¬ completed st'.2) := by
  have hi := h.inv
  obtain ⟨h1, h2⟩ := cobj_some hx
  obtain ⟨ps', h3, h4, -⟩ := hi.parts c x h1
  rw [hp] at h3
  cases h3
  rw [h4]
  simp only [CWorld.step, hx] at hs
  split at hs
  · rename_i e he
    simp only [Except.error.injEq] at hs
    subst hs
    obtain ⟨b, st, ww', k1, k2, k3, k4⟩ := dropParts_terminate hi.reach he
    exact ⟨b, st, ww', k1.reach hi.reach, k2, k3, by simpa using k4⟩
  · cases hs

open WatcherExamples WatchedExamples in
/-- The hypotheses can be met: a `noexcept` move with an unexpected relocation; a class whose constructor throws after its lifetime watcher
was created; a destructor with two lifetime watchers. -/
example :
    (∃ cw log x ps why, CReach calm [(.create strict [.relocation] false, log)] cw ∧ cw.obj 0 = some x ∧ x.base.nothrowMove = true ∧
      CTrace.parts [(.create strict [.relocation] false, log)] 0 = some ps ∧ cw.step calm (.move 0 false) = .error (.terminate why)) ∧
    (∃ why, CWorld.init.step calm (.create loose [.lifetime, .relocation] true) = .error (.terminate why)) ∧
    (∃ cw log x ps why, CReach calm [(.create loose [.lifetime, .lifetime] false, log)] cw ∧ cw.obj 0 = some x ∧ x.base.nothrowDtor = false ∧
      CTrace.parts [(.create loose [.lifetime, .lifetime] false, log)] 0 = some ps ∧ cw.step calm (.drop 0) = .error (.terminate why)) :=
  ⟨⟨_, _, _, _, _, .step .init rfl, rfl, rfl, rfl, rfl⟩, ⟨_, rfl⟩, ⟨_, _, _, _, _, .step .init rfl, rfl, rfl, rfl, rfl⟩⟩

end Mimic
