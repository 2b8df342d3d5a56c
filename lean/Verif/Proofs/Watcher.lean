import Verif.Spec.Watcher
import Verif.Proofs.Calls

/-!
# Lemmas about watchers
-/

set_option autoImplicit false

namespace Mimic

variable {α : Type} {a0 : Trigger α}

/-- The world with one more storage. -/
def WWorld.grown (ww : WWorld α) : WWorld α :=
  { ww with w := { ww.w with colls := ww.w.colls ++ [[]] }, owned := ww.owned ++ [ww.w.colls.length] }

/-- All ways in which an operation can succeed. -/
inductive WStep (a0 : Trigger α) (ww : WWorld α) : WOp α → WWorld α → List (WEvent α) → Prop where
  | plain {op : Op α} {w' : World α} {ev : List Event} : ww.touches op = false → ww.w.step op = .ok (w', ev) →
    WStep a0 ww (.plain op) { ww with w := w' } [.lib op ev]
  | make {op : WOp α} {kind : Watcher} :
    (op = .create kind ∨ ∃ src x, op = .copy src ∧ ww.obj src = some x ∧ x.kind = kind) →
    WStep a0 ww op { ww.grown with objs := ww.objs ++ [⟨kind, false, some ww.w.colls.length, true⟩] }
      [.lib .newMock [.mockCreated ww.w.colls.length], .object ww.objs.length kind, .born ww.objs.length ww.w.colls.length]
  | moveL {src : Nat} {x : WatchObj} : ww.obj src = some x → x.kind = .lifetime →
    WStep a0 ww (.move src) { ww with objs := ww.objs.set src { x with mock := none } ++ [x] }
      [.object ww.objs.length .lifetime]
  | moveR {src c : Nat} {x : WatchObj} {w' : World α} {ev : List Event} : ww.obj src = some x → x.kind = .relocation →
    x.mock = some c → ww.grown.w.step (.call c a0.arg) = .ok (w', ev) → a0.fails ev = false →
    WStep a0 ww (.move src) { ww.grown with w := w', objs := ww.objs.set src { x with mock := none } ++ [x] }
      [.lib .newMock [.mockCreated ww.w.colls.length], .lib (.call c a0.arg) ev, .object ww.objs.length .relocation]
  | moveRfail {src c : Nat} {x : WatchObj} {w' : World α} {ev : List Event} : ww.obj src = some x → x.kind = .relocation →
    x.mock = some c → ww.grown.w.step (.call c a0.arg) = .ok (w', ev) → a0.fails ev = true →
    WStep a0 ww (.move src) { ww.grown with w := w' }
      [.lib .newMock [.mockCreated ww.w.colls.length], .lib (.call c a0.arg) ev, .exception]
  | copyAssign {dst src : Nat} {x y : WatchObj} : ww.obj dst = some x → ww.obj src = some y → x.kind = y.kind →
    (x.kind = .lifetime → x.mock = none) →
    WStep a0 ww (.copyAssign dst src) { ww.grown with objs := ww.objs.set dst ⟨x.kind, false, some ww.w.colls.length, true⟩ }
      [.lib .newMock [.mockCreated ww.w.colls.length], .born dst ww.w.colls.length]
  | copyAssignL {dst src c : Nat} {x y : WatchObj} {w' : World α} {ev : List Event} : ww.obj dst = some x →
    ww.obj src = some y → x.kind = y.kind → x.kind = .lifetime → x.mock = some c → ww.w.step (.call c a0.arg) = .ok (w', ev) →
    a0.fails ev = false →
    WStep a0 ww (.copyAssign dst src)
      { w := { w' with colls := w'.colls ++ [[]] }, owned := ww.owned ++ [w'.colls.length],
        objs := ww.objs.set dst ⟨.lifetime, false, some w'.colls.length, true⟩ }
      [.lib (.call c a0.arg) ev, .lib .newMock [.mockCreated w'.colls.length], .born dst w'.colls.length]
  | copyAssignLfail {dst src c : Nat} {x y : WatchObj} {w' : World α} {ev : List Event} : ww.obj dst = some x →
    ww.obj src = some y → x.kind = y.kind → x.kind = .lifetime → x.mock = some c → ww.w.step (.call c a0.arg) = .ok (w', ev) →
    a0.fails ev = true →
    WStep a0 ww (.copyAssign dst src) { ww with w := w', objs := ww.objs.set dst { x with mock := none } }
      [.lib (.call c a0.arg) ev, .exception]
  | moveAssignSelfL {o : Nat} {x : WatchObj} : ww.obj o = some x → x.kind = .lifetime →
    WStep a0 ww (.moveAssign o o) ww []
  | moveAssignL {dst src : Nat} {x y : WatchObj} : ww.obj dst = some x → ww.obj src = some y → x.kind = .lifetime →
    y.kind = .lifetime → dst ≠ src →
    WStep a0 ww (.moveAssign dst src) { ww with objs := (ww.objs.set dst y).set src { y with mock := none } } []
  | moveAssignSelfR {o c : Nat} {x : WatchObj} {w' : World α} {ev : List Event} : ww.obj o = some x →
    x.kind = .relocation → x.mock = some c → ww.w.step (.call c a0.arg) = .ok (w', ev) → a0.fails ev = false →
    WStep a0 ww (.moveAssign o o) { ww with w := w' } [.lib (.call c a0.arg) ev]
  | moveAssignR {dst src c : Nat} {x y : WatchObj} {w' : World α} {ev : List Event} : ww.obj dst = some x →
    ww.obj src = some y → x.kind = .relocation → y.kind = .relocation → y.mock = some c → dst ≠ src →
    ww.w.step (.call c a0.arg) = .ok (w', ev) → a0.fails ev = false →
    WStep a0 ww (.moveAssign dst src)
      { ww with w := w', objs := (ww.objs.set dst y).set src { y with mock := none } } [.lib (.call c a0.arg) ev]
  | moveAssignRfail {dst src c : Nat} {x y : WatchObj} {w' : World α} {ev : List Event} : ww.obj dst = some x →
    ww.obj src = some y → x.kind = .relocation → y.kind = .relocation → y.mock = some c →
    ww.w.step (.call c a0.arg) = .ok (w', ev) → a0.fails ev = true →
    WStep a0 ww (.moveAssign dst src) { ww with w := w' } [.lib (.call c a0.arg) ev, .exception]
  | dropSilent {o : Nat} {x : WatchObj} : ww.obj o = some x → (x.kind = .lifetime → x.mock = none) →
    WStep a0 ww (.drop o) { ww with objs := ww.objs.set o { x with mock := none, alive := false } } []
  | dropL {o c : Nat} {x : WatchObj} {w' : World α} {ev : List Event} : ww.obj o = some x → x.kind = .lifetime →
    x.mock = some c → ww.w.step (.call c a0.arg) = .ok (w', ev) →
    WStep a0 ww (.drop o) { ww with w := w', objs := ww.objs.set o { x with mock := none, alive := false } }
      (.lib (.call c a0.arg) ev :: if a0.fails ev then [.exception] else [])
  | refused {op : WOp α} {o : Nat} {x : WatchObj} : ww.obj o = some x → x.kind = .lifetime → x.has = true →
    ((∃ min max tags ps, op = .expect o min max tags ps) ∨ op = .abandon o) →
    WStep a0 ww op ww [.logicError]
  | expectL {o c : Nat} {x : WatchObj} {min max : Int} {tags : List Nat} {ps : List (Policy α)} {w' : World α}
    {ev : List Event} : ww.obj o = some x → x.kind = .lifetime → x.has = false → x.mock = some c →
    ww.w.step (.expect c 1 1 tags ps) = .ok (w', ev) →
    WStep a0 ww (.expect o min max tags ps) { ww with w := w', objs := ww.objs.set o { x with has := true } }
      [.lib (.expect c 1 1 tags ps) ev]
  | expectR {o c : Nat} {x : WatchObj} {min max : Int} {tags : List Nat} {ps : List (Policy α)} {w' : World α}
    {ev : List Event} : ww.obj o = some x → x.kind = .relocation → x.mock = some c →
    ww.w.step (.expect c min max tags ps) = .ok (w', ev) →
    WStep a0 ww (.expect o min max tags ps) { ww with w := w' } [.lib (.expect c min max tags ps) ev]
  | abandonL {o c : Nat} {x : WatchObj} : ww.obj o = some x → x.kind = .lifetime → x.has = false → x.mock = some c →
    WStep a0 ww (.abandon o) { ww with objs := ww.objs.set o { x with has := true } } []
  | abandonR {o c : Nat} {x : WatchObj} : ww.obj o = some x → x.kind = .relocation → x.mock = some c →
    WStep a0 ww (.abandon o) ww []

theorem WWorld.fresh_eq (ww : WWorld α) (f : WWorld α → Nat → WRes α) :
    ww.fresh f = match f ww.grown ww.w.colls.length with
      | .error x => .error x
      | .ok (ww', log) => .ok (ww', .lib .newMock [.mockCreated ww.w.colls.length] :: log) := rfl

theorem lib_ok {ww ww' : WWorld α} {op : Op α} {f : WWorld α → List Event → WRes α} {log : List (WEvent α)}
    (h : ww.lib op f = .ok (ww', log)) :
    ∃ w' ev log', ww.w.step op = .ok (w', ev) ∧ f { ww with w := w' } ev = .ok (ww', log') ∧
      log = .lib op ev :: log' := by
  unfold WWorld.lib at h
  split at h
  · simp at h
  · rename_i w' ev hs
    split at h
    · simp at h
    · rename_i ww'' log' hf
      simp only [Except.ok.injEq, Prod.mk.injEq] at h
      obtain ⟨rfl, rfl⟩ := h
      exact ⟨w', ev, log', hs, hf, rfl⟩

theorem fresh_ok {ww ww' : WWorld α} {f : WWorld α → Nat → WRes α} {log : List (WEvent α)}
    (h : ww.fresh f = .ok (ww', log)) :
    ∃ log', f ww.grown ww.w.colls.length = .ok (ww', log') ∧
      log = .lib .newMock [.mockCreated ww.w.colls.length] :: log' := by
  rw [WWorld.fresh_eq] at h
  split at h
  · simp at h
  · rename_i ww'' log' hf
    simp only [Except.ok.injEq, Prod.mk.injEq] at h
    obtain ⟨rfl, rfl⟩ := h
    exact ⟨log', hf, rfl⟩

theorem WStep.of_step {ww ww' : WWorld α} {op : WOp α} {log : List (WEvent α)}
    (h : ww.step a0 op = .ok (ww', log)) : WStep a0 ww op ww' log := by
  cases op with
  | plain op =>
    simp only [WWorld.step] at h
    split at h
    · simp at h
    · rename_i ht
      obtain ⟨w', ev, log', hs, hf, rfl⟩ := lib_ok h
      simp only [Except.ok.injEq, Prod.mk.injEq] at hf
      obtain ⟨rfl, rfl⟩ := hf
      exact .plain (by simpa using ht) hs
  | create kind =>
    simp only [WWorld.step, WWorld.construct] at h
    obtain ⟨log', hf, rfl⟩ := fresh_ok h
    simp only [Except.ok.injEq, Prod.mk.injEq] at hf
    obtain ⟨rfl, rfl⟩ := hf
    exact .make (Or.inl rfl)
  | copy src =>
    simp only [WWorld.step] at h
    split at h
    · simp at h
    · rename_i x hx
      obtain ⟨log', hf, rfl⟩ := fresh_ok h
      simp only [Except.ok.injEq, Prod.mk.injEq] at hf
      obtain ⟨rfl, rfl⟩ := hf
      exact .make (Or.inr ⟨src, x, rfl, hx, rfl⟩)
  | move src =>
    simp only [WWorld.step] at h
    split at h
    · simp at h
    · rename_i x hx
      split at h
      · rename_i hk
        simp only [Except.ok.injEq, Prod.mk.injEq] at h
        obtain ⟨rfl, rfl⟩ := h
        exact .moveL hx hk
      · rename_i hk
        obtain ⟨log', hf, rfl⟩ := fresh_ok h
        split at hf
        · simp at hf
        · rename_i c hc
          obtain ⟨w', ev, log'', hs, hf2, rfl⟩ := lib_ok hf
          split at hf2
          · rename_i hu
            simp only [Except.ok.injEq, Prod.mk.injEq] at hf2
            obtain ⟨rfl, rfl⟩ := hf2
            exact .moveRfail hx hk hc hs hu
          · rename_i hu
            simp only [Except.ok.injEq, Prod.mk.injEq] at hf2
            obtain ⟨rfl, rfl⟩ := hf2
            exact .moveR hx hk hc hs (by simpa using hu)
  | copyAssign dst src =>
    simp only [WWorld.step] at h
    split at h
    · rename_i x y hx hy
      split at h
      · rename_i hxy
        split at h
        · rename_i hk
          split at h
          · rename_i hm
            obtain ⟨log', hf, rfl⟩ := fresh_ok h
            simp only [Except.ok.injEq, Prod.mk.injEq] at hf
            obtain ⟨rfl, rfl⟩ := hf
            have := WStep.copyAssign (a0 := a0) hx hy hxy (fun _ => hm)
            rw [hk] at this
            exact this
          · rename_i c hc
            obtain ⟨w', ev, log', hs, hf, rfl⟩ := lib_ok h
            split at hf
            · rename_i hu
              simp only [Except.ok.injEq, Prod.mk.injEq] at hf
              obtain ⟨rfl, rfl⟩ := hf
              exact .copyAssignLfail hx hy hxy hk hc hs hu
            · rename_i hu
              obtain ⟨log', hf2, rfl⟩ := fresh_ok hf
              simp only [Except.ok.injEq, Prod.mk.injEq] at hf2
              obtain ⟨rfl, rfl⟩ := hf2
              have := WStep.copyAssignL hx hy hxy hk hc hs (by simpa using hu)
              simp only [WWorld.grown, List.set_set]
              exact this
        · rename_i hk
          obtain ⟨log', hf, rfl⟩ := fresh_ok h
          simp only [Except.ok.injEq, Prod.mk.injEq] at hf
          obtain ⟨rfl, rfl⟩ := hf
          have := WStep.copyAssign (a0 := a0) hx hy hxy (fun hl => by rw [hk] at hl; simp at hl)
          rw [hk] at this
          exact this
      · simp at h
    · simp at h
  | moveAssign dst src =>
    simp only [WWorld.step] at h
    split at h
    · rename_i x y hx hy
      split at h
      · rename_i hxy
        split at h
        · rename_i hk
          split at h
          · rename_i hds
            subst hds
            simp only [Except.ok.injEq, Prod.mk.injEq] at h
            obtain ⟨rfl, rfl⟩ := h
            exact .moveAssignSelfL hx (hxy.trans hk)
          · rename_i hds
            simp only [Except.ok.injEq, Prod.mk.injEq] at h
            obtain ⟨rfl, rfl⟩ := h
            exact .moveAssignL hx hy (hxy.trans hk) hk hds
        · rename_i hk
          split at h
          · simp at h
          · rename_i c hc
            obtain ⟨w', ev, log', hs, hf, rfl⟩ := lib_ok h
            split at hf
            · rename_i hu
              simp only [Except.ok.injEq, Prod.mk.injEq] at hf
              obtain ⟨rfl, rfl⟩ := hf
              exact .moveAssignRfail hx hy (hxy.trans hk) hk hc hs hu
            · rename_i hu
              split at hf
              · rename_i hds
                subst hds
                simp only [Except.ok.injEq, Prod.mk.injEq] at hf
                obtain ⟨rfl, rfl⟩ := hf
                exact .moveAssignSelfR hy hk hc hs (by simpa using hu)
              · rename_i hds
                simp only [Except.ok.injEq, Prod.mk.injEq] at hf
                obtain ⟨rfl, rfl⟩ := hf
                exact .moveAssignR hx hy (hxy.trans hk) hk hc hds hs (by simpa using hu)
      · simp at h
    · simp at h
  | drop o =>
    simp only [WWorld.step] at h
    split at h
    · simp at h
    · rename_i x hx
      split at h
      · rename_i c hk hc
        obtain ⟨w', ev, log', hs, hf, rfl⟩ := lib_ok h
        simp only [Except.ok.injEq, Prod.mk.injEq] at hf
        obtain ⟨rfl, rfl⟩ := hf
        exact .dropL hx hk hc hs
      · rename_i hno
        simp only [Except.ok.injEq, Prod.mk.injEq] at h
        obtain ⟨rfl, rfl⟩ := h
        refine .dropSilent hx (fun hk => ?_)
        cases hc : x.mock with
        | none => rfl
        | some c => exact absurd hc (hno c hk)
  | expect o min max tags ps =>
    simp only [WWorld.step] at h
    split at h
    · simp at h
    · rename_i x hx
      split at h
      · rename_i hk
        split at h
        · rename_i hh
          simp only [Except.ok.injEq, Prod.mk.injEq] at h
          obtain ⟨rfl, rfl⟩ := h
          exact .refused hx hk hh (Or.inl ⟨min, max, tags, ps, rfl⟩)
        · rename_i hh
          split at h
          · simp at h
          · rename_i c hc
            obtain ⟨w', ev, log', hs, hf, rfl⟩ := lib_ok h
            simp only [Except.ok.injEq, Prod.mk.injEq] at hf
            obtain ⟨rfl, rfl⟩ := hf
            exact .expectL hx hk (by simpa using hh) hc hs
      · rename_i hk
        split at h
        · simp at h
        · rename_i c hc
          obtain ⟨w', ev, log', hs, hf, rfl⟩ := lib_ok h
          simp only [Except.ok.injEq, Prod.mk.injEq] at hf
          obtain ⟨rfl, rfl⟩ := hf
          exact .expectR hx hk hc hs
  | abandon o =>
    simp only [WWorld.step] at h
    split at h
    · simp at h
    · rename_i x hx
      split at h
      · rename_i hk
        split at h
        · rename_i hh
          simp only [Except.ok.injEq, Prod.mk.injEq] at h
          obtain ⟨rfl, rfl⟩ := h
          exact .refused hx hk hh (Or.inr rfl)
        · rename_i hh
          split at h
          · simp at h
          · rename_i c hc
            simp only [Except.ok.injEq, Prod.mk.injEq] at h
            obtain ⟨rfl, rfl⟩ := h
            exact .abandonL hx hk (by simpa using hh) hc
      · rename_i hk
        split at h
        · simp at h
        · rename_i c hc
          simp only [Except.ok.injEq, Prod.mk.injEq] at h
          obtain ⟨rfl, rfl⟩ := h
          exact .abandonR hx hk hc

end Mimic
