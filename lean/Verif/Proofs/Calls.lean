import Verif.Spec.Calls
import Verif.Proofs.Outcome
import Verif.Props.Safety

/-!
# Lemmas about carrying out calls
-/

set_option autoImplicit false

namespace Mimic

variable {V : Type}

/-! ## Fuel is irrelevant once it suffices -/

def Res.le {A : Type} (r r' : Res V A) : Prop := ∀ x, r = some x → r' = some x

theorem Res.le_refl {A : Type} (r : Res V A) : Res.le r r := fun _ h => h

theorem Res.le_none {A : Type} (r : Res V A) : Res.le none r := fun _ h => by simp at h

theorem Res.le_log {A : Type} {r r' : Res V A} (h : Res.le r r') (o : Obs V) : Res.le (Res.log o r) (Res.log o r') := by
  intro x hx
  cases r with
  | none => simp [Res.log] at hx
  | some y => rw [h y rfl]; exact hx

theorem Res.le_andThen {A B : Type} {r r' : Res V A} {f f' : CState V → A → Res V B} (h : Res.le r r')
    (hf : ∀ s a, Res.le (f s a) (f' s a)) : Res.le (r.andThen f) (r'.andThen f') := by
  intro x hx
  cases r with
  | none => simp [Res.andThen] at hx
  | some y =>
    rw [h y rfl]
    cases y with
    | error z => exact hx
    | ok z =>
      obtain ⟨s, log, a⟩ := z
      simp only [Res.andThen] at hx ⊢
      cases hfs : f s a with
      | none => rw [hfs] at hx; simp at hx
      | some z => rw [hf s a z hfs]; rw [hfs] at hx; exact hx

theorem Res.le_leave {r r' : Res V (Outcome V)} (h : Res.le r r') (b : Bool) : Res.le (r.leave b) (r'.leave b) := by
  intro x hx
  cases r with
  | none => simp [Res.leave] at hx
  | some y => rw [h y rfl]; exact hx

theorem Res.le_lib {s : CState V} {o : Op (Snap V)} {f f' : CState V → List Event → Res V (Outcome V)}
    (hf : ∀ s ev, Res.le (f s ev) (f' s ev)) : Res.le (s.lib o f) (s.lib o f') := by
  unfold CState.lib
  split
  · exact Res.le_refl _
  · exact Res.le_log (hf _ _) _

theorem fuel_succ (n : Nat) :
    (∀ (s : CState V) (c : Code V), Res.le (exec n s c) (exec (n + 1) s c)) ∧
    (∀ (s : CState V) (m : Nat) (args : List Nat), Res.le (invoke n s m args) (invoke (n + 1) s m args)) ∧
    (∀ (s : CState V) (e i : Nat) (cs : List (List Nat → Code V)) (locs : List Nat),
      Res.le (runEffects n s e i cs locs) (runEffects (n + 1) s e i cs locs)) := by
  induction n with
  | zero =>
    refine ⟨fun s c => ?_, fun s m args => ?_, fun s e i cs locs => ?_⟩
    · rw [exec]; exact Res.le_none _
    · rw [invoke]; exact Res.le_none _
    · rw [runEffects]; exact Res.le_none _
  | succ n ih =>
    obtain ⟨ih1, ih2, ih3⟩ := ih
    refine ⟨fun s c => ?_, fun s m args => ?_, fun s e i cs locs => ?_⟩
    · cases c with
      | done o => simp only [exec]; exact Res.le_refl _
      | illFormed => simp only [exec]; exact Res.le_refl _
      | read a k =>
        simp only [exec]
        split
        · exact Res.le_refl _
        · exact ih1 _ _
      | write a v k =>
        simp only [exec]
        split
        · exact ih1 _ _
        · exact Res.le_refl _
      | newSequence st k => simp only [exec]; exact Res.le_lib (fun _ _ => ih1 _ _)
      | dropSequence q k => simp only [exec]; exact Res.le_lib (fun _ _ => ih1 _ _)
      | newMock noexc params k => simp only [exec]; exact Res.le_lib (fun _ _ => ih1 _ _)
      | expect m min max tags policies effects fin k => simp only [exec]; exact Res.le_lib (fun _ _ => ih1 _ _)
      | destroy e k => simp only [exec]; exact Res.le_lib (fun _ _ => ih1 _ _)
      | call m args k => simp only [exec]; exact Res.le_andThen (ih2 _ _ _) (fun _ _ => ih1 _ _)
    · rw [invoke, invoke]
      split
      · exact Res.le_refl _
      · split
        · exact Res.le_refl _
        · split
          · exact Res.le_refl _
          · exact Res.le_refl _
          · split
            · exact Res.le_refl _
            · apply Res.le_leave
              apply Res.le_log
              apply Res.le_andThen (ih3 _ _ _ _ _)
              intro s' _
              split
              · exact Res.le_log (ih1 _ _) _
              · exact Res.le_refl _
    · cases cs with
      | nil => rw [runEffects, runEffects]; exact Res.le_refl _
      | cons c cs =>
        rw [runEffects, runEffects]
        split
        · apply Res.le_log
          apply Res.le_andThen (ih1 _ _)
          intro s' o
          cases o with
          | exc x => exact Res.le_refl _
          | ret v => exact ih3 _ _ _ _ _
        · exact Res.le_refl _

theorem exec_mono {n n' : Nat} (h : n ≤ n') (s : CState V) (c : Code V) : Res.le (exec n s c) (exec n' s c) := by
  induction h with
  | refl => exact Res.le_refl _
  | step _ ih => exact fun x hx => (fuel_succ _).1 s c x (ih x hx)

theorem invoke_mono {n n' : Nat} (h : n ≤ n') (s : CState V) (m : Nat) (args : List Nat) :
    Res.le (invoke n s m args) (invoke n' s m args) := by
  induction h with
  | refl => exact Res.le_refl _
  | step _ ih => exact fun x hx => (fuel_succ _).2.1 s m args x (ih x hx)

theorem runEffects_mono {n n' : Nat} (h : n ≤ n') (s : CState V) (e i : Nat) (cs : List (List Nat → Code V))
    (locs : List Nat) : Res.le (runEffects n s e i cs locs) (runEffects n' s e i cs locs) := by
  induction h with
  | refl => exact Res.le_refl _
  | step _ ih => exact fun x hx => (fuel_succ _).2.2 s e i cs locs x (ih x hx)

/-- Client code has one result. -/
theorem Runs.unique {s s1 s2 : CState V} {c : Code V} {l1 l2 : List (Obs V)} {o1 o2 : Outcome V}
    (h1 : Runs s c s1 l1 o1) (h2 : Runs s c s2 l2 o2) : s1 = s2 ∧ l1 = l2 ∧ o1 = o2 := by
  obtain ⟨n1, h1⟩ := h1
  obtain ⟨n2, h2⟩ := h2
  have a := exec_mono (Nat.le_max_left n1 n2) s c _ h1
  have b := exec_mono (Nat.le_max_right n1 n2) s c _ h2
  rw [a] at b
  simp only [Option.some.injEq, Except.ok.injEq, Prod.mk.injEq] at b
  exact b

/-! ## The invariant of the program state -/

theorem CInv.init (mem : List V) : CInv [] (CState.init mem) := ⟨.init, rfl, rfl⟩

theorem CInv.congr {tr : Trace (Snap V)} {s s' : CState V} (h : CInv tr s) (h1 : s'.w = s.w) (h2 : s'.acts = s.acts)
    (h3 : s'.mocks = s.mocks) : CInv tr s' :=
  ⟨h1 ▸ h.reach, by rw [h1, h2]; exact h.acts, by rw [h1, h3]; exact h.mocks⟩

def Op.newExps {α : Type} (op : Op α) (ev : List Event) : Nat :=
  match op with | .expect .. => if ev = [.rejected] then 0 else 1 | _ => 0

def Op.newMocks {α : Type} (op : Op α) : Nat :=
  match op with | .newMock => 1 | _ => 0

/-- How the tables of the world grow. -/
theorem step_lengths {α : Type} {tr : Trace α} {w w' : World α} (h : Reach tr w) {op : Op α} {ev : List Event}
    (hs : w.step op = .ok (w', ev)) :
    w'.exps.length = w.exps.length + op.newExps ev ∧
    w'.colls.length = w.colls.length + op.newMocks := by
  have hspec := h.spec_step hs
  have e1 := abs_exps_length w
  have e2 := abs_exps_length w'
  have e3 : (abs w).mocks = w.colls.length := rfl
  have e4 : (abs w').mocks = w'.colls.length := rfl
  rw [← e1, ← e2, ← e3, ← e4]
  cases op with
  | newSequence st =>
    simp only [Spec.State.step, Option.some.injEq, Prod.mk.injEq] at hspec
    rw [← hspec.1]; exact ⟨rfl, rfl⟩
  | dropSequence s =>
    simp only [Spec.State.step] at hspec
    split at hspec
    · simp only [Option.some.injEq, Prod.mk.injEq] at hspec
      rw [← hspec.1]; exact ⟨rfl, rfl⟩
    · simp at hspec
  | newMock =>
    simp only [Spec.State.step, Option.some.injEq, Prod.mk.injEq] at hspec
    rw [← hspec.1]; exact ⟨rfl, rfl⟩
  | expect m min max tags policies =>
    simp only [Spec.State.step] at hspec
    split at hspec
    · split at hspec
      · simp only [Option.some.injEq, Prod.mk.injEq] at hspec
        rw [← hspec.1, ← hspec.2]; exact ⟨by simp [Op.newExps], rfl⟩
      · simp only [Option.some.injEq, Prod.mk.injEq] at hspec
        rw [← hspec.1, ← hspec.2]; exact ⟨by simp [Op.newExps], rfl⟩
    · simp at hspec
  | call m a =>
    simp only [Spec.State.step] at hspec
    split at hspec
    · simp only [Option.some.injEq, Prod.mk.injEq] at hspec
      rw [← hspec.1]
      unfold Spec.State.call
      simp only
      split
      · exact ⟨by simp [Spec.State.countMatch, Op.newExps], rfl⟩
      · split <;> exact ⟨rfl, rfl⟩
    · simp at hspec
  | destroy e =>
    simp only [Spec.State.step] at hspec
    split at hspec
    · simp at hspec
    · simp only [Option.some.injEq, Prod.mk.injEq] at hspec
      rw [← hspec.1]
      exact ⟨by simp [Spec.State.withdraw, Op.newExps], rfl⟩

theorem CInv.step {tr : Trace (Snap V)} {s : CState V} (h : CInv tr s) {op : Op (Snap V)} {w' : World (Snap V)}
    {ev : List Event} (hs : s.w.step op = .ok (w', ev)) (h1 : ∀ m min max tags ps, op ≠ .expect m min max tags ps)
    (h2 : op ≠ .newMock) : CInv (tr ++ [(op, ev)]) { s with w := w' } := by
  obtain ⟨l1, l2⟩ := step_lengths h.reach hs
  refine ⟨h.reach.step hs, ?_, ?_⟩
  · show s.acts.length = w'.exps.length
    rw [l1, h.acts]
    cases op <;> first | rfl | exact absurd rfl (h1 _ _ _ _ _)
  · show s.mocks.length = w'.colls.length
    rw [l2, h.mocks]
    cases op <;> first | rfl | exact absurd rfl h2

theorem CInv.newMock {tr : Trace (Snap V)} {s : CState V} (h : CInv tr s) {w' : World (Snap V)} {ev : List Event}
    (hs : s.w.step .newMock = .ok (w', ev)) (noexc : Bool) (params : List ParamKind) :
    CInv (tr ++ [(.newMock, ev)]) { s with w := w', mocks := s.mocks ++ [(noexc, params)] } := by
  obtain ⟨l1, l2⟩ := step_lengths h.reach hs
  refine ⟨h.reach.step hs, ?_, ?_⟩
  · show s.acts.length = w'.exps.length
    rw [l1, h.acts]; rfl
  · show (s.mocks ++ [(noexc, params)]).length = w'.colls.length
    rw [l2, List.length_append, h.mocks]; rfl

theorem CInv.expect {tr : Trace (Snap V)} {s : CState V} (h : CInv tr s) {w' : World (Snap V)} {ev : List Event}
    {m : Nat} {min max : Int} {tags : List Nat} {policies : List (Policy (Snap V))}
    (hs : s.w.step (.expect m min max tags policies) = .ok (w', ev)) (a : Acts V) :
    CInv (tr ++ [(.expect m min max tags policies, ev)])
      (if ev = [.rejected] then { s with w := w' } else { s with w := w', acts := s.acts ++ [a] }) := by
  obtain ⟨l1, l2⟩ := step_lengths h.reach hs
  simp only [Op.newExps] at l1
  split
  · rename_i hev
    rw [if_pos hev] at l1
    exact ⟨h.reach.step hs, by show s.acts.length = w'.exps.length; rw [l1, h.acts]; rfl,
      by show s.mocks.length = w'.colls.length; rw [l2, h.mocks]; rfl⟩
  · rename_i hev
    rw [if_neg hev] at l1
    exact ⟨h.reach.step hs,
      by show (s.acts ++ [a]).length = w'.exps.length
         rw [l1, List.length_append, h.acts]; rfl,
      by show s.mocks.length = w'.colls.length; rw [l2, h.mocks]; rfl⟩

def selfDestruction : String := "expectation destroyed while it is executing"

/-- A result that continues the history `tr`; undefined behaviour has one possible cause only. -/
def Good {A : Type} (tr : Trace (Snap V)) : Res V A → Prop
  | none => True
  | some (.error (.ub why)) => why = selfDestruction
  | some (.error _) => True
  | some (.ok (s', log, _)) => CInv (tr ++ flat log) s'

theorem Good.log_op {A : Type} {tr : Trace (Snap V)} {r : Res V A} {o : Op (Snap V)} {ev : List Event}
    (h : Good (tr ++ [(o, ev)]) r) : Good tr (Res.log (.op o ev) r) := by
  cases r with
  | none => trivial
  | some y =>
    cases y with
    | error z => cases z <;> exact h
    | ok z =>
      obtain ⟨s, log, a⟩ := z
      simp only [Good, Res.log, flat, List.filterMap_cons] at h ⊢
      simpa using h

theorem Good.log_other {A : Type} {tr : Trace (Snap V)} {r : Res V A} {x : Obs V}
    (hx : ∀ o ev, x ≠ .op o ev) (h : Good tr r) : Good tr (Res.log x r) := by
  cases r with
  | none => trivial
  | some y =>
    cases y with
    | error z => cases z <;> exact h
    | ok z =>
      obtain ⟨s, log, a⟩ := z
      cases x with
      | op o ev => exact absurd rfl (hx o ev)
      | effect e i => exact h
      | final e => exact h

theorem flat_append (l l' : List (Obs V)) : flat (l ++ l') = flat l ++ flat l' := List.filterMap_append

theorem Good.andThen {A B : Type} {tr : Trace (Snap V)} {r : Res V A} {f : CState V → A → Res V B} (h : Good tr r)
    (hf : ∀ s' log a, CInv (tr ++ flat log) s' → Good (tr ++ flat log) (f s' a)) : Good tr (r.andThen f) := by
  cases r with
  | none => trivial
  | some y =>
    cases y with
    | error z => cases z <;> exact h
    | ok z =>
      obtain ⟨s, log, a⟩ := z
      have := hf s log a h
      simp only [Res.andThen]
      cases hfs : f s a with
      | none => trivial
      | some y =>
        rw [hfs] at this
        cases y with
        | error z => cases z <;> exact this
        | ok z =>
          obtain ⟨s', log', b⟩ := z
          simp only [Good] at this ⊢
          rw [flat_append, ← List.append_assoc]
          exact this

theorem Good.lib {tr : Trace (Snap V)} {s : CState V} (h : CInv tr s) {o : Op (Snap V)}
    {f : CState V → List Event → Res V (Outcome V)}
    (hf : ∀ w' ev, s.w.step o = .ok (w', ev) → Good (tr ++ [(o, ev)]) (f { s with w := w' } ev)) :
    Good tr (s.lib o f) := by
  unfold CState.lib
  split
  · rename_i x hx
    cases x with
    | ub why => exact absurd hx (C17_no_ub h.reach o why)
    | terminate why => trivial
    | client why => trivial
  · rename_i w' ev hx
    exact Good.log_op (hf w' ev hx)

theorem handleCall_step {α : Type} {w w' : World α} {m : Nat} {a : α} {ev : List Event} {r : Option Nat}
    (h : w.handleCall m a = .ok (w', ev, r)) : w.step (.call m a) = .ok (w', ev) := by
  simp [World.step, h, bind, Except.bind, pure, Except.pure]

/-- The result of `handleCall` tells which expectation was reported. -/
theorem handleCall_result {α : Type} {tr : Trace α} {w w' : World α} (h : Reach tr w) {m : Nat} {a : α} {ev : List Event}
    {r : Option Nat} (hs : w.handleCall m a = .ok (w', ev, r)) : ∀ e, r = some e ↔ Event.fullMatch e ∈ ev := by
  obtain ⟨hev, _, hm⟩ := call_spec h (handleCall_step hs)
  obtain ⟨w'', h1, _⟩ := h.view.1.handleCall (show m < w.colls.length from hm) a
  rw [hs] at h1
  simp only [Except.ok.injEq, Prod.mk.injEq] at h1
  obtain ⟨_, h2⟩ := h1
  intro e
  have h3 : ev = ((abs w).call m a).2.1 := congrArg Prod.fst h2
  have h4 : r = ((abs w).call m a).2.2 := congrArg Prod.snd h2
  clear hev h2 hs
  rw [h3, h4]
  unfold Spec.State.call
  simp only
  split
  · simp only [Option.some.injEq, List.mem_append, List.mem_map, reduceCtorEq, and_false, exists_false, false_or,
      List.mem_singleton, Event.fullMatch.injEq]
    exact ⟨Eq.symm, Eq.symm⟩
  · split <;> simp

theorem handleCall_exists {α : Type} {w w' : World α} {m : Nat} {a : α} {ev : List Event}
    {e : Nat} (hs : w.handleCall m a = .ok (w', ev, some e)) : e < w.exps.length := by
  obtain ⟨x, hx⟩ := consume_some (handleCall_consume hs)
  exact (List.getElem?_eq_some_iff.mp hx).1

theorem Good.leave {tr : Trace (Snap V)} {r : Res V (Outcome V)} (h : Good tr r) (b : Bool) : Good tr (r.leave b) := by
  cases r with
  | none => exact h
  | some y =>
    cases y with
    | error z => exact h
    | ok z =>
      obtain ⟨s, log, o⟩ := z
      cases o with
      | ret v => exact h
      | exc x =>
        cases b
        · exact h
        · trivial

theorem sound (n : Nat) :
    (∀ (s : CState V) (c : Code V) (tr : Trace (Snap V)), CInv tr s → Good tr (exec n s c)) ∧
    (∀ (s : CState V) (m : Nat) (args : List Nat) (tr : Trace (Snap V)), CInv tr s → Good tr (invoke n s m args)) ∧
    (∀ (s : CState V) (e i : Nat) (cs : List (List Nat → Code V)) (locs : List Nat) (tr : Trace (Snap V)),
      CInv tr s → Good tr (runEffects n s e i cs locs)) := by
  induction n with
  | zero =>
    refine ⟨fun s c tr _ => ?_, fun s m args tr _ => ?_, fun s e i cs locs tr _ => ?_⟩
    · rw [exec]; trivial
    · rw [invoke]; trivial
    · rw [runEffects]; trivial
  | succ n ih =>
    obtain ⟨ih1, ih2, ih3⟩ := ih
    refine ⟨fun s c tr h => ?_, fun s m args tr h => ?_, fun s e i cs locs tr h => ?_⟩
    · cases c with
      | done o => simp only [exec, Good, flat, List.filterMap_nil, List.append_nil]; exact h
      | illFormed => simp only [exec]; trivial
      | read a k =>
        simp only [exec]
        split
        · trivial
        · exact ih1 _ _ _ h
      | write a v k =>
        simp only [exec]
        split
        · exact ih1 _ _ _ (h.congr rfl rfl rfl)
        · trivial
      | newSequence st k =>
        simp only [exec]
        exact Good.lib h (fun w' ev hs => ih1 _ _ _ (h.step hs (by simp) (by simp)))
      | dropSequence q k =>
        simp only [exec]
        exact Good.lib h (fun w' ev hs => ih1 _ _ _ (h.step hs (by simp) (by simp)))
      | newMock noexc params k =>
        simp only [exec]
        exact Good.lib h (fun w' ev hs => ih1 _ _ _ (h.newMock hs noexc params))
      | expect m min max tags policies effects fin k =>
        simp only [exec]
        exact Good.lib h (fun w' ev hs => ih1 _ _ _ (h.expect hs ⟨effects, fin⟩))
      | destroy e k =>
        simp only [exec]
        exact Good.lib h (fun w' ev hs => ih1 _ _ _ (h.step hs (by simp) (by simp)))
      | call m args k =>
        simp only [exec]
        exact Good.andThen (ih2 _ _ _ _ h) (fun s' log a h' => ih1 _ _ _ h')
    · rw [invoke]
      split
      · trivial
      · split
        · trivial
        · rename_i mem' locs _
          split
          · rename_i x hx
            cases x with
            | ub why =>
              have : s.w.step (.call m ⟨mem', locs⟩) = .error (.ub why) := by
                simp [World.step, hx, bind, Except.bind]
              exact absurd this (C17_no_ub h.reach _ why)
            | terminate why => trivial
            | client why => trivial
          · rename_i w' ev hx
            apply Good.leave
            have := h.step (handleCall_step hx) (by simp) (by simp)
            exact this.congr rfl rfl rfl
          · rename_i w' ev e hx
            have hinv : CInv (tr ++ [(Op.call m ⟨mem', locs⟩, ev)]) { s with w := w', mem := mem' } :=
              (h.step (handleCall_step hx) (by simp) (by simp)).congr rfl rfl rfl
            split
            · rename_i ha
              have := handleCall_exists hx
              rw [← h.acts] at this
              rw [List.getElem?_eq_none_iff] at ha
              omega
            · apply Good.leave
              apply Good.log_op
              refine Good.andThen (ih3 _ _ _ _ _ _ hinv) (fun s' log a h' => ?_)
              split
              · exact Good.log_other (by simp) (ih1 _ _ _ h')
              · rfl
    · cases cs with
      | nil => simp only [runEffects, Good, flat, List.filterMap_nil, List.append_nil]; exact h
      | cons c cs =>
        rw [runEffects]
        split
        · apply Good.log_other (by simp)
          refine Good.andThen (ih1 _ _ _ h) (fun s' log o h' => ?_)
          cases o with
          | exc x => trivial
          | ret v => exact ih3 _ _ _ _ _ _ h'
        · rfl

/-! ## Decomposition of a call -/

theorem Res.log_ok {A : Type} {o : Obs V} {r : Res V A} {s' : CState V} {log : List (Obs V)} {a : A}
    (h : Res.log o r = some (.ok (s', log, a))) : ∃ log', log = o :: log' ∧ r = some (.ok (s', log', a)) := by
  cases r with
  | none => simp [Res.log] at h
  | some y =>
    cases y with
    | error z => simp [Res.log] at h
    | ok z =>
      obtain ⟨s1, l1, a1⟩ := z
      simp only [Res.log, Option.some.injEq, Except.ok.injEq, Prod.mk.injEq] at h
      obtain ⟨rfl, rfl, rfl⟩ := h
      exact ⟨_, rfl, rfl⟩

theorem Res.andThen_ok {A B : Type} {r : Res V A} {f : CState V → A → Res V B} {s' : CState V} {log : List (Obs V)}
    {b : B} (h : r.andThen f = some (.ok (s', log, b))) :
    ∃ s1 l1 a l2, r = some (.ok (s1, l1, a)) ∧ f s1 a = some (.ok (s', l2, b)) ∧ log = l1 ++ l2 := by
  cases r with
  | none => simp [Res.andThen] at h
  | some y =>
    cases y with
    | error z => simp [Res.andThen] at h
    | ok z =>
      obtain ⟨s1, l1, a1⟩ := z
      simp only [Res.andThen] at h
      cases hf : f s1 a1 with
      | none => rw [hf] at h; simp at h
      | some y =>
        rw [hf] at h
        cases y with
        | error z => simp at h
        | ok z =>
          obtain ⟨s2, l2, a2⟩ := z
          simp only [Option.some.injEq, Except.ok.injEq, Prod.mk.injEq] at h
          obtain ⟨rfl, rfl, rfl⟩ := h
          exact ⟨s1, l1, a1, l2, rfl, hf, rfl⟩

theorem Res.leave_ok {b : Bool} {r : Res V (Outcome V)} {s' : CState V} {log : List (Obs V)} {o : Outcome V}
    (h : r.leave b = some (.ok (s', log, o))) :
    r = some (.ok (s', log, o)) ∧ (b = true → ∃ v, o = .ret v) := by
  cases r with
  | none => simp [Res.leave] at h
  | some y =>
    cases y with
    | error z => simp [Res.leave] at h
    | ok z =>
      obtain ⟨s1, l1, a1⟩ := z
      cases a1 with
      | ret v =>
        simp only [Res.leave, Option.some.injEq, Except.ok.injEq, Prod.mk.injEq] at h
        obtain ⟨rfl, rfl, rfl⟩ := h
        exact ⟨rfl, fun _ => ⟨v, rfl⟩⟩
      | exc x =>
        cases b
        · simp only [Res.leave, Bool.false_eq_true, if_false] at h
          exact ⟨h, by simp⟩
        · simp [Res.leave] at h

theorem runEffects_ok (n : Nat) : ∀ {s : CState V} {e i : Nat} {cs : List (List Nat → Code V)} {locs : List Nat}
    {s' : CState V} {log : List (Obs V)} {u : Unit}, runEffects n s e i cs locs = some (.ok (s', log, u)) →
    InOrder e locs i cs s s' log := by
  induction n with
  | zero => intro s e i cs locs s' log u h; simp [runEffects] at h
  | succ n ih =>
    intro s e i cs locs s' log u h
    cases cs with
    | nil =>
      simp only [runEffects, Option.some.injEq, Except.ok.injEq, Prod.mk.injEq] at h
      obtain ⟨rfl, rfl, _⟩ := h
      exact .nil
    | cons c cs =>
      rw [runEffects] at h
      split at h
      · obtain ⟨l', rfl, h'⟩ := Res.log_ok h
        obtain ⟨s1, l1, o, l2, h1, h2, rfl⟩ := Res.andThen_ok h'
        cases o with
        | exc x => simp at h2
        | ret v => exact .cons (by assumption) ⟨n, h1⟩ (ih h2)
      · simp at h

theorem runEffects_of {s s' : CState V} {e i : Nat} {cs : List (List Nat → Code V)} {locs : List Nat}
    {log : List (Obs V)} (h : InOrder e locs i cs s s' log) :
    ∃ n, runEffects n s e i cs locs = some (.ok (s', log, ())) := by
  induction h with
  | nil => exact ⟨1, rfl⟩
  | @cons i c cs s s1 s2 l1 l2 v ha hr _ ih =>
    obtain ⟨n1, h1⟩ := hr
    obtain ⟨n2, h2⟩ := ih
    refine ⟨max n1 n2 + 1, ?_⟩
    rw [runEffects, if_pos ha, exec_mono (Nat.le_max_left n1 n2) _ _ _ h1]
    simp only [Res.andThen]
    rw [runEffects_mono (Nat.le_max_right n1 n2) _ _ _ _ _ _ h2]
    rfl

theorem runEffects_throw {s s' s'' : CState V} {e i : Nat} {pre post : List (List Nat → Code V)} {c : List Nat → Code V}
    {locs : List Nat} {log log' : List (Obs V)} {x : Exc} (h : InOrder e locs i pre s s' log)
    (ha : s'.w.isAlive e = true) (hx : Runs s' (c locs) s'' log' (.exc x)) :
    ∃ n, runEffects n s e i (pre ++ c :: post) locs = some (.error (.terminate "exception leaves a side effect")) := by
  induction h with
  | nil =>
    obtain ⟨n, hx⟩ := hx
    refine ⟨n + 1, ?_⟩
    rw [List.nil_append, runEffects, if_pos ha, hx]
    rfl
  | @cons i c1 cs s s1 s2 l1 l2 v ha' hr _ ih =>
    obtain ⟨n1, h1⟩ := hr
    obtain ⟨n2, h2⟩ := ih ha hx
    refine ⟨max n1 n2 + 1, ?_⟩
    rw [List.cons_append, runEffects, if_pos ha', exec_mono (Nat.le_max_left n1 n2) _ _ _ h1]
    simp only [Res.andThen]
    rw [runEffects_mono (Nat.le_max_right n1 n2) _ _ _ _ _ _ h2]
    rfl

theorem step_handleCall {α : Type} {w w' : World α} {m : Nat} {a : α} {ev : List Event}
    (h : w.step (.call m a) = .ok (w', ev)) : ∃ r, w.handleCall m a = .ok (w', ev, r) := by
  simp only [World.step, bind, Except.bind] at h
  cases hh : w.handleCall m a with
  | error x => rw [hh] at h; simp at h
  | ok z =>
    obtain ⟨w1, ev1, r⟩ := z
    rw [hh] at h
    simp only [pure, Except.pure, Except.ok.injEq, Prod.mk.injEq] at h
    obtain ⟨rfl, rfl⟩ := h
    exact ⟨r, rfl⟩

/-- How a call with a resolving expectation is carried out. -/
theorem invoke_resolved {tr : Trace (Snap V)} {s : CState V} (hc : CInv tr s) {m : Nat} {args : List Nat} {noexc : Bool}
    {mem' : List V} {locs : List Nat} {w' : World (Snap V)} {ev : List Event}
    (hr : Resolves s m args noexc mem' locs w' ev) {e : Nat} (he : Event.fullMatch e ∈ ev) {acts : Acts V}
    (ha : s.acts[e]? = some acts) (n : Nat) :
    invoke (n + 1) s m args = Res.leave noexc (Res.log (.op (.call m ⟨mem', locs⟩) ev)
      ((runEffects n { s with w := w', mem := mem' } e 0 acts.effects locs).andThen (fun s' _ =>
        if s'.w.isAlive e then Res.log (.final e) (exec n s' (acts.fin locs))
        else some (.error (.ub "expectation destroyed while it is executing"))))) := by
  obtain ⟨⟨params, h1, h2⟩, h3⟩ := hr
  obtain ⟨r, h4⟩ := step_handleCall h3
  have h5 := (handleCall_result hc.reach h4 e).mpr he
  subst h5
  simp only [invoke, h1, h2, h4, ha]

theorem invoke_unresolved {tr : Trace (Snap V)} {s : CState V} (hc : CInv tr s) {m : Nat} {args : List Nat} {noexc : Bool}
    {mem' : List V} {locs : List Nat} {w' : World (Snap V)} {ev : List Event}
    (hr : Resolves s m args noexc mem' locs w' ev) (he : ∀ e, Event.fullMatch e ∉ ev) (n : Nat) :
    invoke (n + 1) s m args = Res.leave noexc
      (some (.ok ({ s with w := w', mem := mem' }, [.op (.call m ⟨mem', locs⟩) ev], .exc (unresolvedExc ev)))) := by
  obtain ⟨⟨params, h1, h2⟩, h3⟩ := hr
  obtain ⟨r, h4⟩ := step_handleCall h3
  cases r with
  | some e => exact absurd ((handleCall_result hc.reach h4 e).mp rfl) (he e)
  | none => simp only [invoke, h1, h2, h4]

theorem invoke_resolves {s s' : CState V} {m : Nat} {args : List Nat} {log : List (Obs V)} {o : Outcome V} {n : Nat}
    (h : invoke n s m args = some (.ok (s', log, o))) :
    ∃ noexc mem' locs w' ev, Resolves s m args noexc mem' locs w' ev := by
  cases n with
  | zero => simp [invoke] at h
  | succ n =>
    rw [invoke] at h
    split at h
    · simp at h
    · rename_i noexc params hm
      split at h
      · simp at h
      · rename_i mem' locs hb
        split at h
        · simp at h
        · rename_i w' ev hh
          exact ⟨noexc, mem', locs, w', ev, ⟨params, hm, hb⟩, handleCall_step hh⟩
        · rename_i w' ev e hh
          exact ⟨noexc, mem', locs, w', ev, ⟨params, hm, hb⟩, handleCall_step hh⟩

theorem Resolves.actions {tr : Trace (Snap V)} {s : CState V} (hc : CInv tr s) {m : Nat} {args : List Nat} {noexc : Bool}
    {mem' : List V} {locs : List Nat} {w' : World (Snap V)} {ev : List Event}
    (hr : Resolves s m args noexc mem' locs w' ev) {e : Nat} (he : Event.fullMatch e ∈ ev) :
    ∃ acts, s.acts[e]? = some acts := by
  obtain ⟨r, h4⟩ := step_handleCall hr.step
  have h5 := (handleCall_result hc.reach h4 e).mpr he
  subst h5
  have := handleCall_exists h4
  rw [← hc.acts] at this
  exact ⟨_, List.getElem?_eq_getElem this⟩

theorem Resolves.inv {tr : Trace (Snap V)} {s : CState V} (hc : CInv tr s) {m : Nat} {args : List Nat} {noexc : Bool}
    {mem' : List V} {locs : List Nat} {w' : World (Snap V)} {ev : List Event}
    (hr : Resolves s m args noexc mem' locs w' ev) :
    CInv (tr ++ [(Op.call m ⟨mem', locs⟩, ev)]) { s with w := w', mem := mem' } :=
  (hc.step hr.step (by simp) (by simp)).congr rfl rfl rfl

/-! ## Staying alive -/

theorem isAlive_iff {α : Type} (w : World α) (e : Nat) :
    w.isAlive e = true ↔ ∃ x ∈ (abs w).exps, x.id = e ∧ x.alive = true := by
  unfold World.isAlive
  constructor
  · intro h
    split at h
    · rename_i x hx; exact ⟨_, abs_mem hx, rfl, h⟩
    · simp at h
  · rintro ⟨y, hy, rfl, ha⟩
    obtain ⟨x, hx, hxy⟩ := (abs_mem_iff w y).mp hy
    rw [hx]
    rw [hxy] at ha
    exact ha

theorem isAlive_live {α : Type} {tr : Trace α} {w : World α} (h : Reach tr w) (e : Nat) :
    w.isAlive e = true ↔ tr.live e := by
  rw [isAlive_iff, h.view.2.live_iff]

theorem step_alive {α : Type} {tr : Trace α} {w w' : World α} (h : Reach tr w) {op : Op α} {ev : List Event}
    (hs : w.step op = .ok (w', ev)) (hd : ∀ e, op ≠ .destroy e) (e : Nat) (ha : w.isAlive e = true) :
    w'.isAlive e = true := by
  have hspec := h.spec_step hs
  rw [isAlive_iff] at ha ⊢
  obtain ⟨x, hx, hid, hal⟩ := ha
  cases op with
  | newSequence st =>
    simp only [Spec.State.step, Option.some.injEq, Prod.mk.injEq] at hspec
    rw [← hspec.1]; exact ⟨x, hx, hid, hal⟩
  | dropSequence s =>
    simp only [Spec.State.step] at hspec
    split at hspec
    · simp only [Option.some.injEq, Prod.mk.injEq] at hspec
      rw [← hspec.1]; exact ⟨x, hx, hid, hal⟩
    · simp at hspec
  | newMock =>
    simp only [Spec.State.step, Option.some.injEq, Prod.mk.injEq] at hspec
    rw [← hspec.1]; exact ⟨x, hx, hid, hal⟩
  | expect m min max tags policies =>
    simp only [Spec.State.step] at hspec
    split at hspec
    · split at hspec
      · simp only [Option.some.injEq, Prod.mk.injEq] at hspec
        rw [← hspec.1]; exact ⟨x, List.mem_append_left _ hx, hid, hal⟩
      · simp only [Option.some.injEq, Prod.mk.injEq] at hspec
        rw [← hspec.1]; exact ⟨x, hx, hid, hal⟩
    · simp at hspec
  | call m a =>
    simp only [Spec.State.step] at hspec
    split at hspec
    · simp only [Option.some.injEq, Prod.mk.injEq] at hspec
      rw [← hspec.1]
      unfold Spec.State.call
      simp only
      split
      · simp only [Spec.State.countMatch, List.mem_map]
        refine ⟨_, ⟨x, hx, rfl⟩, ?_⟩
        split <;> exact ⟨hid, hal⟩
      · split <;> exact ⟨x, hx, hid, hal⟩
    · simp at hspec
  | destroy e => exact absurd rfl (hd e)

/-- All attached actions destroy nothing. -/
def ActsOk (s : CState V) : Prop :=
  ∀ a ∈ s.acts, (∀ c ∈ a.effects, ∀ locs, NoDestroy (c locs)) ∧ ∀ locs, NoDestroy (a.fin locs)

/-- No undefined behaviour; what was alive stays alive if `keep`. -/
def Fine {A : Type} (keep : Bool) (s : CState V) : Res V A → Prop
  | none => True
  | some (.error (.ub _)) => False
  | some (.error _) => True
  | some (.ok (s', _, _)) => ActsOk s' ∧ (keep = true → ∀ e, s.w.isAlive e = true → s'.w.isAlive e = true)

theorem Fine.log {A : Type} {keep : Bool} {s : CState V} {r : Res V A} (h : Fine keep s r) (o : Obs V) :
    Fine keep s (Res.log o r) := by
  cases r with
  | none => trivial
  | some y =>
    cases y with
    | error z => cases z <;> exact h
    | ok z => exact h

theorem Fine.leave {keep : Bool} {s : CState V} {r : Res V (Outcome V)} (h : Fine keep s r) (b : Bool) :
    Fine keep s (r.leave b) := by
  cases r with
  | none => exact h
  | some y =>
    cases y with
    | error z => exact h
    | ok z =>
      obtain ⟨s, log, o⟩ := z
      cases o with
      | ret v => exact h
      | exc x =>
        cases b
        · exact h
        · trivial

theorem Fine.from {A : Type} {keep : Bool} {s s1 : CState V} {r : Res V A} (h : Fine keep s1 r)
    (h1 : keep = true → ∀ e, s.w.isAlive e = true → s1.w.isAlive e = true) : Fine keep s r := by
  cases r with
  | none => trivial
  | some y =>
    cases y with
    | error z => cases z <;> exact h
    | ok z => exact ⟨h.1, fun hk e he => h.2 hk e (h1 hk e he)⟩

theorem Fine.weaken {A : Type} {keep : Bool} {s : CState V} {r : Res V A} (h : Fine true s r) : Fine keep s r := by
  cases r with
  | none => trivial
  | some y =>
    cases y with
    | error z => cases z <;> exact h
    | ok z => exact ⟨h.1, fun _ => h.2 rfl⟩

theorem Fine.andThen {A B : Type} {keep : Bool} {tr : Trace (Snap V)} {s : CState V} {r : Res V A}
    {f : CState V → A → Res V B} (hg : Good tr r) (h : Fine keep s r)
    (hf : ∀ s' log a, CInv (tr ++ flat log) s' → ActsOk s' →
      (keep = true → ∀ e, s.w.isAlive e = true → s'.w.isAlive e = true) → Fine keep s' (f s' a)) :
    Fine keep s (r.andThen f) := by
  cases r with
  | none => trivial
  | some y =>
    cases y with
    | error z => cases z <;> exact h
    | ok z =>
      obtain ⟨s1, log, a⟩ := z
      have := (hf s1 log a hg h.1 h.2).from h.2
      simp only [Res.andThen]
      cases hfs : f s1 a with
      | none => trivial
      | some y =>
        rw [hfs] at this
        cases y with
        | error z => cases z <;> exact this
        | ok z => exact this

theorem Fine.lib {keep : Bool} {tr : Trace (Snap V)} {s : CState V} (h : CInv tr s) {o : Op (Snap V)}
    {f : CState V → List Event → Res V (Outcome V)} (hd : keep = true → ∀ e, o ≠ .destroy e)
    (hf : ∀ w' ev, s.w.step o = .ok (w', ev) → Fine keep { s with w := w' } (f { s with w := w' } ev)) :
    Fine keep s (s.lib o f) := by
  unfold CState.lib
  split
  · rename_i x hx
    cases x with
    | ub why => exact absurd hx (C17_no_ub h.reach o why)
    | terminate why => trivial
    | client why => trivial
  · rename_i w' ev hx
    apply Fine.log
    exact (hf w' ev hx).from (fun hk e he => step_alive h.reach hx (hd hk) e he)

theorem ActsOk.expect {s : CState V} (h : ActsOk s) {w' : World (Snap V)} (ev : List Event) {a : Acts V}
    (ha : (∀ c ∈ a.effects, ∀ locs, NoDestroy (c locs)) ∧ ∀ locs, NoDestroy (a.fin locs)) :
    ActsOk (if ev = [.rejected] then { s with w := w' } else { s with w := w', acts := s.acts ++ [a] }) := by
  split
  · exact h
  · intro b hb
    simp only [List.mem_append, List.mem_singleton] at hb
    rcases hb with hb | rfl
    · exact h b hb
    · exact ha

theorem expect_w {s : CState V} {w' : World (Snap V)} (ev : List Event) (a : Acts V) :
    (if ev = [Event.rejected] then { s with w := w' } else { s with w := w', acts := s.acts ++ [a] }).w = w' := by
  split <;> rfl

theorem fine (n : Nat) :
    (∀ (s : CState V) (c : Code V) (tr : Trace (Snap V)), CInv tr s → ActsOk s → NoDestroy c → Fine true s (exec n s c)) ∧
    (∀ (s : CState V) (m : Nat) (args : List Nat) (tr : Trace (Snap V)), CInv tr s → ActsOk s →
      Fine true s (invoke n s m args)) ∧
    (∀ (s : CState V) (e i : Nat) (cs : List (List Nat → Code V)) (locs : List Nat) (tr : Trace (Snap V)),
      CInv tr s → ActsOk s → (∀ c ∈ cs, ∀ locs, NoDestroy (c locs)) → s.w.isAlive e = true →
      Fine true s (runEffects n s e i cs locs)) := by
  induction n with
  | zero =>
    refine ⟨fun s c tr _ _ _ => ?_, fun s m args tr _ _ => ?_, fun s e i cs locs tr _ _ _ _ => ?_⟩
    · rw [exec]; trivial
    · rw [invoke]; trivial
    · rw [runEffects]; trivial
  | succ n ih =>
    obtain ⟨ih1, ih2, ih3⟩ := ih
    refine ⟨fun s c tr h hok hc => ?_, fun s m args tr h hok => ?_, fun s e i cs locs tr h hok hcs ha => ?_⟩
    · cases hc with
      | done => simp only [exec]; exact ⟨hok, fun _ _ h => h⟩
      | illFormed => simp only [exec]; trivial
      | read hk =>
        simp only [exec]
        split
        · trivial
        · exact ih1 _ _ _ h hok (hk _)
      | write hk =>
        simp only [exec]
        split
        · exact (ih1 { s with mem := s.mem.set _ _ } _ _ (h.congr rfl rfl rfl) hok hk).from (fun _ _ h => h)
        · trivial
      | newSequence hk =>
        simp only [exec]
        exact Fine.lib h (by simp) (fun w' ev hs => ih1 _ _ _ (h.step hs (by simp) (by simp)) hok hk)
      | dropSequence hk =>
        simp only [exec]
        exact Fine.lib h (by simp) (fun w' ev hs => ih1 _ _ _ (h.step hs (by simp) (by simp)) hok hk)
      | newMock hk =>
        simp only [exec]
        exact Fine.lib h (by simp) (fun w' ev hs => (ih1 _ _ _ (h.newMock hs _ _) hok hk).from (fun _ _ h => h))
      | expect he hf hk =>
        simp only [exec]
        exact Fine.lib h (by simp) (fun w' ev hs =>
          (ih1 _ _ _ (h.expect hs _) (hok.expect ev ⟨he, hf⟩) hk).from (fun _ e he => by
            rw [expect_w]; exact he))
      | call hk =>
        simp only [exec]
        exact Fine.andThen ((sound n).2.1 _ _ _ _ h) (ih2 _ _ _ _ h hok)
          (fun s' log a h' hok' _ => ih1 _ _ _ h' hok' (hk _))
    · have hs := (sound (n + 1)).2.1 s m args tr h
      rw [invoke] at hs ⊢
      split
      · trivial
      · split
        · trivial
        · rename_i mem' locs _
          split
          · rename_i x hx
            cases x with
            | ub why =>
              have : s.w.step (.call m ⟨mem', locs⟩) = .error (.ub why) := by
                simp [World.step, hx, bind, Except.bind]
              exact absurd this (C17_no_ub h.reach _ why)
            | terminate why => trivial
            | client why => trivial
          · rename_i w' ev hx
            apply Fine.leave
            exact ⟨hok, fun _ e he => step_alive h.reach (handleCall_step hx) (by simp) e he⟩
          · rename_i w' ev e hx
            have hinv : CInv (tr ++ [(Op.call m ⟨mem', locs⟩, ev)]) { s with w := w', mem := mem' } :=
              (h.step (handleCall_step hx) (by simp) (by simp)).congr rfl rfl rfl
            have halive : w'.isAlive e = true := by
              apply step_alive h.reach (handleCall_step hx) (by simp)
              rw [isAlive_live h.reach]
              obtain ⟨m', a', _, hcand⟩ := fullMatch_source h.reach (handleCall_step hx)
                ((handleCall_result h.reach hx e).mp rfl)
              exact hcand.1.1
            split
            · rename_i ha
              have := handleCall_exists hx
              rw [← h.acts] at this
              rw [List.getElem?_eq_none_iff] at ha
              omega
            · rename_i acts ha
              obtain ⟨hoe, hof⟩ := hok acts (List.mem_of_getElem? ha)
              apply Fine.leave
              apply Fine.log
              refine Fine.from (s1 := { s with w := w', mem := mem' }) ?_
                (fun _ e he => step_alive h.reach (handleCall_step hx) (by simp) e he)
              refine Fine.andThen ((sound n).2.2 _ _ _ _ _ _ hinv) (ih3 _ _ _ _ _ _ hinv hok hoe halive)
                (fun s' log a h' hok' hk => ?_)
              rw [if_pos (hk rfl e halive)]
              exact (ih1 _ _ _ h' hok' (hof locs)).log _
    · cases cs with
      | nil => simp only [runEffects]; exact ⟨hok, fun _ _ h => h⟩
      | cons c cs =>
        rw [runEffects, if_pos ha]
        apply Fine.log
        refine Fine.andThen ((sound n).1 _ _ _ h) (ih1 _ _ _ h hok (hcs c (by simp) locs))
          (fun s' log o h' hok' hk => ?_)
        cases o with
        | exc x => trivial
        | ret v => exact ih3 _ _ _ _ _ _ h' hok' (fun c hc => hcs c (by simp [hc])) (hk rfl e ha)

theorem fine_top (n : Nat) : ∀ (s : CState V) (c : Code V) (tr : Trace (Snap V)), CInv tr s → ActsOk s → ActionsKeep c →
    Fine false s (exec n s c) := by
  induction n with
  | zero => intro s c tr _ _ _; rw [exec]; trivial
  | succ n ih1 =>
    intro s c tr h hok hc
    cases hc with
    | done => simp only [exec]; exact ⟨hok, by simp⟩
    | illFormed => simp only [exec]; trivial
    | read hk =>
      simp only [exec]
      split
      · trivial
      · exact ih1 _ _ _ h hok (hk _)
    | write hk =>
      simp only [exec]
      split
      · exact (ih1 { s with mem := s.mem.set _ _ } _ _ (h.congr rfl rfl rfl) hok hk).from (by simp)
      · trivial
    | newSequence hk =>
      simp only [exec]
      exact Fine.lib h (by simp) (fun w' ev hs => ih1 _ _ _ (h.step hs (by simp) (by simp)) hok hk)
    | dropSequence hk =>
      simp only [exec]
      exact Fine.lib h (by simp) (fun w' ev hs => ih1 _ _ _ (h.step hs (by simp) (by simp)) hok hk)
    | newMock hk =>
      simp only [exec]
      exact Fine.lib h (by simp) (fun w' ev hs => (ih1 _ _ _ (h.newMock hs _ _) hok hk).from (by simp))
    | expect he hf hk =>
      simp only [exec]
      exact Fine.lib h (by simp) (fun w' ev hs =>
        (ih1 _ _ _ (h.expect hs _) (hok.expect ev ⟨he, hf⟩) hk).from (by simp))
    | destroy hk =>
      simp only [exec]
      exact Fine.lib h (by simp) (fun w' ev hs => ih1 _ _ _ (h.step hs (by simp) (by simp)) hok hk)
    | call hk =>
      simp only [exec]
      exact Fine.andThen ((sound n).2.1 _ _ _ _ h) ((fine n).2.1 _ _ _ _ h hok).weaken
        (fun s' log a h' hok' _ => ih1 _ _ _ h' hok' (hk _))

/-! ## Memory -/

theorem writesOnly_frame {A : Nat → Prop} (n : Nat) : ∀ {s s' : CState V} {c : Code V} {log : List (Obs V)}
    {o : Outcome V}, WritesOnly A c → exec n s c = some (.ok (s', log, o)) →
    s'.w = s.w ∧ s'.mocks = s.mocks ∧ s'.acts = s.acts ∧ log = [] ∧ s'.mem.length = s.mem.length ∧
    ∀ l : Nat, ¬ A l → s'.mem[l]? = s.mem[l]? := by
  induction n with
  | zero => intro s s' c log o _ h; simp [exec] at h
  | succ n ih =>
    intro s s' c log o hc h
    cases hc with
    | done =>
      simp only [exec, Option.some.injEq, Except.ok.injEq, Prod.mk.injEq] at h
      obtain ⟨rfl, rfl, _⟩ := h
      exact ⟨rfl, rfl, rfl, rfl, rfl, fun _ _ => rfl⟩
    | illFormed => simp [exec] at h
    | read hk =>
      simp only [exec] at h
      split at h
      · simp at h
      · exact ih (hk _) h
    | write ha hk =>
      rename_i a v k
      simp only [exec] at h
      split at h
      · obtain ⟨h1, h2, h3, h4, h5, h6⟩ := ih hk h
        refine ⟨h1, h2, h3, h4, by rw [h5]; simp, fun l hl => ?_⟩
        rw [h6 l hl]
        simp only
        rw [List.getElem?_set_ne]
        intro hh; rw [hh] at ha; exact hl ha
      · simp at h

theorem bindParams_spec {base : Nat} : ∀ {ps : List ParamKind} {mem : List V} {as : List Nat} {mem' : List V}
    {locs : List Nat}, base ≤ mem.length → (∀ a ∈ as, a < base) → bindParams mem ps as = some (mem', locs) →
    locs.length = ps.length ∧ as.length = ps.length ∧
    (∃ ext, mem' = mem ++ ext) ∧
    (∀ i : Nat, ps[i]? = some .ref → locs[i]? = as[i]?) ∧
    (∀ i : Nat, ps[i]? = some .value → ∃ l a, locs[i]? = some l ∧ as[i]? = some a ∧ mem.length ≤ l ∧
      l < mem'.length ∧ mem'[l]? = mem[a]?) ∧
    (∀ i j l : Nat, locs[i]? = some l → locs[j]? = some l → base ≤ l → i = j) ∧
    (∀ (i l : Nat), locs[i]? = some l → l < base ∨ mem.length ≤ l) := by
  intro ps
  induction ps with
  | nil =>
    intro mem as mem' locs hb has h
    cases as with
    | nil =>
      simp only [bindParams, Option.some.injEq, Prod.mk.injEq] at h
      obtain ⟨rfl, rfl⟩ := h
      simp
    | cons a as => simp [bindParams] at h
  | cons p ps ih =>
    intro mem as mem' locs hb has h
    cases as with
    | nil => cases p <;> simp [bindParams] at h
    | cons a as =>
      have ha : a < base := has a (by simp)
      cases p with
      | ref =>
        simp only [bindParams] at h
        split at h
        · simp at h
        · rename_i m' ls hr
          simp only [Option.some.injEq, Prod.mk.injEq] at h
          obtain ⟨rfl, rfl⟩ := h
          obtain ⟨h1, h2, h3, h4, h5, h6, h7⟩ := ih hb (fun x hx => has x (by simp [hx])) hr
          refine ⟨by simp [h1], by simp [h2], h3, ?_, ?_, ?_, ?_⟩
          · intro i hi
            cases i with
            | zero => simp
            | succ i => simpa using h4 i (by simpa using hi)
          · intro i hi
            cases i with
            | zero => simp at hi
            | succ i => simpa using h5 i (by simpa using hi)
          · intro i j l hi hj hl
            cases i with
            | zero =>
              simp at hi; omega
            | succ i =>
              cases j with
              | zero => simp at hj; omega
              | succ j =>
                have := h6 i j l (by simpa using hi) (by simpa using hj) hl
                omega
          · intro i l hi
            cases i with
            | zero => simp at hi; omega
            | succ i => exact h7 i l (by simpa using hi)
      | value =>
        simp only [bindParams] at h
        split at h
        · simp at h
        · rename_i v hv
          split at h
          · simp at h
          · rename_i m' ls hr
            simp only [Option.some.injEq, Prod.mk.injEq] at h
            obtain ⟨rfl, rfl⟩ := h
            obtain ⟨h1, h2, ⟨ext, h3⟩, h4, h5, h6, h7⟩ := ih (by simp; omega) (fun x hx => has x (by simp [hx])) hr
            refine ⟨by simp [h1], by simp [h2], ⟨v :: ext, by simp [h3]⟩, ?_, ?_, ?_, ?_⟩
            · intro i hi
              cases i with
              | zero => simp at hi
              | succ i => simpa using h4 i (by simpa using hi)
            · intro i hi
              cases i with
              | zero =>
                refine ⟨mem.length, a, rfl, rfl, Nat.le_refl _, by rw [h3]; simp, ?_⟩
                rw [hv, h3]
                simp
              | succ i =>
                obtain ⟨l, b, e1, e2, e3, e4, e5⟩ := h5 i (by simpa using hi)
                refine ⟨l, b, by simpa using e1, by simpa using e2, by simp at e3; omega, e4, ?_⟩
                rw [e5, List.getElem?_append_left]
                have := has b (by simp [List.mem_of_getElem? e2])
                omega
            · intro i j l hi hj hl
              cases i with
              | zero =>
                cases j with
                | zero => rfl
                | succ j =>
                  simp at hi
                  have := h7 j l (by simpa using hj)
                  simp at this
                  omega
              | succ i =>
                cases j with
                | zero =>
                  simp at hj
                  have := h7 i l (by simpa using hi)
                  simp at this
                  omega
                | succ j =>
                  have := h6 i j l (by simpa using hi) (by simpa using hj) hl
                  omega
            · intro i l hi
              cases i with
              | zero => simp at hi; omega
              | succ i =>
                have := h7 i l (by simpa using hi)
                simp at this
                omega

theorem bindArgs_spec {ps : List ParamKind} {mem : List V} {as : List Nat} {mem' : List V} {locs : List Nat}
    (h : bindArgs mem ps as = some (mem', locs)) :
    locs.length = ps.length ∧ as.length = ps.length ∧ (∀ a ∈ as, a < mem.length) ∧
    (∃ ext, mem' = mem ++ ext) ∧
    (∀ i : Nat, ps[i]? = some .ref → locs[i]? = as[i]?) ∧
    (∀ i : Nat, ps[i]? = some .value → ∃ l a, locs[i]? = some l ∧ as[i]? = some a ∧ mem.length ≤ l ∧
      l < mem'.length ∧ mem'[l]? = mem[a]?) ∧
    (∀ i j l : Nat, locs[i]? = some l → locs[j]? = some l → mem.length ≤ l → i = j) := by
  unfold bindArgs at h
  split at h
  · rename_i hall
    simp only [List.all_eq_true, decide_eq_true_eq] at hall
    obtain ⟨h1, h2, h3, h4, h5, h6, _⟩ := bindParams_spec (Nat.le_refl _) hall h
    exact ⟨h1, h2, hall, h3, h4, h5, h6⟩
  · simp at h

end Mimic
