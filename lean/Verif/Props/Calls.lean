import Verif.Props.Outcome
import Verif.Proofs.Calls
import Verif.Props.Limits

/-!
# C25 - C28: carrying out calls
-/

set_option autoImplicit false

namespace Mimic

variable {V : Type}

/-! ## C25 -/

/-- C25: what a call that returns to its caller (with a value or an exception) consists of.

Either no expectation resolves it, and the caller sees the exception of the reporter; or expectation `e` resolves it,
and then, in this order: the match is reported for the arguments as they were passed and counted (`.op`), the side
effects run in the order of their attachment, each starting in the state that the previous one left, and the finalizer
runs in the state that the last one left; its outcome is what the caller sees. Nothing else happens.
The description is complete: whatever fits it is what the call does. -/
theorem C25_order {tr : Trace (Snap V)} {s s' : CState V} (hc : CInv tr s) {m : Nat} {args : List Nat}
    {log : List (Obs V)} {o : Outcome V} :
    Calls s m args s' log o ↔
      ∃ noexc mem' locs w' ev, Resolves s m args noexc mem' locs w' ev ∧
        (noexc = true → ∃ v, o = .ret v) ∧
        (((∀ e, Event.fullMatch e ∉ ev) ∧ s' = { s with w := w', mem := mem' } ∧
            log = [.op (.call m ⟨mem', locs⟩) ev] ∧ o = .exc (unresolvedExc ev)) ∨
         ∃ e acts s1 log1 log2, Event.fullMatch e ∈ ev ∧ s.acts[e]? = some acts ∧
            InOrder e locs 0 acts.effects { s with w := w', mem := mem' } s1 log1 ∧ s1.w.isAlive e = true ∧
            Runs s1 (acts.fin locs) s' log2 o ∧
            log = .op (.call m ⟨mem', locs⟩) ev :: log1 ++ .final e :: log2) := by
  constructor
  · rintro ⟨n, h⟩
    obtain ⟨noexc, mem', locs, w', ev, hr⟩ := invoke_resolves h
    refine ⟨noexc, mem', locs, w', ev, hr, ?_⟩
    cases n with
    | zero => simp [invoke] at h
    | succ n =>
      by_cases he : ∃ e, Event.fullMatch e ∈ ev
      · obtain ⟨e, he⟩ := he
        obtain ⟨acts, ha⟩ := hr.actions hc he
        rw [invoke_resolved hc hr he ha] at h
        obtain ⟨h1, h2⟩ := Res.leave_ok h
        refine ⟨h2, Or.inr ?_⟩
        obtain ⟨l', hl', h3⟩ := Res.log_ok h1
        obtain ⟨s1, l1, _, l2, h4, h5, h6⟩ := Res.andThen_ok h3
        split at h5
        · rename_i halive
          obtain ⟨l3, h7, h8⟩ := Res.log_ok h5
          exact ⟨e, acts, s1, l1, l3, he, ha, runEffects_ok n h4, halive, ⟨n, h8⟩, by rw [hl', h6, h7]; rfl⟩
        · simp at h5
      · have he' : ∀ e, Event.fullMatch e ∉ ev := fun e h => he ⟨e, h⟩
        rw [invoke_unresolved hc hr he'] at h
        obtain ⟨h1, h2⟩ := Res.leave_ok h
        refine ⟨h2, Or.inl ⟨he', ?_⟩⟩
        simp only [Option.some.injEq, Except.ok.injEq, Prod.mk.injEq] at h1
        obtain ⟨h1, h3, h4⟩ := h1
        exact ⟨h1.symm, h3.symm, h4.symm⟩
  · rintro ⟨noexc, mem', locs, w', ev, hr, hn, ⟨he, rfl, rfl, rfl⟩ | ⟨e, acts, s1, l1, l2, he, ha, ho, hal, ⟨n2, hf⟩, rfl⟩⟩
    · refine ⟨1, ?_⟩
      rw [invoke_unresolved hc hr he]
      cases noexc with
      | false => rfl
      | true =>
        obtain ⟨v, hv⟩ := hn rfl
        simp at hv
    · obtain ⟨n1, h1⟩ := runEffects_of ho
      refine ⟨max n1 n2 + 1, ?_⟩
      rw [invoke_resolved hc hr he ha, runEffects_mono (Nat.le_max_left n1 n2) _ _ _ _ _ _ h1]
      simp only [Res.andThen, if_pos hal, exec_mono (Nat.le_max_right n1 n2) _ _ _ hf, Res.log]
      cases o with
      | ret v => rfl
      | exc x =>
        cases noexc with
        | false => rfl
        | true =>
          obtain ⟨v, hv⟩ := hn rfl
          simp at hv

/-- C25: the match is counted however the call ends for the caller, with a value or an exception. -/
theorem C25_counted {tr : Trace (Snap V)} {s s' : CState V} (hc : CInv tr s) {m : Nat} {args : List Nat}
    {log : List (Obs V)} {o : Outcome V} (h : Calls s m args s' log o) {e : Nat} {a : Snap V} {ev : List Event}
    {rest : List (Obs V)} (hl : log = .op (.call m a) ev :: rest) (he : Event.fullMatch e ∈ ev) :
    Reach (tr ++ flat log) s'.w ∧ Trace.matched (tr ++ flat log) e ≥ tr.matched e + 1 := by
  obtain ⟨n, h⟩ := h
  have hg := (sound n).2.1 s m args tr hc
  rw [h] at hg
  refine ⟨hg.reach, ?_⟩
  subst hl
  have : flat (.op (.call m a) ev :: rest) = (.call m a, ev) :: flat rest := rfl
  rw [this]
  simp only [Trace.matched, events_append]
  have h2 : Trace.events ((Op.call m a, ev) :: flat rest) = ev ++ Trace.events (flat rest) := by
    simp [Trace.events]
  rw [h2, List.count_append, List.count_append]
  have : 0 < ev.count (Event.fullMatch e) := List.count_pos_iff.mpr he
  omega

/-- `c` changes the memory by `f`, and nothing else. -/
def Changes (c : Code V) (f : List V → List V) : Prop :=
  ∀ s : CState V, ∃ v, Runs s c { s with mem := f s.mem } [] (.ret v)

/-- C25: side effects that change the memory by `fs` have, after the call, been applied one after the other to the
memory with the arguments as passed; and a finalizer `g` that looks at the memory sees the result. -/
theorem C25_fold {tr : Trace (Snap V)} {s : CState V} (hc : CInv tr s) {m : Nat} {args : List Nat} {noexc : Bool}
    {mem' : List V} {locs : List Nat} {w' : World (Snap V)} {ev : List Event}
    (hr : Resolves s m args noexc mem' locs w' ev) {e : Nat} (he : Event.fullMatch e ∈ ev) {acts : Acts V}
    (ha : s.acts[e]? = some acts) (fs : List (List V → List V)) (hlen : acts.effects.length = fs.length)
    (hfs : ∀ (i : Nat) c f, acts.effects[i]? = some c → fs[i]? = some f → Changes (c locs) f) (g : List V → V)
    (hg : ∀ s : CState V, Runs s (acts.fin locs) s [] (.ret (g s.mem))) :
    Calls s m args { s with w := w', mem := fs.foldl (fun x f => f x) mem' }
      (.op (.call m ⟨mem', locs⟩) ev :: (List.range fs.length).map (.effect e) ++ [.final e])
      (.ret (g (fs.foldl (fun x f => f x) mem'))) := by
  have halive : w'.isAlive e = true := by
    apply step_alive hc.reach hr.step (by simp)
    rw [isAlive_live hc.reach]
    obtain ⟨_, _, _, hcand⟩ := fullMatch_source hc.reach hr.step he
    exact hcand.1.1
  have key : ∀ (cs : List (List Nat → Code V)) (fs : List (List V → List V)) (i : Nat) (mem : List V),
      cs.length = fs.length → (∀ (i : Nat) c f, cs[i]? = some c → fs[i]? = some f → Changes (c locs) f) →
      InOrder e locs i cs { s with w := w', mem := mem } { s with w := w', mem := fs.foldl (fun x f => f x) mem }
        ((List.range' i fs.length).map (.effect e)) := by
    intro cs
    induction cs with
    | nil =>
      intro fs i mem hl _
      cases fs with
      | nil => exact .nil
      | cons f fs => simp at hl
    | cons c cs ih =>
      intro fs i mem hl hch
      cases fs with
      | nil => simp at hl
      | cons f fs =>
        obtain ⟨v, hv⟩ := hch 0 c f rfl rfl { s with w := w', mem := mem }
        have := ih fs (i + 1) (f mem) (by simpa using hl) (fun i c' f' h1 h2 => hch (i + 1) c' f' (by simpa using h1) (by simpa using h2))
        have hcons := InOrder.cons (e := e) (locs := locs) (i := i) halive hv this
        simpa [List.range'_succ] using hcons
  rw [C25_order hc]
  refine ⟨noexc, mem', locs, w', ev, hr, fun _ => ⟨_, rfl⟩, Or.inr ⟨e, acts, _, _, [], he, ha, key _ fs 0 mem' hlen hfs,
    halive, hg _, ?_⟩⟩
  simp [List.range_eq_range']

/-! ## C26 -/

/-- C26: the action receives exactly the selected arguments, in the order of the indices and with repetition. -/
theorem C26_selection (indices : List Nat) (action : List Nat → Code V) (locs : List Nat)
    (hi : ∀ i ∈ indices, i < locs.length) :
    ∃ ls : List Nat, ls.length = indices.length ∧
      (∀ (k i : Nat), indices[k]? = some i → ls[k]? = locs[i]?) ∧ applyArgs indices action locs = action ls := by
  have key : ∃ ls : List Nat, ls.length = indices.length ∧
      (∀ (k i : Nat), indices[k]? = some i → ls[k]? = locs[i]?) ∧ selectArgs indices locs = some ls := by
    unfold selectArgs
    induction indices with
    | nil => exact ⟨[], rfl, by simp, rfl⟩
    | cons i is ih =>
      obtain ⟨ls, h1, h2, h3⟩ := ih (fun j hj => hi j (by simp [hj]))
      have hlt := hi i (by simp)
      refine ⟨locs[i] :: ls, by simp [h1], ?_, ?_⟩
      · intro k j hk
        cases k with
        | zero =>
          simp at hk; subst hk
          simp [List.getElem?_eq_getElem hlt]
        | succ k => simpa using h2 k j (by simpa using hk)
      · rw [List.mapM_cons, h3]
        simp [List.getElem?_eq_getElem hlt]
  obtain ⟨ls, h1, h2, h3⟩ := key
  exact ⟨ls, h1, h2, by unfold applyArgs; rw [h3]⟩

/-- C26: an index beyond the parameters does not compile. -/
theorem C26_range (indices : List Nat) (action : List Nat → Code V) (locs : List Nat) (i : Nat) (hi : i ∈ indices)
    (hl : locs.length ≤ i) : applyArgs indices action locs = .illFormed := by
  have : selectArgs indices locs = none := by
    unfold selectArgs
    induction indices with
    | nil => simp at hi
    | cons j js ih =>
      rw [List.mapM_cons]
      simp only [List.mem_cons] at hi
      rcases hi with rfl | hi
      · rw [List.getElem?_eq_none_iff.mpr hl]; rfl
      · rw [ih hi]
        cases locs[j]? <;> rfl
  unfold applyArgs
  rw [this]

/-- C26: how the parameters of the mock are related to the caller's objects: nothing of the caller's is changed; a
reference parameter is the caller's object; a by-value parameter is an object of its own, different from all others,
with the value of the argument. -/
theorem C26_parameters {mem mem' : List V} {params : List ParamKind} {args locs : List Nat}
    (h : bindArgs mem params args = some (mem', locs)) :
    locs.length = args.length ∧ (∀ (l : Nat), l < mem.length → mem'[l]? = mem[l]?) ∧
    (∀ i : Nat, params[i]? = some .ref → locs[i]? = args[i]?) ∧
    (∀ i : Nat, params[i]? = some .value → ∃ l a, locs[i]? = some l ∧ args[i]? = some a ∧ mem.length ≤ l ∧
      mem'[l]? = mem[a]? ∧ l ∉ args ∧ ∀ j : Nat, locs[j]? = some l → j = i) := by
  obtain ⟨h1, h2, h3, ⟨ext, h4⟩, h5, h6, h7⟩ := bindArgs_spec h
  refine ⟨by rw [h1, h2], fun l hl => by rw [h4, List.getElem?_append_left hl], h5, fun i hi => ?_⟩
  obtain ⟨l, a, e1, e2, e3, e4, e5⟩ := h6 i hi
  exact ⟨l, a, e1, e2, e3, e5, fun hmem => by have := h3 l hmem; omega, fun j hj => h7 j i l hj e1 e3⟩

/-- C26: an action that only writes to the objects it was given leaves every object untouched that is not (an alias of)
a selected argument, and uses the library not at all. -/
theorem C26_untouched {s s' : CState V} {indices locs : List Nat} {action : List Nat → Code V}
    (hact : ∀ ls, WritesOnly (· ∈ ls) (action ls)) {log : List (Obs V)} {o : Outcome V}
    (h : Runs s (applyArgs indices action locs) s' log o) (l : Nat)
    (hl : ∀ i ∈ indices, locs[i]? ≠ some l) : s'.mem[l]? = s.mem[l]? ∧ s'.w = s.w := by
  obtain ⟨n, h⟩ := h
  by_cases hi : ∀ i ∈ indices, i < locs.length
  · obtain ⟨ls, h1, h2, h3⟩ := C26_selection indices action locs hi
    rw [h3] at h
    have := writesOnly_frame n (hact ls) h
    refine ⟨this.2.2.2.2.2 l ?_, this.1⟩
    intro hmem
    obtain ⟨k, hk⟩ := List.mem_iff_getElem?.mp hmem
    have hklt : k < indices.length := by
      rw [← h1]; exact (List.getElem?_eq_some_iff.mp hk).1
    have hik := List.getElem?_eq_getElem hklt
    have := h2 k _ hik
    rw [hk] at this
    exact hl _ (List.getElem_mem hklt) this.symm
  · have : ∃ i ∈ indices, locs.length ≤ i := by
      apply Classical.byContradiction
      intro hne
      apply hi
      intro i hi'
      apply Classical.byContradiction
      intro hge
      exact hne ⟨i, hi', by omega⟩
    obtain ⟨i, hi', hge⟩ := this
    rw [C26_range indices action locs i hi' hge] at h
    cases n <;> simp [exec] at h

/-- C26: an action is handed references: writing through argument `i` changes the caller's object if the parameter is a
reference, and does not if the parameter is by value. -/
theorem C26_by_reference {mem mem' : List V} {params : List ParamKind} {args locs : List Nat}
    (h : bindArgs mem params args = some (mem', locs)) {i : Nat} (hi : i < params.length) (v : V) (s : CState V)
    (hs : s.mem = mem') :
    ∃ (s' : CState V) (a : Nat), args[i]? = some a ∧
      Runs s (applyArgs [i] (fun ls => match ls with | [l] => .write l v (.done (.ret v)) | _ => .illFormed) locs) s' []
        (.ret v) ∧
      (params[i]? = some .ref → s'.mem[a]? = some v) ∧
      (params[i]? = some .value → ∀ l < mem.length, s'.mem[l]? = mem[l]?) := by
  obtain ⟨h1, h2, h3, ⟨ext, h4⟩, h5, h6, h7⟩ := bindArgs_spec h
  have hil : i < locs.length := by omega
  have hia : i < args.length := by omega
  have hsel : selectArgs [i] locs = some [locs[i]] := by
    simp [selectArgs, List.getElem?_eq_getElem hil]
  have hlen : mem'.length = mem.length + ext.length := by rw [h4]; simp
  have hlt : locs[i] < s.mem.length := by
    rw [hs]
    have hp := List.getElem?_eq_getElem hi
    cases hk : params[i] with
    | ref =>
      rw [hk] at hp
      have := h5 i hp
      rw [List.getElem?_eq_getElem hil, List.getElem?_eq_getElem hia] at this
      simp at this
      have h9 := h3 args[i] (List.getElem_mem hia)
      omega
    | value =>
      rw [hk] at hp
      obtain ⟨l, a, e1, e2, e3, e4, e5⟩ := h6 i hp
      rw [List.getElem?_eq_getElem hil] at e1
      simp at e1
      omega
  refine ⟨{ s with mem := s.mem.set locs[i] v }, args[i], List.getElem?_eq_getElem hia, ⟨2, ?_⟩, ?_, ?_⟩
  · simp [applyArgs, hsel, exec, hlt]
  · intro hp
    have := h5 i hp
    rw [List.getElem?_eq_getElem hil, List.getElem?_eq_getElem hia] at this
    simp only [Option.some.injEq] at this
    simp only
    rw [← this, List.getElem?_set_self hlt]
  · intro hp l hl
    obtain ⟨l', a, e1, e2, e3, e4, e5⟩ := h6 i hp
    rw [List.getElem?_eq_getElem hil] at e1
    simp only [Option.some.injEq] at e1
    simp only
    rw [List.getElem?_set_ne (by omega), hs, h4, List.getElem?_append_left hl]

/-- C26: `finally::returns_arg<i>` yields the value the argument has after the side effects. -/
theorem C26_returns_arg (s : CState V) {locs : List Nat} {i l : Nat} {v : V} (hl : locs[i]? = some l)
    (hv : s.mem[l]? = some v) : Runs s (returnsArg i locs) s [] (.ret v) := by
  refine ⟨2, ?_⟩
  simp [returnsArg, hl, exec, hv]

/-- C26: the same seen by the caller: whatever the side effects did, a call whose finalizer is `finally::returns_arg<i>`
returns the value that argument `i` has after the last side effect. -/
theorem C26_returned {tr : Trace (Snap V)} {s : CState V} (hc : CInv tr s) {m : Nat} {args : List Nat} {noexc : Bool}
    {mem' : List V} {locs : List Nat} {w' : World (Snap V)} {ev : List Event}
    (hr : Resolves s m args noexc mem' locs w' ev) {e : Nat} (he : Event.fullMatch e ∈ ev) {acts : Acts V}
    (ha : s.acts[e]? = some acts) {i l : Nat} (hf : acts.fin = returnsArg i) (hl : locs[i]? = some l)
    {s1 : CState V} {log : List (Obs V)}
    (ho : InOrder e locs 0 acts.effects { s with w := w', mem := mem' } s1 log) (hal : s1.w.isAlive e = true) {v : V}
    (hv : s1.mem[l]? = some v) :
    Calls s m args s1 (.op (.call m ⟨mem', locs⟩) ev :: log ++ [.final e]) (.ret v) := by
  rw [C25_order hc]
  refine ⟨noexc, mem', locs, w', ev, hr, fun _ => ⟨v, rfl⟩, Or.inr ⟨e, acts, s1, log, [], he, ha, ho, hal, ?_, by simp⟩⟩
  rw [hf]
  exact C26_returns_arg s1 hl hv

/-! ## C27 -/

/-- C27: every execution of client code - with calls nested to any depth in side effects and finalizers - is, as far as
the library is concerned, a flat history of operations: the one in the order in which they took place. Hence every
theorem about histories (C01 - C19) holds for nested executions. -/
theorem C27_flat {mem : List V} {c : Code V} {s : CState V} {log : List (Obs V)} {o : Outcome V}
    (h : Runs (CState.init mem) c s log o) : Reach (flat log) s.w := by
  obtain ⟨n, h⟩ := h
  have := (sound n).1 _ c [] (CInv.init mem)
  rw [h] at this
  exact this.reach

/-- C27: in particular the upper limits hold, also while calls are being carried out: at every moment of a nested
execution no expectation has resolved more calls than allowed. -/
theorem C27_limit {mem : List V} {c : Code V} {s : CState V} {log pre post : List (Obs V)} {o : Outcome V}
    (h : Runs (CState.init mem) c s log o) (hl : log = pre ++ post) {e : Nat} {d : Decl (Snap V)}
    (hd : Trace.decl (flat pre) e = some d) : (Trace.matched (flat pre) e : Int) ≤ d.max := by
  have := C27_flat h
  rw [hl, flat_append] at this
  obtain ⟨w, hw⟩ := this.prefix
  exact C02_upper_limit hw hd

/-- C27: the only way to undefined behaviour is to destroy an expectation whose side effects or finalizer are about to
run. -/
theorem C27_ub_cause {mem : List V} {c : Code V} {why : String} (h : Stops (CState.init mem) c (.ub why)) :
    why = "expectation destroyed while it is executing" := by
  obtain ⟨n, h⟩ := h
  have := (sound n).1 _ c [] (CInv.init mem)
  rw [h] at this
  exact this

/-- C27: a program whose side effects and finalizers destroy no expectation has no undefined behaviour, whatever else
they do: calls, new mocks, new expectations, new sequences, destroying sequence objects. -/
theorem C27_no_ub {mem : List V} {c : Code V} (hc : ActionsKeep c) (why : String) :
    ¬ Stops (CState.init mem) c (.ub why) := by
  rintro ⟨n, h⟩
  have := fine_top n (CState.init mem) c [] (CInv.init mem) (by intro a ha; cases ha) hc
  rw [h] at this
  exact this

/-- A mock with one `int&` parameter; its expectation adds one to the argument, then doubles it, then returns it. -/
def addThenDouble : Code Nat :=
  .newMock false [.ref] (.expect 0 1 1 [] []
    [applyArgs [0] (fun ls => match ls with | [l] => .read l (fun v => .write l (v + 1) (.done (.ret 0))) | _ => .illFormed),
     applyAll (fun ls => match ls with | [l] => .read l (fun v => .write l (2 * v) (.done (.ret 0))) | _ => .illFormed)]
    (returnsArg 0) (.call 0 [0] (fun o => .done o)))

/-- What can be shown of a result. -/
def shown {A : Type} (r : Res V A) : Option (List V × List (List Event) × A) :=
  match r with
  | some (.ok (s, log, o)) => some (s.mem, (flat log).map (·.2), o)
  | _ => none

def stopped {A : Type} (r : Res V A) : Option Stop :=
  match r with
  | some (.error x) => some x
  | _ => none

example : shown (exec 20 (CState.init [5]) addThenDouble) =
    some ([12], [[.mockCreated 0], [.created 0], [.fullMatch 0]], .ret 12) := by decide

/-- A side effect that calls the same mock once more: the outer match is already counted, so that the limit of one call
holds and the older expectation resolves the nested call. -/
def recursive : Code Nat :=
  .newMock false [] (.expect 0 1 1 [] [] [] (returnsValue 7)
    (.expect 0 1 1 [] [] [invokeAction (.call 0 [] (fun o => .done o))] (returnsValue 8)
      (.call 0 [] (fun o => .destroy 0 (.destroy 1 (.done o))))))

example : shown (exec 20 (CState.init []) recursive) =
    some ([], [[.mockCreated 0], [.created 0], [.created 1], [.fullMatch 1], [.fullMatch 0], [.destroyed 0],
      [.destroyed 1]], .ret 8) := by decide

example : ActionsKeep recursive :=
  .newMock (.expect (by simp) (fun _ => .done) (.expect (fun c hc => by
    simp only [List.mem_singleton] at hc
    subst hc
    exact fun _ => .call (fun _ => .done)) (fun _ => .done) (.call (fun _ => .destroy (.destroy .done)))))

/-- C27 has an exception: a side effect that destroys the expectation it belongs to, e.g. by resetting an
`std::optional<ScopedExpectation>`, leads to undefined behaviour, as the expectation's finalizer is used afterwards
(Expectation.hpp 303-340: `handle_call` only holds a reference, the collection and the `ScopedExpectation` hold the `shared_ptr`s). -/
theorem C27_self_destruction :
    Stops (CState.init ([] : List Nat)) (.newMock false [] (.expect 0 0 1 [] []
      [invokeAction (.destroy 0 (.done (.ret 0)))] (returnsValue 7) (.call 0 [] (fun o => .done o))))
      (.ub "expectation destroyed while it is executing") := ⟨20, by rfl⟩

/-! ## C28 -/

/-- C28: an exception that leaves a side effect ends in `std::terminate`, whatever its origin, e.g. a nested call that
no expectation resolves, and whether or not the signature is `noexcept`. -/
theorem C28_side_effect {tr : Trace (Snap V)} {s : CState V} (hc : CInv tr s) {m : Nat} {args : List Nat} {noexc : Bool}
    {mem' : List V} {locs : List Nat} {w' : World (Snap V)} {ev : List Event}
    (hr : Resolves s m args noexc mem' locs w' ev) {e : Nat} (he : Event.fullMatch e ∈ ev) {acts : Acts V}
    (ha : s.acts[e]? = some acts) {pre post : List (List Nat → Code V)} {c : List Nat → Code V}
    (hacts : acts.effects = pre ++ c :: post) {s1 s2 : CState V} {log log' : List (Obs V)} {x : Exc}
    (ho : InOrder e locs 0 pre { s with w := w', mem := mem' } s1 log) (hal : s1.w.isAlive e = true)
    (hx : Runs s1 (c locs) s2 log' (.exc x)) :
    CallStops s m args (.terminate "exception leaves a side effect") := by
  obtain ⟨n, h⟩ := runEffects_throw (post := post) ho hal hx
  refine ⟨n + 1, ?_⟩
  rw [invoke_resolved hc hr he ha, hacts, h]
  rfl

/-- C28: an exception that leaves the finalizer reaches the caller; the match is counted nevertheless. If the signature
is `noexcept`, it ends in `std::terminate`. -/
theorem C28_finalizer {tr : Trace (Snap V)} {s : CState V} (hc : CInv tr s) {m : Nat} {args : List Nat} {noexc : Bool}
    {mem' : List V} {locs : List Nat} {w' : World (Snap V)} {ev : List Event}
    (hr : Resolves s m args noexc mem' locs w' ev) {e : Nat} (he : Event.fullMatch e ∈ ev) {acts : Acts V}
    (ha : s.acts[e]? = some acts) {s1 s2 : CState V} {log log' : List (Obs V)} {x : Exc}
    (ho : InOrder e locs 0 acts.effects { s with w := w', mem := mem' } s1 log) (hal : s1.w.isAlive e = true)
    (hx : Runs s1 (acts.fin locs) s2 log' (.exc x)) :
    (noexc = false → Calls s m args s2 (.op (.call m ⟨mem', locs⟩) ev :: log ++ .final e :: log') (.exc x)) ∧
    (noexc = true → CallStops s m args (.terminate "exception leaves a noexcept mock")) := by
  constructor
  · intro hn
    rw [C25_order hc]
    exact ⟨noexc, mem', locs, w', ev, hr, by simp [hn], Or.inr ⟨e, acts, s1, log, log', he, ha, ho, hal, hx, rfl⟩⟩
  · intro hn
    obtain ⟨n1, h1⟩ := runEffects_of ho
    obtain ⟨n2, h2⟩ := hx
    refine ⟨max n1 n2 + 1, ?_⟩
    rw [invoke_resolved hc hr he ha, runEffects_mono (Nat.le_max_left n1 n2) _ _ _ _ _ _ h1]
    simp only [Res.andThen, if_pos hal, exec_mono (Nat.le_max_right n1 n2) _ _ _ h2, Res.log]
    rw [hn]
    rfl

/-- C28: the exception of the reporter for a call that no expectation resolves reaches the caller: the one for an
inapplicable match if the call was reported as such, the one for a missing match otherwise. If the signature is
`noexcept`, it ends in `std::terminate`. -/
theorem C28_unresolved {tr : Trace (Snap V)} {s : CState V} (hc : CInv tr s) {m : Nat} {args : List Nat} {noexc : Bool}
    {mem' : List V} {locs : List Nat} {w' : World (Snap V)} {ev : List Event}
    (hr : Resolves s m args noexc mem' locs w' ev) (he : ∀ e, Event.fullMatch e ∉ ev) :
    (noexc = false → ∃ x, Calls s m args { s with w := w', mem := mem' } [.op (.call m ⟨mem', locs⟩) ev] (.exc x) ∧
      ((x = .inapplicable ∧ ∃ es, Event.inapplicable es ∈ ev) ∨ (x = .noMatch ∧ ∃ es, Event.noMatch es ∈ ev))) ∧
    (noexc = true → CallStops s m args (.terminate "exception leaves a noexcept mock")) := by
  constructor
  · rintro rfl
    refine ⟨unresolvedExc ev, ⟨1, by rw [invoke_unresolved hc hr he]; rfl⟩, ?_⟩
    obtain ⟨us, last, hev, _, hlast⟩ := C10_outcome hc.reach hr.step
    subst hev
    unfold unresolvedExc
    rcases hlast with ⟨e, _, rfl⟩ | ⟨_, _, es, rfl, _⟩ | ⟨_, es, rfl, _⟩
    · exact absurd (by simp) (he e)
    · exact Or.inl ⟨by simp, es, by simp⟩
    · exact Or.inr ⟨by simp, es, by simp⟩
  · rintro rfl
    exact ⟨1, by rw [invoke_unresolved hc hr he]; rfl⟩

/-- C28: a call of a `noexcept` mock never ends with an exception for its caller. -/
theorem C28_noexcept {tr : Trace (Snap V)} {s s' : CState V} (hc : CInv tr s) {m : Nat} {args : List Nat}
    {params : List ParamKind} (hm : s.mocks[m]? = some (true, params)) {log : List (Obs V)} {o : Outcome V}
    (h : Calls s m args s' log o) : ∃ v, o = .ret v := by
  obtain ⟨noexc, mem', locs, w', ev, hr, hn, _⟩ := (C25_order hc).mp h
  obtain ⟨⟨ps, h1, _⟩, _⟩ := hr
  rw [hm] at h1
  simp only [Option.some.injEq, Prod.mk.injEq] at h1
  exact hn h1.1.symm

/-- A call without an expectation, and a call to a saturated one: the two exceptions. -/
example : shown (exec 20 (CState.init ([] : List Nat)) (.newMock false [] (.call 0 [] (fun o => .done o)))) =
    some ([], [[.mockCreated 0], [.noMatch []]], .exc .noMatch) ∧
    shown (exec 20 (CState.init ([] : List Nat)) (.newMock false [] (.expect 0 0 0 [] [] [] (returnsValue 3)
      (.call 0 [] (fun o => .done o))))) =
    some ([], [[.mockCreated 0], [.created 0], [.inapplicable [0]]], .exc .inapplicable) := by decide

/-- Finalizer throws: the caller can catch it, and the match is counted. -/
example : shown (exec 20 (CState.init ([] : List Nat)) (.newMock false [] (.expect 0 1 1 [] [] [] (throwsExc 3)
    (.call 0 [] (fun o => .destroy 0 (.done o)))))) =
    some ([], [[.mockCreated 0], [.created 0], [.fullMatch 0], [.destroyed 0]], .exc (.user 3)) := by decide

/-- The same with a `noexcept` signature. -/
example : stopped (exec 20 (CState.init ([] : List Nat)) (.newMock true [] (.expect 0 1 1 [] [] [] (throwsExc 3)
    (.call 0 [] (fun o => .destroy 0 (.done o)))))) = some (.terminate "exception leaves a noexcept mock") := by decide

/-- A side effect makes a call that nothing resolves. -/
example : stopped (exec 20 (CState.init ([] : List Nat)) (.newMock false [] (.newMock false [] (.expect 0 1 1 [] []
    [invokeAction (.call 1 [] (fun o => .done o))] (returnsValue 3) (.call 0 [] (fun o => .done o)))))) =
    some (.terminate "exception leaves a side effect") := by decide

end Mimic
