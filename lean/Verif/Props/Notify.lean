import Verif.Proofs.NotifyRuns
import Verif.Props.Safety

/-!
# C104: reporters that call mocks, together with printers, side effects and finalizers that do so
-/

set_option autoImplicit false

namespace Mimic.Notify

open Mimic.Display (Show tooDeep)

variable {α : Type} {hooks : Hooks α}

/-- C104: as long as the reporter and the printers only call mocks of lower layers than that which they are told of, or print arguments of,
side effects and finalizers do not call mocks of higher layers, and sequences do not connect layers, the library behaves as if all calls
were made by the test one after the other: what happens is a history in the sense of `Reach`, so that all theorems about those apply to it.
The full claim, for all reporters, is false: see `C104_relock`, `C104_relock_end`, `C104_exceeded`, `C104_stale` and `C104_endless`. -/
theorem C104_flat_partial {rank srank : Nat → Nat} (hl : Layered rank srank hooks) {nh : NTrace α} {w : World α} (h : NReach hooks nh w)
    (hs : nh.layered rank srank) : Reach nh.flat w := (reach_good hl h hs).reach

/-- C104: then each operation of the test is preceded by the calls that are made for its reports, in the order of the reports, and followed
by those that its side effects and its finalizer make; and so on for the calls themselves. -/
theorem C104_explained {rank srank : Nat → Nat} (hl : Layered rank srank hooks) {pre post : NTrace α} {w : World α} {op : Op α}
    {tr : Trace α} (h : NReach hooks (pre ++ (op, tr) :: post) w) (hs : NTrace.layered rank srank (pre ++ (op, tr) :: post)) :
    ∃ calls ev after, tr = calls ++ [(op, ev)] ++ after ∧ (∀ p ∈ calls ++ after, ∃ m a, p.1 = .call m a) ∧
      Reacts hooks (mockOf pre.flat) op ev calls ∧ Follows hooks op ev after := by
  obtain ⟨w₀, w₁, fuel, h0, h1⟩ := h.split
  have g := reach_good hl h0 (fun m min max tags pols tr hm => hs m min max tags pols tr (by simp [hm]))
  obtain ⟨calls, ev, after, k1, k2, k3, k4, k5⟩ := (step_ok hl g h1 (fun m min max tags pols ho => by
    subst ho
    exact hs m min max tags pols tr (by simp))).2
  exact ⟨calls, ev, after, k1, k2.append k3, k4, k5⟩

/-- C104: then no assertion fails and nothing undefined happens. -/
theorem C104_defined {rank srank : Nat → Nat} (hl : Layered rank srank hooks) {nh : NTrace α} {w : World α} (h : NReach hooks nh w)
    (hs : nh.layered rank srank) (op : Op α) (fuel : Nat) (why : String) : step hooks fuel w op ≠ .error (.ub why) := by
  have g := reach_good hl h hs
  have key : ∀ p : Op α, w.step p ≠ .error (.ub why) := fun p => C17_no_ub g.reach p why
  intro hp
  cases op with
  | call m a =>
    simp only [step] at hp
    split at hp
    · rename_i hc
      simp only [Except.error.injEq] at hp
      subst hp
      obtain ⟨⟨y, hy⟩, _⟩ := (call_ok (srank := srank) hl 0 fuel [] (rank m + 1) (by simp) nh.flat w m a g (Nat.lt_succ_self _)).1 _ hc
      simp at hy
    · simp at hp
  | destroy e =>
    obtain ⟨⟨y, hy⟩, _⟩ := (destroy_ok hl 0 fuel g e).1 _ hp
    simp at hy
  | dropSequence s =>
    obtain ⟨⟨y, hy⟩, _⟩ := (drop_ok hl 0 fuel g s).1 _ hp
    simp at hy
  | _ =>
    simp only [step] at hp
    split at hp
    · rename_i hw
      simp only [Except.error.injEq] at hp
      subst hp
      exact key _ hw
    · simp at hp

/-- C104: side effects and finalizers may call whatever they like, if printers and the reporter make no calls. -/
theorem C104_effects (hp : ∀ m a, hooks.shows m a = .done) (ht : ∀ x ev, hooks.tells x ev = .done) {nh : NTrace α} {w : World α}
    (h : NReach hooks nh w) : Reach nh.flat w ∧ ∀ op fuel why, step hooks fuel w op ≠ .error (.ub why) := by
  have hl : Layered (fun _ => 0) (fun _ => 0) hooks :=
    ⟨fun m a => hp m a ▸ .done, fun x ev => ht x ev ▸ .done, fun m e a => anywhere _⟩
  have hs : nh.layered (fun _ => 0) (fun _ => 0) := fun _ _ _ _ _ _ _ _ _ => rfl
  exact ⟨C104_flat_partial hl h hs, fun op fuel why => C104_defined hl h hs op fuel why⟩

/-- C104: then every operation that would otherwise be carried out comes to an end, if only mocks are called that exist, and side effects and
finalizers only call mocks of lower layers, too. -/
theorem C104_returns {rank srank : Nat → Nat} (hl : Layered rank srank hooks) {nh : NTrace α} {w : World α} (h : NReach hooks nh w)
    (hs : nh.layered rank srank) (hp : ∀ m a, (hooks.shows m a).Only (fun k => Event.mockCreated k ∈ nh.flat.events))
    (ht : ∀ x ev, (hooks.tells x ev).Only (fun k => Event.mockCreated k ∈ nh.flat.events))
    (ha : ∀ m e a, (hooks.acts m e a).Only (fun k => Event.mockCreated k ∈ nh.flat.events) ∧ (hooks.acts m e a).Below rank (rank m)) {op : Op α}
    (hv : nh.flat.valid op) (ho : ¬ nh.flat.overflows op) : ∃ fuel w' tr, step hooks fuel w op = .ok (w', tr) := by
  have g := reach_good hl h hs
  have mocks := g.reach.view.2.mocks
  have hP : (fun k => Event.mockCreated k ∈ nh.flat.events) = (· < w.colls.length) := by
    funext k
    exact propext (mocks k)
  have hc : Closed rank hooks w.colls.length := by
    rw [hP] at hp ht ha
    refine ⟨fun x ev => ?_, fun m a r => ?_, fun m a r => ?_⟩
    · cases x with
      | call m a => exact andThen_only (hp m a) (ht (.call m a) ev)
      | expectation m => exact ht (.expectation m) ev
      | sequence s => exact ht (.sequence s) ev
    · cases r with
      | none => exact .done
      | some e => exact (ha m e a).1
    · cases r with
      | none => exact .done
      | some e => exact (ha m e a).2
  have key : ∃ w' ev, w.step op = .ok (w', ev) := (C17_progress g.reach op).1 hv ho
  cases op with
  | call m a =>
    refine ⟨rank m + 1, ?_⟩
    simp only [step]
    split
    · rename_i x hx
      exact absurd ⟨hc, rfl, (mocks m).mp hv, Nat.le_refl _⟩
        ((call_ok (srank := srank) hl w.colls.length (rank m + 1) [] (rank m + 1) (by simp) nh.flat w m a g (Nat.lt_succ_self _)).1 _ hx).2
    · exact ⟨_, _, rfl⟩
  | destroy e =>
    obtain ⟨w', ev, hw⟩ := key
    have hx : ∃ x, w.exps[e]? = some x ∧ x.alive = true := by
      simp only [World.step, World.destroyExp] at hw
      cases hx : w.exps[e]? with
      | none => simp [hx] at hw
      | some x =>
        refine ⟨x, rfl, ?_⟩
        cases ha : x.alive with
        | true => rfl
        | false => simp [hx, ha] at hw
    obtain ⟨x, hx, ha⟩ := hx
    refine ⟨rank x.coll, ?_⟩
    simp only [step]
    cases hd : destroy hooks (rank x.coll) w e with
    | error y => exact absurd ⟨hc, rfl, x, hx, ha, Nat.le_refl _⟩ ((destroy_ok hl w.colls.length (rank x.coll) g e).1 _ hd).2
    | ok u => exact ⟨_, _, rfl⟩
  | dropSequence s =>
    obtain ⟨w', ev, hw⟩ := key
    have hx : w.hasHandle s = true := by
      simp only [World.step] at hw
      cases hx : w.hasHandle s with
      | true => rfl
      | false => simp [hx] at hw
    refine ⟨srank s, ?_⟩
    simp only [step]
    cases hd : drop hooks (srank s) w s with
    | error y => exact absurd ⟨hc, rfl, hx, Nat.le_refl _⟩ ((drop_ok hl w.colls.length (srank s) g s).1 _ hd).2
    | ok u => exact ⟨_, _, rfl⟩
  | _ =>
    obtain ⟨w', ev, hw⟩ := key
    simp only [step, hw]
    exact ⟨0, _, _, rfl⟩

/-- C104: whatever the reporter does, the bound on the depth in the model makes no difference for what is reached: with a larger bound
everything happens in the same way. -/
theorem C104_bound (fuel k : Nat) (w : World α) (op : Op α) (h : step hooks fuel w op ≠ .error tooDeep) :
    step hooks (fuel + k) w op = step hooks fuel w op := step_extends hooks fuel k w op h

/-- C104: if neither the printers nor the reporter nor side effects nor finalizers make calls, all operations are ordinary ones. -/
theorem C104_plain (hp : ∀ m a, hooks.shows m a = .done) (ht : ∀ x ev, hooks.tells x ev = .done) (ha : ∀ m e a, hooks.acts m e a = .done)
    {w : World α} (fuel : Nat) (op : Op α) (w' : World α) (tr : Trace α) :
    step hooks (fuel + 1) w op = .ok (w', tr) ↔ ∃ ev, w.step op = .ok (w', ev) ∧ tr = [(op, ev)] := by
  have hs : ∀ x ev, hooks x ev = .done := by
    intro x ev
    cases x with
    | call m a => simp only [Hooks.report, hp, andThen, ht]
    | _ => simp only [Hooks.report, ht]
  cases op with
  | call m a =>
    have he : ∀ r, hooks.effects m a r = .done := fun r => by cases r <;> simp [Hooks.effects, ha]
    simp only [step, call_done (fun ev => hs (.call m a) ev) he fuel [] (by simp), World.step, bind, Except.bind, pure, Except.pure]
    cases w.handleCall m a with
    | error x => simp
    | ok v =>
      obtain ⟨w₁, ev, r⟩ := v
      simp only [Except.ok.injEq, Prod.mk.injEq]
      constructor
      · rintro ⟨rfl, rfl⟩
        exact ⟨ev, ⟨rfl, rfl⟩, rfl⟩
      · rintro ⟨ev', ⟨rfl, rfl⟩, rfl⟩
        exact ⟨rfl, rfl⟩
  | destroy e =>
    simp only [step, destroy, World.step, World.destroyExp, remove, hs, Display.print, bind, Except.bind, pure, Except.pure]
    cases w.exps[e]? with
    | none => simp
    | some x =>
      simp only
      cases x.alive with
      | false => simp
      | true =>
        simp only [Bool.not_true, Bool.false_eq_true, if_false]
        cases w.colls[x.coll]? with
        | none => simp
        | some es =>
          simp only [check]
          cases es.contains e with
          | false => simp
          | true =>
            simp only [if_true]
            cases x.isSatisfied <;>
            · simp only [if_true, Bool.false_eq_true, if_false, releaseAll_done (fun s ev => hs _ ev)]
              cases World.releaseAll _ _ with
              | error y => simp [Except.map]
              | ok u =>
                simp only [Except.map, Except.ok.injEq, Prod.mk.injEq]
                constructor
                · rintro ⟨rfl, rfl⟩
                  exact ⟨_, ⟨rfl, rfl⟩, rfl⟩
                · rintro ⟨ev', ⟨rfl, rfl⟩, rfl⟩
                  exact ⟨rfl, rfl⟩
  | dropSequence s =>
    simp only [step, drop, World.step, release_done (fun s ev => hs _ ev)]
    cases w.hasHandle s with
    | false => simp
    | true =>
      simp only [if_true]
      cases World.release _ s with
      | error y => simp [Except.map]
      | ok u =>
        simp only [Except.map, Except.ok.injEq, Prod.mk.injEq]
        constructor
        · rintro ⟨rfl, rfl⟩
          exact ⟨_, rfl, rfl⟩
        · rintro ⟨ev', rfl, rfl⟩
          exact ⟨rfl, rfl⟩
  | _ =>
    simp only [step]
    cases World.step w _ with
    | error y => simp
    | ok u =>
      simp only [Except.ok.injEq, Prod.mk.injEq]
      constructor
      · rintro ⟨rfl, rfl⟩
        exact ⟨_, rfl, rfl⟩
      · rintro ⟨ev', rfl, rfl⟩
        exact ⟨rfl, rfl⟩

/-- C104: if only printers make calls, calls are those of C98. -/
theorem C104_prints (ht : ∀ x ev, hooks.tells x ev = .done) (ha : ∀ m e a, hooks.acts m e a = .done) (fuel : Nat) (w : World α) (m : Nat)
    (a : α) : step hooks fuel w (.call m a) = Display.step hooks.shows fuel w (.call m a) := by
  simp only [step, Display.step, call_prints ht ha]
  rfl

/-- C104: if a matcher of a living expectation of the mock throws for a call, and printing its arguments for the report and handling it begins with
calling the same mock, then the call never returns. -/
theorem C104_relock {tr : Trace α} {w : World α} (h : Reach tr w) {m e : Nat} {a : α} {d : Decl α} (hl : tr.live e)
    (hd : tr.decl e = some d) (hm : d.mock = m) (hp : ∃ p ∈ d.policies, p.accepts a = none)
    (hs : ∀ e, ∃ a' next, hooks.report (.call m a) (.unhandled e) = .call m a' next) (fuel : Nat) :
    ¬ ∃ v, step hooks fuel w (.call m a) = .ok v := by
  rintro ⟨⟨w', tr'⟩, hv⟩
  obtain ⟨r, hr⟩ := step_call hv
  cases fuel with
  | zero => simp [call] at hr
  | succ fuel =>
    obtain ⟨es, u, _, _, _, hes, hsc, _⟩ := call_tells hr
    have hb := scan_blocked (fun e w v => by
      obtain ⟨a', next, h1⟩ := hs e
      simp only [h1]
      exact print_held w v) hsc
    have hv := h.view
    have hc : es.reverse = ((abs w).candidates m).map (·.id) := by
      rw [hv.1.colls m es hes]
      simp [Spec.State.candidates, List.map_reverse]
    obtain ⟨y, hy, rfl⟩ := (hv.2.candidates_iff m e).mp ⟨hl, d, hd, hm⟩
    have he : y.id ∈ es.reverse := by
      rw [hc]
      exact List.mem_map.mpr ⟨y, hy, rfl⟩
    obtain ⟨h1, h2, h3⟩ := candidates_mem.mp hy
    obtain ⟨x, hx, hxy⟩ := (abs_mem_iff _ _).mp h1
    have hxa : x.alive = true := by rw [hxy] at h2; exact h2
    have hder : w.deref y.id = .ok x := by simp [World.deref, hx, hxa]
    refine hb y.id he x hder ?_
    obtain ⟨d', hd', hxd⟩ := hv.2.get h1
    rw [hd] at hd'
    simp only [Option.some.injEq] at hd'
    subst hd'
    have hpol : x.policies = d.policies := by
      have h5 : y.policies = x.policies := by rw [hxy]; rfl
      have h6 : y.policies = d.policies := congrArg Spec.Exp.policies hxd
      rw [← h5, h6]
    have hev : evalPolicies a x.policies = none := by
      obtain ⟨p, hp1, hp2⟩ := hp
      rw [evalPolicies_eq, hpol]
      have : d.policies.any (fun p => p.accepts a == none) = true := List.any_eq_true.mpr ⟨p, hp1, by rw [hp2]; rfl⟩
      rw [if_pos this]
    obtain ⟨st, hst, _⟩ := hv.1.state hx hxa
    simp only [Exp.matchReport, hst, hev, bind, Except.bind, pure, Except.pure]

/-- C104: if the end of an expectation would be reported as unfulfilled, and the reporter begins to handle that report with calling the
mock of the expectation, then a mutex is locked twice by one thread, which is undefined behaviour. -/
theorem C104_relock_end {tr : Trace α} {w : World α} (h : Reach tr w) {e : Nat} {d : Decl α} (hd : tr.decl e = some d)
    {w' : World α} {ev : List Event} (hw : w.step (.destroy e) = .ok (w', ev)) (hu : Event.unfulfilled e ∈ ev) {a : α}
    {next : Option Nat → Show α} (hs : hooks.tells (.expectation d.mock) (.unfulfilled e) = .call d.mock a next) (fuel : Nat) :
    step hooks (fuel + 1) w (.destroy e) = .error (.ub "a std::mutex is locked twice by one thread") := by
  have hx : ∃ x, w.exps[e]? = some x ∧ x.alive = true := by
    have hw := hw
    simp only [World.step, World.destroyExp] at hw
    cases hx : w.exps[e]? with
    | none => simp [hx] at hw
    | some x =>
      refine ⟨x, rfl, ?_⟩
      cases ha : x.alive with
      | true => rfl
      | false => simp [hx, ha] at hw
  obtain ⟨x, hx, ha⟩ := hx
  obtain ⟨d', hd', hxd⟩ := h.view.2.get (abs_mem hx)
  have hde : tr.decl e = some d' := hd'
  rw [hd] at hde
  simp only [Option.some.injEq] at hde
  subst hde
  have hxm : x.coll = d.mock := congrArg Spec.Exp.mock hxd
  obtain ⟨es, T, ev', hes, hc, hf⟩ := destroy_parts hx ha hw
  have heq := destroy_eq hx ha hes hc hf
  rw [hw] at heq
  simp only [Except.ok.injEq, Prod.mk.injEq] at heq
  have hsat : x.isSatisfied = false := by
    cases hsat : x.isSatisfied with
    | false => rfl
    | true =>
      exfalso
      rw [heq.2, hsat] at hu
      simp only [if_true, List.cons_append, List.nil_append, List.mem_cons, reduceCtorEq, false_or] at hu
      exact fate_quiet hf hu
  rw [← hxm] at hs
  simp only [step, destroy, hx, ha, Bool.not_true, Bool.false_eq_true, if_false, remove, hes, hc, if_true, hsat, Hooks.report, hs, Display.print, call,
    body, List.getElem?_set, getElem?_lt hes, List.contains_cons, beq_self_eq_true, Bool.true_or]

/-- C104: if what happens when a certain call is reported always begins with another such call of the same mock, then no such
call ever returns, however deeply calls may be nested. -/
theorem C104_endless {S : α → Prop} {m : Nat} (hS : ∀ a, S a → ∀ ev, ∃ a' next, hooks.report (.call m a) ev = .call m a' next ∧ S a') (fuel : Nat)
    (w : World α) (a : α) (ha : S a) : ¬ ∃ v, step hooks fuel w (.call m a) = .ok v := by
  rintro ⟨⟨w', tr⟩, hv⟩
  obtain ⟨r, hr⟩ := step_call hv
  exact call_endless hS fuel [] w a ha _ hr

/-! ## Examples -/

/-- Runs a program and records the history. -/
def record (hooks : Hooks α) (w : World α) : List (Op α) → M (World α × NTrace α)
  | [] => .ok (w, [])
  | op :: ops =>
    match step hooks 9 w op with
    | .error x => .error x
    | .ok (w', tr) =>
      match record hooks w' ops with
      | .error x => .error x
      | .ok (w'', nh) => .ok (w'', (op, tr) :: nh)

theorem record_nreach (ops : List (Op α)) : ∀ {nh nh' : NTrace α} {w w' : World α}, NReach hooks nh w →
    record hooks w ops = .ok (w', nh') → NReach hooks (nh ++ nh') w' := by
  induction ops with
  | nil =>
    intro nh nh' w w' h hr
    simp only [record, Except.ok.injEq, Prod.mk.injEq] at hr
    obtain ⟨rfl, rfl⟩ := hr
    simpa using h
  | cons op ops ih =>
    intro nh nh' w w' h hr
    simp only [record] at hr
    split at hr
    · simp at hr
    · rename_i hs
      split at hr
      · simp at hr
      · rename_i hk
        simp only [Except.ok.injEq, Prod.mk.injEq] at hr
        obtain ⟨rfl, rfl⟩ := hr
        have := ih (h.step hs) hk
        simpa using this

/-- The world and the history a program ends with (the fresh world if it does not survive). -/
def final (hooks : Hooks α) (ops : List (Op α)) : World α × NTrace α :=
  match record hooks World.init ops with
  | .ok r => r
  | .error _ => (World.init, [])

theorem nreach_final (hooks : Hooks α) (ops : List (Op α)) : NReach hooks (final hooks ops).2 (final hooks ops).1 := by
  unfold final
  cases h : record hooks World.init ops with
  | error x => exact .init
  | ok r =>
    have := record_nreach ops .init h
    simpa using this

theorem record_ops (ops : List (Op α)) : ∀ {w w' : World α} {nh : NTrace α}, record hooks w ops = .ok (w', nh) → nh.map (·.1) = ops := by
  induction ops with
  | nil =>
    intro w w' nh hr
    simp only [record, Except.ok.injEq, Prod.mk.injEq] at hr
    rw [← hr.2]
    rfl
  | cons op ops ih =>
    intro w w' nh hr
    simp only [record] at hr
    split at hr
    · simp at hr
    · split at hr
      · simp at hr
      · rename_i hk
        simp only [Except.ok.injEq, Prod.mk.injEq] at hr
        rw [← hr.2, List.map_cons, ih hk]

theorem final_ops {ops : List (Op α)} {op : Op α} {tr : Trace α} (h : (op, tr) ∈ (final hooks ops).2) : op ∈ ops := by
  unfold final at h
  cases hr : record hooks World.init ops with
  | error x => simp [hr] at h
  | ok r =>
    simp only [hr] at h
    rw [← record_ops ops hr]
    exact List.mem_map.mpr ⟨_, h, rfl⟩

/-- The number under which a report is logged. -/
def code : Event → Nat
  | .fullMatch _ => 1
  | .unhandled _ => 2
  | .unfulfilled _ => 3
  | .sequenceError _ _ _ => 4
  | _ => 5

/-- Mock 0 is a logger, which the reporter hands all reports to that are about mock 1 or sequences. -/
def logged : About Nat → Event → Show Nat
  | .call 1 _, ev => .call 0 (code ev) fun _ => .done
  | .expectation 1, ev => .call 0 (code ev) fun _ => .done
  | .sequence _, ev => .call 0 (code ev) fun _ => .done
  | _, _ => .done

/-- In addition, the arguments of mock 1 have a printer that calls mock 2, and expectation 5 has a side effect that calls mock 1 again. -/
def logging : Hooks Nat where
  shows := fun m _ => if m = 1 then .call 2 0 fun _ => .done else .done
  tells := logged
  acts := fun m e a => if m = 1 ∧ e = 5 ∧ a = 5 then .call 1 6 fun _ => .done else .done

/-- Nobody makes calls. -/
def silent : Hooks Nat where
  shows := fun _ _ => .done
  tells := fun _ _ => .done
  acts := fun _ _ _ => .done

/-- Mock 1 is above the others. -/
def layer (m : Nat) : Nat := if m = 1 then 1 else 0

theorem logging_layered : Layered layer (fun _ => 1) logging := by
  refine ⟨fun m a => ?_, fun x ev => ?_, fun m e a => ?_⟩
  · simp only [logging]
    split
    · rename_i h
      exact .call (by simp [layer, h]) fun _ => .done
    · exact .done
  · simp only [logging, logged]
    split
    · exact .call (by simp [About.layer, layer]) fun _ => .done
    · exact .call (by simp [About.layer, layer]) fun _ => .done
    · exact .call (by simp [About.layer, layer]) fun _ => .done
    · exact .done
  · simp only [logging]
    split
    · rename_i h
      exact .call (by simp [layer, h.1]) fun _ => .done
    · exact .done

/-- Accepts `x`, throws for 9. -/
def picky (x : Nat) : Policy Nat := { accepts := fun a => if a = 9 then none else some (a == x) }

/-- Exactly the logger calls for `n`. -/
def eq (n : Nat) : Policy Nat := { accepts := fun a => some (a == n) }

/-- Three matches, an exception, an unfulfilled expectation and an error of a sequence are expected to be logged. -/
def logDemo : List (Op Nat) :=
  [.newSequence .lazy, .newMock, .newMock, .newMock, .expect 0 3 3 [] [eq 1], .expect 0 1 1 [] [eq 2], .expect 0 1 1 [] [eq 3],
    .expect 0 1 1 [] [eq 4], .expect 2 4 4 [] [], .expect 1 1 2 [0] [picky 5], .expect 1 3 4 [0] [], .call 1 5, .call 1 9, .dropSequence 0,
    .destroy 5, .destroy 6, .destroy 0, .destroy 1, .destroy 2, .destroy 3, .destroy 4]

theorem logDemo_layered : NTrace.layered layer (fun _ => 1) (final logging logDemo).2 := by
  intro m min max tags pols tr hst q hq
  have hm := final_ops hst
  simp only [logDemo, List.mem_cons, List.not_mem_nil, or_false, reduceCtorEq, false_or, Op.expect.injEq] at hm
  rcases hm with ⟨_, _, _, rfl, _⟩ | ⟨_, _, _, rfl, _⟩ | ⟨_, _, _, rfl, _⟩ | ⟨_, _, _, rfl, _⟩ | ⟨_, _, _, rfl, _⟩ | ⟨rfl, _⟩ | ⟨rfl, _⟩
  · simp at hq
  · simp at hq
  · simp at hq
  · simp at hq
  · simp at hq
  · rfl
  · rfl

/-- C104: such a reporter can be tested with a mocked logger: all its expectations are fulfilled, while they are not if the reporter does
not use it. -/
theorem C104_observed :
    (final logging logDemo).2.flat.events =
      [.sequenceCreated 0 .lazy, .mockCreated 0, .mockCreated 1, .mockCreated 2, .created 0, .created 1, .created 2, .created 3, .created 4,
        .created 5, .created 6, .fullMatch 4, .fullMatch 0, .fullMatch 5, .fullMatch 4, .fullMatch 0, .fullMatch 6, .fullMatch 4,
        .fullMatch 1, .fullMatch 4, .fullMatch 0, .unhandled 5, .fullMatch 6, .destroyed 5, .fullMatch 2, .fullMatch 3, .destroyed 6,
        .unfulfilled 6, .sequenceError 0 1 2, .sequenceDestroyed 0, .destroyed 0, .destroyed 1, .destroyed 2, .destroyed 3,
        .destroyed 4] ∧
    (final silent logDemo).2.flat.events =
      [.sequenceCreated 0 .lazy, .mockCreated 0, .mockCreated 1, .mockCreated 2, .created 0, .created 1, .created 2, .created 3, .created 4,
        .created 5, .created 6, .fullMatch 5, .unhandled 5, .fullMatch 6, .destroyed 5, .destroyed 6, .unfulfilled 6,
        .sequenceError 0 1 2, .sequenceDestroyed 0, .destroyed 0, .unfulfilled 0, .destroyed 1, .unfulfilled 1, .destroyed 2,
        .unfulfilled 2, .destroyed 3, .unfulfilled 3, .destroyed 4, .unfulfilled 4] :=
  ⟨by decide +kernel, by decide +kernel⟩

example : Reach (final logging logDemo).2.flat (final logging logDemo).1 :=
  C104_flat_partial logging_layered (nreach_final _ _) logDemo_layered

/-- Operations to which `C104_explained` applies: the first call of mock 1 is printed and logged, and its side effect calls mock 1 again; at
the end of the last expectation of mock 1 two reports are logged. -/
example : ((final logging logDemo).2[11]?.map fun x => x.2.map (·.2)) =
      some [[.fullMatch 4], [.fullMatch 0], [.fullMatch 5], [.fullMatch 4], [.fullMatch 0], [.fullMatch 6]] ∧
    ((final logging logDemo).2[15]?.map fun x => x.2.map (·.2)) =
      some [[.fullMatch 2], [.fullMatch 3], [.destroyed 6, .unfulfilled 6, .sequenceError 0 1 2, .sequenceDestroyed 0]] :=
  ⟨by decide +kernel, by decide +kernel⟩

/-- The same without the side effect. -/
def passive : Hooks Nat := { logging with acts := silent.acts }

theorem passive_layered : Layered layer (fun _ => 1) passive :=
  ⟨logging_layered.shows, logging_layered.tells, fun _ _ _ => .done⟩

theorem passive_demo_layered : NTrace.layered layer (fun _ => 1) (final passive logDemo).2 := by
  intro m min max tags pols tr hst q hq
  have hm := final_ops hst
  simp only [logDemo, List.mem_cons, List.not_mem_nil, or_false, reduceCtorEq, false_or, Op.expect.injEq] at hm
  rcases hm with ⟨_, _, _, rfl, _⟩ | ⟨_, _, _, rfl, _⟩ | ⟨_, _, _, rfl, _⟩ | ⟨_, _, _, rfl, _⟩ | ⟨_, _, _, rfl, _⟩ | ⟨rfl, _⟩ | ⟨rfl, _⟩
  · simp at hq
  · simp at hq
  · simp at hq
  · simp at hq
  · simp at hq
  · rfl
  · rfl

example : ∃ fuel w' tr, step passive fuel (final passive logDemo).1 (.call 1 7) = .ok (w', tr) := by
  have h0 : Event.mockCreated 0 ∈ (final passive logDemo).2.flat.events := by decide +kernel
  have h1 : Event.mockCreated 1 ∈ (final passive logDemo).2.flat.events := by decide +kernel
  have h2 : Event.mockCreated 2 ∈ (final passive logDemo).2.flat.events := by decide +kernel
  refine C104_returns passive_layered (nreach_final _ _) passive_demo_layered ?_ ?_ (fun _ _ _ => ⟨.done, .done⟩) h1 (fun h => h)
  · intro m a
    generalize (final passive logDemo).2.flat.events = l at h0 h1 h2
    simp only [passive, logging]
    split
    · exact .call h2 fun _ => .done
    · exact .done
  · intro x ev
    generalize (final passive logDemo).2.flat.events = l at h0 h1 h2
    simp only [passive, logging, logged]
    split
    · exact .call h0 fun _ => .done
    · exact .call h0 fun _ => .done
    · exact .call h0 fun _ => .done
    · exact .done

/-- A side effect that calls the same mock as long as its argument is not 0. -/
def counting : Hooks Nat :=
  { silent with
    acts := fun m _ a =>
      match a with
      | 0 => .done
      | a + 1 => .call m a fun _ => .done }

/-- A case to which `C104_effects` applies: the expectation is used three times, then it is used up. -/
example : (final counting [.newMock, .expect 0 3 3 [] [], .call 0 3]).2.flat.events =
    [.mockCreated 0, .created 0, .fullMatch 0, .fullMatch 0, .fullMatch 0, .inapplicable [0]] := by decide +kernel

example (fuel : Nat) (op : Op Nat) (why : String) : step logging fuel (final logging logDemo).1 op ≠ .error (.ub why) :=
  C104_defined logging_layered (nreach_final _ _) logDemo_layered op fuel why

/-- When it is told of a call with `a + 1`, this reporter calls the same mock with `a`; it also calls the mock of an expectation that it is
told of. -/
def retold : About Nat → Event → Show Nat
  | .call m (a + 1), _ => .call m a fun _ => .done
  | .expectation m, _ => .call m 0 fun _ => .done
  | _, _ => .done

def retelling : Hooks Nat := { silent with tells := retold }

def exceedDemo : List (Op Nat) := [.newMock, .expect 0 1 1 [] []]

/-- C104: the expectation that has been chosen for a call can be used up by the calls that the reporter makes when it is told of that.
Then an assertion of the library fails. -/
theorem C104_exceeded : step retelling 9 (final retelling exceedDemo).1 (.call 0 1) =
    .error (.ub "ControlPolicy::consume: assert(is_applicable())") := by rfl

/-- Without that call, everything is fine. -/
example : ∃ w, step retelling 9 (final retelling exceedDemo).1 (.call 0 0) = .ok (w, [(.call 0 0, [.fullMatch 0])]) := ⟨_, rfl⟩

/-- The expectation of mock 1 is the first one of a sequence, that of the logger the second one. -/
def staleDemo : List (Op Nat) := [.newSequence .lazy, .newMock, .newMock, .expect 1 0 9 [0] [], .expect 0 0 9 [0] []]

/-- C104: the same if a sequence connects layers: here the sequence moves on with the call of the logger. -/
theorem C104_stale : step { logging with shows := silent.shows } 9 (final logging staleDemo).1 (.call 1 5) =
    .error (.ub "ControlPolicy::consume: assert(is_applicable())") := by rfl

def throwDemo : List (Op Nat) := [.newMock, .expect 0 1 9 [] [picky 5]]

example : step retelling 9 (World.final throwDemo).1 (.call 0 9) = .error (.ub "a std::mutex is locked twice by one thread") := by rfl

example (fuel : Nat) : ¬ ∃ v, step retelling fuel (World.final throwDemo).1 (.call 0 9) = .ok v :=
  C104_relock (reach_final throwDemo) (e := 0) (d := ⟨0, 1, 9, [], [picky 5]⟩) ⟨⟨_, rfl⟩, by decide⟩ rfl rfl
    ⟨_, List.mem_singleton.mpr rfl, rfl⟩ (fun _ => ⟨8, _, rfl⟩) fuel

example (fuel : Nat) :
    step retelling (fuel + 1) (World.final throwDemo).1 (.destroy 0) = .error (.ub "a std::mutex is locked twice by one thread") :=
  C104_relock_end (reach_final throwDemo) (e := 0) (d := ⟨0, 1, 9, [], [picky 5]⟩) (ev := [.destroyed 0, .unfulfilled 0]) rfl rfl
    (by simp) rfl fuel

/-- A reporter that logs everything, even the calls of the logger. -/
def everything : Hooks Nat := { silent with tells := fun _ ev => .call 0 (code ev) fun _ => .done }

example (fuel : Nat) (w : World Nat) : ¬ ∃ v, step everything fuel w (.call 0 5) = .ok v :=
  C104_endless (S := fun _ => True) (fun _ _ ev => ⟨code ev, _, rfl, trivial⟩) fuel w 5 trivial

end Mimic.Notify
