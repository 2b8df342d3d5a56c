import Verif.Proofs.DisplayRuns
import Verif.Props.Safety

/-!
# C98: printers that call mocks
-/

set_option autoImplicit false

namespace Mimic.Display

variable {α : Type} {shows : Nat → α → Show α}

/-- C98: as long as printing the arguments of a call only calls mocks of lower layers, and sequences do not connect layers, the library
behaves as if the calls came one after the other, in the order in which they end: what happens is a history in the sense of `Reach`, so
that all theorems about those apply to it. The full claim, for all programs, is false: see `C98_relock`, `C98_exceeded`, `C98_stale` and
`C98_endless`. -/
theorem C98_flat_partial {rank srank : Nat → Nat} (hl : Layered rank shows) {dh : DTrace α} {w : World α} (h : DReach shows dh w)
    (hs : dh.layered rank srank) : Reach dh.flat w := (reach_good hl h hs).reach

/-- C98: in such programs, each call is preceded by the calls made while its arguments were printed, once for the report about the call
and once for each report about an exception of a matcher. -/
theorem C98_explained {rank srank : Nat → Nat} (hl : Layered rank shows) {pre post : DTrace α} {w : World α} {m : Nat} {a : α}
    {tr : Trace α} (h : DReach shows (pre ++ (.call m a, tr) :: post) w)
    (hs : DTrace.layered rank srank (pre ++ (.call m a, tr) :: post)) : ∃ r, Made shows m a tr r := by
  obtain ⟨w₀, w₁, fuel, h0, h1⟩ := h.split
  obtain ⟨r, hr⟩ := step_call h1
  have g := reach_good hl h0 (fun m min max tags pols tr hm => hs m min max tags pols tr (by simp [hm]))
  exact ⟨r, ((call_ok (srank := srank) hl 0 fuel [] (rank m + 1) (by simp) pre.flat w₀ m a g (Nat.lt_succ_self _)).2 _ _ _ hr).2.2⟩

/-- C98: for example, if printing the arguments makes one call of another mock, whose own arguments are printed without calling any,
then that other mock is called exactly once more often than matchers of the first one threw. -/
theorem C98_counted {rank srank : Nat → Nat} (hl : Layered rank shows) {pre post : DTrace α} {w : World α} {m k : Nat} {a a' : α}
    {tr : Trace α} (h : DReach shows (pre ++ (.call m a, tr) :: post) w)
    (hs : DTrace.layered rank srank (pre ++ (.call m a, tr) :: post)) (hm : shows m a = .call k a' fun _ => .done)
    (hk : shows k a' = .done) :
    ∃ ev, tr.map (·.1) = List.replicate (exceptions ev + 1) (.call k a') ++ [.call m a] ∧ tr.getLast? = some (.call m a, ev) := by
  obtain ⟨r, hr⟩ := C98_explained hl h hs
  cases hr with
  | @call t _ _ ev hr =>
    rw [hm] at hr
    exact ⟨ev, by simp [hr.of_one hk], by simp⟩

/-- C98: in such programs no assertion fails and nothing undefined happens. -/
theorem C98_defined {rank srank : Nat → Nat} (hl : Layered rank shows) {dh : DTrace α} {w : World α} (h : DReach shows dh w)
    (hs : dh.layered rank srank) (op : Op α) (fuel : Nat) (why : String) : step shows fuel w op ≠ .error (.ub why) := by
  have g := reach_good hl h hs
  have key : ∀ p : Op α, w.step p ≠ .error (.ub why) := by
    intro p hp
    obtain ⟨h1, h2, h3⟩ := C17_progress g.reach p
    by_cases hv : dh.flat.valid p
    · by_cases ho : dh.flat.overflows p
      · obtain ⟨w, hw⟩ := h2 hv ho
        rw [hw] at hp
        simp at hp
      · obtain ⟨w, ev, hw⟩ := h1 hv ho
        rw [hw] at hp
        simp at hp
    · obtain ⟨w, hw⟩ := h3 hv
      rw [hw] at hp
      simp at hp
  intro hp
  cases op with
  | call m a =>
    simp only [step] at hp
    split at hp
    · rename_i hc
      simp only [Except.error.injEq] at hp
      subst hp
      obtain ⟨⟨y, hy⟩, _⟩ := (call_ok (srank := srank) hl 0 fuel [] (rank m + 1) (by simp) dh.flat w m a g (Nat.lt_succ_self _)).1 _ hc
      simp at hy
    · simp at hp
  | _ =>
    simp only [step] at hp
    split at hp
    · rename_i hw
      simp only [Except.error.injEq] at hp
      subst hp
      exact key _ hw
    · simp at hp

/-- C98: in such programs every call of an existing mock comes to an end, if the printers also only call mocks that exist: a depth of
`rank m + 1` is enough. -/
theorem C98_returns {rank srank : Nat → Nat} (hl : Layered rank shows) {dh : DTrace α} {w : World α} (h : DReach shows dh w)
    (hs : dh.layered rank srank)
    (he : ∀ m a, Event.mockCreated m ∈ dh.flat.events → (shows m a).Only (fun k => Event.mockCreated k ∈ dh.flat.events))
    {m : Nat} (hm : Event.mockCreated m ∈ dh.flat.events) (a : α) : ∃ w' tr, step shows (rank m + 1) w (.call m a) = .ok (w', tr) := by
  have g := reach_good hl h hs
  have mocks := g.reach.view.2.mocks
  have hP : (fun k => Event.mockCreated k ∈ dh.flat.events) = (· < w.colls.length) := by
    funext k
    exact propext (mocks k)
  have hc : Closed shows w.colls.length := by
    intro m a hm
    have := he m a ((mocks m).mpr hm)
    rwa [hP] at this
  simp only [step]
  split
  · rename_i x hx
    exact absurd ⟨hc, rfl, (mocks m).mp hm, Nat.le_refl _⟩
      ((call_ok (srank := srank) hl w.colls.length (rank m + 1) [] (rank m + 1) (by simp) dh.flat w m a g (Nat.lt_succ_self _)).1 _ hx).2
  · exact ⟨_, _, rfl⟩

/-- C98: whatever the printers do, the bound on the depth in the model makes no difference for what is reached: with a larger bound
everything happens in the same way. -/
theorem C98_bound (fuel k : Nat) (w : World α) (op : Op α) (h : step shows fuel w op ≠ .error tooDeep) :
    step shows (fuel + k) w op = step shows fuel w op := step_extends shows fuel k w op h

/-- C98: if printing the arguments of a call makes no calls, the call is an ordinary one. -/
theorem C98_plain {w : World α} {m : Nat} {a : α} (hs : shows m a = .done) (fuel : Nat) (w' : World α) (tr : Trace α) :
    step shows (fuel + 1) w (.call m a) = .ok (w', tr) ↔ ∃ ev, w.step (.call m a) = .ok (w', ev) ∧ tr = [(.call m a, ev)] := by
  simp only [step, call_done hs fuel [] (by simp), World.step, bind, Except.bind, pure, Except.pure]
  cases w.handleCall m a with
  | error x => simp
  | ok v =>
    obtain ⟨w₁, ev, r⟩ := v
    simp only [Except.ok.injEq, Prod.mk.injEq]
    constructor
    · rintro ⟨rfl, rfl⟩
      exact ⟨ev, ⟨rfl, rfl⟩, rfl⟩
    · rintro ⟨ev', ⟨rfl, rfl⟩, rfl⟩
      exact ⟨rfl, rfl⟩

/-- C98: if a matcher of a living expectation of the mock throws for a call, and printing the arguments of that call begins with calling
the same mock, then the call never returns. -/
theorem C98_relock {tr : Trace α} {w : World α} (h : Reach tr w) {m e : Nat} {a a' : α} {d : Decl α} (hl : tr.live e)
    (hd : tr.decl e = some d) (hm : d.mock = m) (hp : ∃ p ∈ d.policies, p.accepts a = none) {next : Option Nat → Show α}
    (hs : shows m a = .call m a' next) (fuel : Nat) : ¬ ∃ v, step shows fuel w (.call m a) = .ok v := by
  rintro ⟨⟨w', tr'⟩, hv⟩
  obtain ⟨r, hr⟩ := step_call hv
  cases fuel with
  | zero => simp [call] at hr
  | succ fuel =>
    obtain ⟨es, u, _, _, hes, hsc, _⟩ := call_prints hr
    rw [hs] at hsc
    have hb := scan_blocked (fun w v => print_held w v) hsc
    have hv := h.view
    have hc : es.reverse = ((abs w).candidates m).map (·.id) := by
      rw [hv.1.colls m es hes]
      simp [Spec.State.candidates, List.map_reverse]
    obtain ⟨y, hy, rfl⟩ := (hv.2.candidates_iff m e).mp ⟨hl, d, hd, hm⟩
    have he : y.id ∈ es.reverse := by
      rw [hc]
      exact List.mem_map.mpr ⟨y, hy, rfl⟩
    obtain ⟨h1, h2, h3⟩ := candidates_mem.mp hy
    obtain ⟨x, hx, hxy⟩ := (abs_mem_iff _ _).mp h1
    have hxa : x.alive = true := by rw [hxy] at h2; exact h2
    have hder : w.deref y.id = .ok x := by simp [World.deref, hx, hxa]
    refine hb y.id he x hder ?_
    obtain ⟨d', hd', hxd⟩ := hv.2.get h1
    rw [hd] at hd'
    simp only [Option.some.injEq] at hd'
    subst hd'
    have hpol : x.policies = d.policies := by
      have h5 : y.policies = x.policies := by rw [hxy]; rfl
      have h6 : y.policies = d.policies := congrArg Spec.Exp.policies hxd
      rw [← h5, h6]
    have hev : evalPolicies a x.policies = none := by
      obtain ⟨p, hp1, hp2⟩ := hp
      rw [evalPolicies_eq, hpol]
      have : d.policies.any (fun p => p.accepts a == none) = true := List.any_eq_true.mpr ⟨p, hp1, by rw [hp2]; rfl⟩
      rw [if_pos this]
    obtain ⟨st, hst, _⟩ := hv.1.state hx hxa
    simp only [Exp.matchReport, hst, hev, bind, Except.bind, pure, Except.pure]

/-- C98: if printing certain arguments of a mock always begins with another call of that mock with such arguments, then no such call ever
returns, however deeply calls may be nested. -/
theorem C98_endless {S : α → Prop} {m : Nat} (hS : ∀ a, S a → ∃ a' next, shows m a = .call m a' next ∧ S a') (fuel : Nat) (w : World α)
    (a : α) (ha : S a) : ¬ ∃ v, step shows fuel w (.call m a) = .ok v := by
  rintro ⟨⟨w', tr⟩, hv⟩
  obtain ⟨r, hr⟩ := step_call hv
  exact call_endless hS fuel [] w a ha _ hr

/-! ## Examples -/

/-- Runs a program and records the history. -/
def record (shows : Nat → α → Show α) (w : World α) : List (Op α) → M (World α × DTrace α)
  | [] => .ok (w, [])
  | op :: ops =>
    match step shows 9 w op with
    | .error x => .error x
    | .ok (w', tr) =>
      match record shows w' ops with
      | .error x => .error x
      | .ok (w'', dh) => .ok (w'', (op, tr) :: dh)

theorem record_dreach (ops : List (Op α)) : ∀ {dh dh' : DTrace α} {w w' : World α}, DReach shows dh w →
    record shows w ops = .ok (w', dh') → DReach shows (dh ++ dh') w' := by
  induction ops with
  | nil =>
    intro dh dh' w w' h hr
    simp only [record, Except.ok.injEq, Prod.mk.injEq] at hr
    obtain ⟨rfl, rfl⟩ := hr
    simpa using h
  | cons op ops ih =>
    intro dh dh' w w' h hr
    simp only [record] at hr
    split at hr
    · simp at hr
    · rename_i hs
      split at hr
      · simp at hr
      · rename_i hk
        simp only [Except.ok.injEq, Prod.mk.injEq] at hr
        obtain ⟨rfl, rfl⟩ := hr
        have := ih (h.step hs) hk
        simpa using this

/-- The world and the history a program ends with (the fresh world if it does not survive). -/
def final (shows : Nat → α → Show α) (ops : List (Op α)) : World α × DTrace α :=
  match record shows World.init ops with
  | .ok r => r
  | .error _ => (World.init, [])

theorem dreach_final (shows : Nat → α → Show α) (ops : List (Op α)) : DReach shows (final shows ops).2 (final shows ops).1 := by
  unfold final
  cases h : record shows World.init ops with
  | error x => exact .init
  | ok r =>
    have := record_dreach ops .init h
    simpa using this

/-- Mock 0 is the `name()` of an object which is the argument of the calls of mock 1. -/
def named : Nat → Nat → Show Nat
  | 1, _ => .call 0 0 fun _ => .done
  | _, _ => .done

theorem named_layered : Layered (fun m => m) named := by
  intro m a
  unfold named
  split
  · exact .call (by simp) fun _ => .done
  · exact .done

/-- Accepts `x`, throws for 9. -/
def picky (x : Nat) : Policy Nat := { accepts := fun a => if a = 9 then none else some (a == x) }

/-- `name()` may be called up to three times. -/
def nameDemo : List (Op Nat) :=
  [.newSequence .lazy, .newMock, .newMock, .expect 0 0 3 [] [], .expect 1 1 2 [0] [picky 5], .expect 1 0 2 [0] [], .call 1 5, .call 1 9]

theorem nameDemo_layered : DTrace.layered (fun m => m) (fun _ => 1) (final named nameDemo).2 := by
  intro m min max tags pols tr hst q hq
  have : (final named nameDemo).2.map (·.1) = nameDemo := rfl
  have hm : Op.expect m min max tags pols ∈ nameDemo := this ▸ List.mem_map.mpr ⟨_, hst, rfl⟩
  simp only [nameDemo, List.mem_cons, List.not_mem_nil, or_false, reduceCtorEq, false_or, Op.expect.injEq] at hm
  rcases hm with ⟨_, _, _, rfl, _⟩ | ⟨rfl, _⟩ | ⟨rfl, _⟩
  · simp at hq
  · rfl
  · rfl

/-- What is observed: the first call of mock 1 leads to one call of `name()`, the second one to two. -/
example : (final named nameDemo).2.flat.events =
    [.sequenceCreated 0 .lazy, .mockCreated 0, .mockCreated 1, .created 0, .created 1, .created 2,
      .fullMatch 0, .fullMatch 1, .fullMatch 0, .fullMatch 0, .unhandled 1, .fullMatch 2] := rfl

example : Reach (final named nameDemo).2.flat (final named nameDemo).1 :=
  C98_flat_partial named_layered (dreach_final _ _) nameDemo_layered

/-- The last call of the program is one to which `C98_explained` and `C98_counted` apply. -/
example : ∃ pre tr, (final named nameDemo).2 = pre ++ [(.call 1 9, tr)] ∧
    tr.map (·.2) = [[.fullMatch 0], [.fullMatch 0], [.unhandled 1, .fullMatch 2]] :=
  ⟨(final named nameDemo).2.take 7, ((final named nameDemo).2.drop 7).flatMap (·.2), rfl, rfl⟩

example : ∃ w' tr, step named 2 (final named nameDemo).1 (.call 1 5) = .ok (w', tr) :=
  C98_returns named_layered (dreach_final _ _) nameDemo_layered (by
    intro m a _
    unfold named
    split
    · exact .call (by decide) fun _ => .done
    · exact .done) (by decide) 5

/-- A test that expects one call each. -/
def onceDemo : List (Op Nat) :=
  [.newMock, .newMock, .expect 0 1 1 [] [], .expect 1 1 1 [] [picky 5], .call 0 0, .call 1 5, .destroy 0, .destroy 1]

/-- C98: printing is not without effect: this test passes if the arguments are printed without calling mocks, and otherwise `name()` is
called once too often. -/
theorem C98_observed :
    (final (fun _ _ => .done) onceDemo).2.flat.events =
      [.mockCreated 0, .mockCreated 1, .created 0, .created 1, .fullMatch 0, .fullMatch 1, .destroyed 0, .destroyed 1] ∧
    (final named onceDemo).2.flat.events =
      [.mockCreated 0, .mockCreated 1, .created 0, .created 1, .fullMatch 0, .inapplicable [0], .fullMatch 1, .destroyed 0,
        .destroyed 1] := ⟨rfl, rfl⟩

/-- Printing 1 calls the same mock with 0, which is printed without calls. -/
def countdown : Nat → Nat → Show Nat
  | _, 0 => .done
  | m, a + 1 => .call m a fun _ => .done

def exceedDemo : List (Op Nat) := [.newMock, .expect 0 1 1 [] []]

/-- C98: the expectation that has been chosen for a call can be used up by the calls made while the arguments are printed. Then an
assertion of the library fails. -/
theorem C98_exceeded : step countdown 9 (final countdown exceedDemo).1 (.call 0 1) =
    .error (.ub "ControlPolicy::consume: assert(is_applicable())") := by rfl

/-- Without that call, everything is fine. -/
example : ∃ w, step countdown 9 (final countdown exceedDemo).1 (.call 0 0) = .ok (w, [(.call 0 0, [.fullMatch 0])]) := ⟨_, rfl⟩

/-- The expectation of mock 1 is the second one of a sequence, that of mock 0 the third one. -/
def staleDemo : List (Op Nat) := [.newSequence .lazy, .newMock, .newMock, .expect 1 0 9 [0] [], .expect 0 0 9 [0] []]

/-- C98: the same if a sequence connects layers: here the sequence has moved on while the arguments were printed. -/
theorem C98_stale : step named 9 (final named staleDemo).1 (.call 1 5) =
    .error (.ub "ControlPolicy::consume: assert(is_applicable())") := by rfl

def throwDemo : List (Op Nat) := [.newMock, .expect 0 0 9 [] [picky 5]]

/-- C98: if the arguments are printed because a matcher threw, calling the same mock locks a mutex twice. -/
theorem C98_relock_ub : step countdown 9 (final countdown throwDemo).1 (.call 0 9) =
    .error (.ub "a std::mutex is locked twice by one thread") := by rfl

example (fuel : Nat) : ¬ ∃ v, step countdown fuel (World.final throwDemo).1 (.call 0 9) = .ok v :=
  C98_relock (reach_final throwDemo) (e := 0) (d := ⟨0, 0, 9, [], [picky 5]⟩) ⟨⟨_, rfl⟩, by decide⟩ rfl rfl
    ⟨_, List.mem_singleton.mpr rfl, rfl⟩ rfl fuel

/-- A printer that calls the mock again and again. -/
def again : Nat → Nat → Show Nat := fun m a => .call m (a + 1) fun _ => .done

example (fuel : Nat) (w : World Nat) : ¬ ∃ v, step again fuel w (.call 0 5) = .ok v :=
  C98_endless (S := fun _ => True) (fun a _ => ⟨a + 1, _, rfl, trivial⟩) fuel w 5 trivial

end Mimic.Display
