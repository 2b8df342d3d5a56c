import Verif.Proofs.ConcurrentDemo

/-!
# C40: several threads
-/

set_option autoImplicit false

namespace Mimic

variable {α : Type} {asserts : Bool} {n m : Nat} {tr : KTrace α} {kw : KWorld α}

/-- Two threads and two mocks. Expectation 0 takes one to two calls of mock 0, expectation 1 one call of mock 1, expectation 2
no call at all. Calls of different mocks overlap; mock `c` is guarded by mutex `c`. -/
def guardedDemo : List (Nat × KAct Unit) :=
  [(0, .expect 0 1 2 []), (1, .expect 1 1 1 []), (1, .expect 0 0 0 []), (0, .lock 0), (1, .lock 1), (0, .scan 0 ()), (1, .scan 1 ()),
   (0, .report), (1, .report), (1, .consume), (0, .consume), (0, .unlock 0), (1, .scan 1 ()), (1, .unlock 1), (1, .lock 0),
   (1, .scan 0 ()), (1, .report), (1, .consume), (1, .unlock 0), (0, .lock 0), (0, .query 0), (0, .remove 0), (0, .release),
   (0, .unlock 0)]

/-- What is seen of it. -/
example : (KWorld.final true 2 2 guardedDemo).2.length = 24 ∧
    KTrace.events (KWorld.final true 2 2 guardedDemo).2 =
      [.created 0, .created 1, .created 2, .fullMatch 0, .fullMatch 1, .inapplicable [1], .fullMatch 0, .destroyed 0] := by
  decide

/-- C40: in every schedule, a call sees exactly the expectations of its mock that have been created and not withdrawn, and
decides by the calls that have been counted up to that moment: the youngest one that could take the call is chosen, and
without one, what is reported is exactly what accepts the call, or all there is. -/
theorem C40_outcome (h : KReach asserts n m tr kw) {kw' : KWorld α} {t c : Nat} {a : α} {log : KLog}
    (hs : kw.step asserts t (.scan c a) = .ok (kw', log)) :
    ∃ us, YoungestFirst (tr.throws c a) us ∧
      ((∃ e, log.chosen = some e ∧ log.ev = us.map Event.unhandled ∧ tr.candidate c a e ∧ ∀ e', tr.candidate c a e' → e' ≤ e) ∨
       (log.chosen = none ∧ (∀ e, ¬ tr.candidate c a e) ∧ (∃ e, tr.accepts c a e) ∧
          ∃ es, log.ev = us.map Event.unhandled ++ [.inapplicable es] ∧ YoungestFirst (tr.accepts c a) es) ∨
       (log.chosen = none ∧ (∀ e, ¬ tr.accepts c a e) ∧
          ∃ es, log.ev = us.map Event.unhandled ++ [.noMatch es] ∧
            YoungestFirst (fun e => (tr.live e ∧ ∃ d, tr.decl e = some d ∧ d.mock = c) ∧ ¬ tr.throws c a e) es)) :=
  kscan_spec h hs

/-- The second call of mock 1 sees expectation 1, which has been used up; a call of mock 0 takes expectation 0, because the
younger expectation 2 takes no calls. -/
example : ((KWorld.final true 2 2 guardedDemo).2.filter (fun x => x.act matches .scan _ _)).map (fun x => (x.log.ev, x.log.chosen)) =
    [([], some 0), ([], some 1), ([.inapplicable [1]], none), ([], some 0)] := by
  decide

/-- C40: in every schedule, each step that a thread can make is defined, apart from one kind: a call is counted by an
expectation whose object has been destroyed since the call was matched, or beyond what the counter (with assertions: the
upper limit) allows. That kind of step is always undefined. -/
theorem C40_defined (h : KReach asserts n m tr kw) {t : Nat} {act : KAct α} (hv : tr.valid n m t act) :
    (¬ tr.bad asserts t act → ∃ kw' log, kw.step asserts t act = .ok (kw', log)) ∧
    (tr.bad asserts t act → ∃ s, kw.step asserts t act = .error (.ub s)) :=
  kstep_defined h hv

/-- A step that can be made and is defined (for the other kind, see `C40_withdrawn` below). -/
example : KTrace.valid 2 2 (KWorld.final true 2 2 guardedDemo).2 1 (.scan 1 ()) ∧
    ¬ KTrace.bad true (KWorld.final true 2 2 guardedDemo).2 1 (.scan 1 ()) :=
  ⟨⟨by decide, by decide, by decide⟩, by simp [KTrace.bad]⟩

/-- C40: the verdict on an expectation is passed when it is withdrawn, by what has been counted at that moment: it is reported
as unfulfilled iff the count is outside of its limits or one of its policies is not satisfied. -/
theorem C40_unfulfilled (h : KReach asserts n m tr kw) {kw' : KWorld α} {t e : Nat} {log : KLog} {d : Decl α}
    (hs : kw.step asserts t (.remove e) = .ok (kw', log)) (hd : tr.decl e = some d) :
    ((d.min ≤ tr.counted e ∧ tr.counted e ≤ d.max ∧ ∀ p ∈ d.policies, p.isSatisfied = true) → log.ev = [.destroyed e]) ∧
    (¬ (d.min ≤ tr.counted e ∧ tr.counted e ≤ d.max ∧ ∀ p ∈ d.policies, p.isSatisfied = true) →
      log.ev = [.destroyed e, .unfulfilled e]) := by
  have hm := kmove h.inv.ok hs
  generalize hact : KAct.remove e = act at hm
  cases hm <;> simp only [KAct.remove.injEq, reduceCtorEq] at hact
  rename_i e' x es hl hr hx hal hes hmem
  subst hact
  obtain ⟨y, hy, rfl⟩ := h.decl_some.mp hd
  rw [hx, Option.some.injEq] at hy
  subst hy
  have hcnt : x.control.count = tr.counted e := h.inv.count e x hx
  have hsat : x.isSatisfied = true ↔
      ((declOf x).min ≤ tr.counted e ∧ tr.counted e ≤ (declOf x).max ∧ ∀ p ∈ (declOf x).policies, p.isSatisfied = true) := by
    simp only [declOf, Exp.isSatisfied, Control.isSatisfied, hcnt, Bool.and_eq_true, decide_eq_true_eq, List.all_eq_true]
    constructor
    · rintro ⟨⟨h1, h2⟩, h3⟩; exact ⟨h1, h2, h3⟩
    · rintro ⟨h1, h2, h3⟩; exact ⟨⟨h1, h2⟩, h3⟩
  refine ⟨fun h' => ?_, fun h' => ?_⟩
  · simp [hsat.mpr h']
  · simp [show ¬ x.isSatisfied = true from fun h'' => h' (hsat.mp h'')]

/-- An expectation for no more than one call counts two and is withdrawn. -/
example : KTrace.events (KWorld.final false 2 1 (overshoot ++ [(0, .remove 0)])).2 =
    [.created 0, .fullMatch 0, .fullMatch 0, .destroyed 0, .unfulfilled 0] := by decide

/-- C40: a thread that asks whether an expectation is satisfied is told so iff what has been counted at that moment is within
the limits and every policy is satisfied. -/
theorem C40_query (h : KReach asserts n m tr kw) {kw' : KWorld α} {t e : Nat} {log : KLog} {d : Decl α}
    (hs : kw.step asserts t (.query e) = .ok (kw', log)) (hd : tr.decl e = some d) :
    (log.answer = some true ↔ d.min ≤ tr.counted e ∧ tr.counted e ≤ d.max ∧ ∀ p ∈ d.policies, p.isSatisfied = true) ∧
    (log.answer = some false ↔ ¬ (d.min ≤ tr.counted e ∧ tr.counted e ≤ d.max ∧ ∀ p ∈ d.policies, p.isSatisfied = true)) := by
  have hm := kmove h.inv.ok hs
  generalize hact : KAct.query e = act at hm
  cases hm <;> simp only [KAct.query.injEq, reduceCtorEq] at hact
  rename_i e' x hl hr hx hal
  subst hact
  obtain ⟨y, hy, rfl⟩ := h.decl_some.mp hd
  rw [hx, Option.some.injEq] at hy
  subst hy
  have hcnt : x.control.count = tr.counted e := h.inv.count e x hx
  have hsat : x.isSatisfied = true ↔
      ((declOf x).min ≤ tr.counted e ∧ tr.counted e ≤ (declOf x).max ∧ ∀ p ∈ (declOf x).policies, p.isSatisfied = true) := by
    simp only [declOf, Exp.isSatisfied, Control.isSatisfied, hcnt, Bool.and_eq_true, decide_eq_true_eq, List.all_eq_true]
    constructor
    · rintro ⟨⟨h1, h2⟩, h3⟩; exact ⟨h1, h2, h3⟩
    · rintro ⟨h1, h2, h3⟩; exact ⟨⟨h1, h2⟩, h3⟩
  rw [← hsat]
  simp

/-- An expectation is asked before and after the call that it waits for. -/
example : (KWorld.final true 1 1 [(0, .expect 0 1 1 []), (0, .query 0), (0, .scan 0 ()), (0, .report), (0, .consume),
      (0, .query 0)]).2.filterMap (fun x => x.log.answer) = [false, true] := by decide

/-- C40: no call is lost: at every moment, the calls that were reported as resolved by an expectation are those that it has
counted and those that are about to be counted. -/
theorem C40_counted (h : KReach asserts n m tr kw) (e : Nat) :
    tr.counted e ≤ tr.resolved e ∧ tr.resolved e ≤ tr.counted e + n ∧
    ((∀ t c, tr.phase t ≠ .reported c e) → tr.resolved e = tr.counted e) := by
  have hr : tr.resolved e = tr.counted e + kw.threads.countP (Local.reports e) := h.inv.resolved e
  refine ⟨by omega, ?_, ?_⟩
  · have := List.countP_le_length (p := Local.reports e) (l := kw.threads)
    have := h.inv.len
    omega
  · intro hp
    have : kw.threads.countP (Local.reports e) = 0 := by
      rw [List.countP_eq_zero]
      intro l hl hb
      obtain ⟨t, ht⟩ := List.mem_iff_getElem?.mp hl
      have := (h.phase_iff.mp ht).2
      cases l with
      | reported c e' =>
        simp only [Local.reports] at hb
        exact hp t c (by rw [this]; simp_all)
      | _ => simp [Local.reports] at hb
    omega

/-- Both calls are reported, only one is counted. -/
example : KTrace.resolved (KWorld.final false 2 1 (overshoot.take 13)).2 0 = 2 ∧
    KTrace.counted (KWorld.final false 2 1 (overshoot.take 13)).2 0 = 1 := by decide

/-! ### Limits -/

/-- C40, in part: if no two calls that the same expectation resolves overlap between matching and counting, then no
expectation resolves more calls than its upper limit. Without that assumption, this is wrong: `C40_overshoot`. -/
theorem C40_limit_partial (h : KReach asserts n m tr kw) (hx : tr.Exclusive) {e : Nat} {d : Decl α} (hd : tr.decl e = some d) :
    (tr.resolved e : Int) ≤ d.max := by
  obtain ⟨x, he, rfl⟩ := h.decl_some.mp hd
  have hr : tr.resolved e = tr.counted e + kw.threads.countP (Local.reports e) := h.inv.resolved e
  have hcnt : x.control.count = tr.counted e := h.inv.count e x he
  have hl := klimit h hx he
  have := reports_le_busy e kw.threads
  simp only [declOf]
  omega

/-- Calls of two threads that do not overlap. -/
example : KTrace.Exclusive (KWorld.final true 2 2 guardedDemo).2 ∧ KTrace.resolved (KWorld.final true 2 2 guardedDemo).2 0 = 2 ∧
    (KTrace.decl (KWorld.final true 2 2 guardedDemo).2 0).map (·.max) = some 2 :=
  ⟨KTrace.Separate.exclusive (kreach_final _ _ _ _)
    (guarded_separate (g := fun c => c) (kreach_final _ _ _ _) (guarded_sound (by decide))), by decide, by decide⟩

/-- C40: compiled with assertions, the count never exceeds the upper limit: the step that would do it is undefined
(`C40_defined`). -/
theorem C40_asserts (h : KReach true n m tr kw) {e : Nat} {d : Decl α} (hd : tr.decl e = some d) :
    (tr.counted e : Int) ≤ d.max := by
  obtain ⟨x, he, rfl⟩ := h.decl_some.mp hd
  have hcnt : x.control.count = tr.counted e := h.inv.count e x he
  have := kcount_asserts h he
  simp only [declOf]
  omega

example : KTrace.counted (KWorld.final true 2 2 guardedDemo).2 0 = 2 ∧
    (KTrace.decl (KWorld.final true 2 2 guardedDemo).2 0).map (·.max) = some 2 := by decide

/-- C40: without assertions, two threads suffice to make an expectation for exactly one call resolve any number of calls, with
no data race. -/
theorem C40_overshoot (k : Nat) (hk : 2 ≤ k) (hmax : (k : Int) ≤ 2147483647) :
    ∃ (tr : KTrace Unit) (kw : KWorld Unit), KReach false 2 1 tr kw ∧ RaceFree tr ∧
      tr.decl 0 = some { mock := 0, min := 1, max := 1, seqs := [], policies := [] } ∧ tr.resolved 0 = k := by
  obtain ⟨tr, y, h1, h2, _, h3, h4⟩ := overshoot_more k hk hmax
  exact ⟨_, _, h1, h2.raceFree, h3, h4⟩

/-- Two calls, matched before either is counted; every step happens before the next. -/
def overlapping : List (Nat × KAct Unit) :=
  [(0, .expect 0 1 1 []), (0, .scan 0 ()), (1, .scan 0 ()), (1, .report)] ++ pass 1 ++ pass 0 ++
  [(0, .report), (0, .consume)] ++ pass 0 ++ pass 1

/-- C40: with assertions, the same situation is undefined behaviour, with no data race. -/
theorem C40_overshoot_asserts :
    ∃ (tr : KTrace Unit) (kw : KWorld Unit), KReach true 2 1 tr kw ∧ RaceFree tr ∧ tr.valid 2 1 1 .consume ∧
      ∃ s, kw.step true 1 .consume = .error (.ub s) :=
  ⟨_, _, kreach_final true 2 1 overlapping, (linked_sound _ (by decide)).raceFree, ⟨0, 0, rfl⟩, _, rfl⟩

/-- An expectation is withdrawn by thread 1 while thread 0 is in a call; every step happens before the next. -/
def withdrawn : List (Nat × KAct Unit) :=
  [(0, .expect 0 1 1 []), (0, .scan 0 ())] ++ pass 0 ++ pass 1 ++ [(1, .remove 0), (1, .release)] ++ pass 1 ++ pass 0 ++
  [(0, .report)]

/-- C40: withdrawing an expectation while a call that it resolves is in flight: it is reported as unfulfilled, then the call
is reported as resolved by it, and then a destroyed object is used. There is no data race. -/
theorem C40_withdrawn (asserts : Bool) :
    ∃ (tr : KTrace Unit) (kw : KWorld Unit), KReach asserts 2 1 tr kw ∧ RaceFree tr ∧ tr.valid 2 1 0 .consume ∧
      tr.events = [.created 0, .destroyed 0, .unfulfilled 0, .fullMatch 0] ∧
      ∃ s, kw.step asserts 0 .consume = .error (.ub s) := by
  cases asserts
  · exact ⟨_, _, kreach_final false 2 1 withdrawn, (linked_sound _ (by decide)).raceFree, ⟨0, 0, rfl⟩, by decide, _, rfl⟩
  · exact ⟨_, _, kreach_final true 2 1 withdrawn, (linked_sound _ (by decide)).raceFree, ⟨0, 0, rfl⟩, by decide, _, rfl⟩

/-! ### Data races -/

/-- C40: creating, withdrawing and matching expectations never race with each other, and neither does the storage: in every
data race, one of the two steps counts a call for an expectation, or asks an expectation whether it is satisfied. -/
theorem C40_races (h : KReach asserts n m tr kw) {i j : Nat} (hr : Race tr i j) :
    ∃ e x y, tr[i]? = some x ∧ tr[j]? = some y ∧
      ((x.act = .consume ∧ ∃ c, (tr.before i).flight x.thread = some (c, e)) ∨ x.act = .query e ∨
       (y.act = .consume ∧ ∃ c, (tr.before j).flight y.thread = some (c, e)) ∨ y.act = .query e) := by
  obtain ⟨e, x, y, hij, hx, hy, ht, hnb, hux, huy, hw⟩ := race_use h hr
  refine ⟨e, x, y, hx, hy, ?_⟩
  have hc : ∀ {i : Nat} {x : KEntry α}, tr[i]? = some x → Use tr e i x → x.act = .consume →
      ∃ c, (tr.before i).flight x.thread = some (c, e) := by
    intro i x hx hu ha
    cases hu with
    | consume c _ hf => exact ⟨c, hf⟩
    | scan c a d hsc => rw [ha] at hsc; simp at hsc
    | remove d hsc => rw [ha] at hsc; simp at hsc
    | release hsc => rw [ha] at hsc; simp at hsc
    | query d hsc => rw [ha] at hsc; simp at hsc
    | create c d h1 h2 h3 h4 h5 =>
      exact absurd ha (created_not_consume h hx h4)
  by_cases hall : x.act ≠ .consume ∧ y.act ≠ .consume ∧ x.act ≠ .query e ∧ y.act ≠ .query e
  · exact absurd (locked_hb h hij hx hy hux huy hw hall.1 hall.2.1 hall.2.2.1 hall.2.2.2) hnb
  · have := hc hx hux
    have := hc hy huy
    grind

/-- Two calls of one mock, one after the other. -/
def twoCalls : List (Nat × KAct Unit) :=
  [(0, .expect 0 0 5 []), (0, .scan 0 ()), (0, .report), (0, .consume), (1, .scan 0 ()), (1, .report), (1, .consume)]

/-- C40: the mutex of a mock does not order counting and matching. If a thread counts a call and gives back no mutex
afterwards, then every later call of the mock by another thread races with it, as long as the expectation lives. -/
theorem C40_later_call_races (h : KReach asserts n m tr kw) {i j c e : Nat} {a : α} {d : Decl α} {x y : KEntry α} (hij : i < j)
    (hx : tr[i]? = some x) (hy : tr[j]? = some y) (ht : x.thread ≠ y.thread)
    (hxa : x.act = .consume) (hxf : (tr.before i).flight x.thread = some (c, e))
    (hya : y.act = .scan c a) (hl : (tr.before j).live e) (hd : (tr.before j).decl e = some d) (hdc : d.mock = c)
    (hrel : ∀ (k : Nat) (z : KEntry α), i ≤ k → k < j → tr[k]? = some z → z.thread = x.thread → z.log.releases = none) :
    Race tr i j := by
  refine ⟨hij, x, y, hx, hy, ht, ⟨.exp e, Or.inl ⟨consume_writes h hx hxa hxf, Or.inl (scan_reads h hy hya hl hd hdc)⟩⟩, ?_⟩
  intro hb
  rcases hb_needs_release hb hx hy with h' | ⟨k, z, h1, h2, h3, h4, h5⟩
  · exact ht h'
  · exact h5 (hrel k z h1 h2 h3 h4)

/-- The matching of the second call races with the counting of the first: the two calls do not even overlap. -/
example : Race (KWorld.final true 2 1 twoCalls).2 3 4 :=
  C40_later_call_races (c := 0) (e := 0) (a := ()) (d := ⟨0, 0, 5, [], []⟩) (kreach_final _ _ _ _) (by decide) rfl rfl (by decide) rfl rfl rfl
    ⟨⟨_, rfl⟩, by decide⟩ rfl rfl (by
      intro k z h1 h2 hz _
      have : k = 3 := by omega
      subst this
      rw [← Option.some.inj hz])

/-- C40: the same for a call that begins while a call of another thread is between matching and counting: they race, if the
other thread takes no mutex in between. -/
theorem C40_overlapping_call_races (h : KReach asserts n m tr kw) {i j c e : Nat} {a : α} {d : Decl α} {x y : KEntry α}
    (hij : i < j) (hx : tr[i]? = some x) (hy : tr[j]? = some y) (ht : x.thread ≠ y.thread)
    (hxa : x.act = .scan c a) (hl : (tr.before i).live e) (hd : (tr.before i).decl e = some d) (hdc : d.mock = c)
    (hya : y.act = .consume) (hyf : (tr.before j).flight y.thread = some (c, e))
    (hacq : ∀ (k : Nat) (z : KEntry α), i < k → k ≤ j → tr[k]? = some z → z.thread = y.thread → z.log.acquires = none) :
    Race tr i j := by
  refine ⟨hij, x, y, hx, hy, ht, ⟨.exp e, Or.inr ⟨scan_reads h hx hxa hl hd hdc, consume_writes h hy hya hyf⟩⟩, ?_⟩
  intro hb
  rcases hb_needs_acquire hb hx hy with h' | ⟨k, z, h1, h2, h3, h4, h5⟩
  · exact ht h'
  · exact h5 (hacq k z h1 h2 h3 h4)

/-- A call begins before the other call is counted. -/
example : Race (KWorld.final true 2 1 [(0, .expect 0 0 5 []), (0, .scan 0 ()), (1, .scan 0 ()), (0, .report), (0, .consume)]).2 2 4 :=
  C40_overlapping_call_races (c := 0) (e := 0) (a := ()) (d := ⟨0, 0, 5, [], []⟩) (kreach_final _ _ _ _) (by decide) rfl rfl
    (by decide) rfl ⟨⟨_, rfl⟩, by decide⟩ rfl rfl rfl rfl (by
      intro k z h1 h2 hz _
      have : k = 3 ∨ k = 4 := by omega
      rcases this with rfl | rfl <;> rw [← Option.some.inj hz])

/-! ### What a client can do -/

/-- C40: schedules in which no call begins while another call of the same mock is in flight, and no expectation is withdrawn
while a call that it resolves is in flight, are no more than histories of a single thread: every theorem about those
applies. In particular, limits hold, and no step that a thread can make is undefined. -/
theorem C40_sequential (h : KReach asserts n m tr kw) (hs : tr.Separate) :
    (∃ w, Reach (tr.serial m) w) ∧ (∀ e d, tr.decl e = some d → (tr.resolved e : Int) ≤ d.max) ∧
    ∀ t act, tr.valid n m t act → ∃ kw' log, kw.step asserts t act = .ok (kw', log) := by
  obtain ⟨w, hw, _⟩ := kserial h hs
  exact ⟨⟨w, hw⟩, fun e d hd => C40_limit_partial h (hs.exclusive h) hd,
    fun t act hv => (kstep_defined h hv).1 (separate_not_bad h hs t act)⟩

/-- The history of a single thread that `guardedDemo` amounts to. -/
example : ((KTrace.serial 2 (KWorld.final true 2 2 guardedDemo).2).map (·.2)) =
    [[.mockCreated 0], [.mockCreated 1], [.created 0], [.created 1], [.created 2], [.fullMatch 0], [.fullMatch 1],
     [.inapplicable [1]], [.fullMatch 0], [.destroyed 0]] ∧
    KTrace.Separate (KWorld.final true 2 2 guardedDemo).2 :=
  ⟨by decide, guarded_separate (g := fun c => c) (kreach_final _ _ _ _) (guarded_sound (by decide))⟩

/-- C40: a client that holds a mutex of its own around every call of a mock, and whenever an expectation of the mock is
withdrawn or asked, is safe: there is no data race, and calls are separate (`C40_sequential`). Creating expectations needs no
mutex. -/
theorem C40_guarded {g : Nat → Nat} (h : KReach asserts n m tr kw) (hg : tr.Guarded g) (hho : tr.HandedOver) :
    RaceFree tr ∧ tr.Separate := by
  refine ⟨?_, guarded_separate h hg⟩
  intro i j hr
  obtain ⟨e, x, y, hij, hx, hy, ht, hnb, hux, huy, hw⟩ := race_use h hr
  exact hnb (guarded_hb h hg hho hij hx hy ht hux huy hw)

example : KTrace.Guarded (fun c => c) (KWorld.final true 2 2 guardedDemo).2 ∧
    KTrace.HandedOver (KWorld.final true 2 2 guardedDemo).2 ∧ linked (KWorld.final true 2 2 guardedDemo).2 = false :=
  ⟨guarded_sound (by decide), ownQueries_sound (by decide), by decide⟩

end Mimic
