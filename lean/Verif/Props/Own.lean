import Verif.Proofs.Own
import Verif.Props.Selection
import Verif.Props.Outcome
import Verif.Props.Safety

/-!
# C67: policies and finalizers of the user's own
-/

set_option autoImplicit false

namespace Mimic.Own

open Mimic.Nested (Seen asked)

variable {σ α ρ : Type}

/-- C67: whatever the policies do, what happens is a history in the sense of `Reach`, so that all theorems about those apply to it: a
call is one together with what the policies said about it. -/
theorem C67_flat {th : OTrace σ α ρ} {s : Store σ α ρ} (h : OReach th s) : Reach th.flat s.w := (reach_kept h).good.reach

/-- C67: at any time the policies and the finalizer of an expectation are what they were created as, after having taken exactly the
calls this expectation was reported to take, in this order. -/
theorem C67_state {th : OTrace σ α ρ} {s : Store σ α ρ} (h : OReach th s) {e : Nat} {i : Inner σ α ρ} (hi : th.made e = some i) :
    ∃ i', Used i (th.took e) i' ∧ s.inner[e]? = some i' ∧ ∀ j, Used i (th.took e) j → j = i' := by
  have k := reach_kept h
  cases hs : s.inner[e]? with
  | none => rw [(k.made e).mpr hs] at hi; simp at hi
  | some i' =>
    obtain ⟨i₀, h1, h2⟩ := k.now e i' hs
    rw [hi] at h1
    simp only [Option.some.injEq] at h1
    subst h1
    exact ⟨i', h2, rfl, fun j hj => hj.unique h2⟩

/-- C67: a call is resolved iff there is an expectation that could: one of the mock's, whose policies, being what they are by now, all
accept the call, and whose turn it is. The policies of the one that resolves it consume the call one after the other, and what its
finalizer then says about what they left of the arguments is the result. Otherwise no policy consumes it. -/
theorem C67_resolved {pre post : OTrace σ α ρ} {s : Store σ α ρ} {m : Nat} {a : α} {c : Came α ρ}
    (h : OReach (pre ++ (.call m a, c) :: post) s) :
    (∃ e i ps left, pre.candidate m a e ∧ (∀ e', Event.fullMatch e' ∈ c.events ↔ e' = e) ∧ pre.now e i ∧
        Passed i.policies a ps left ∧ c.left = some left ∧ c.result = some (i.fin.finalize i.fin.state left).2) ∨
    ((∀ e, ¬ pre.candidate m a e) ∧ (∀ e, Event.fullMatch e ∉ c.events) ∧ c.left = some a ∧ c.result = none) := by
  obtain ⟨s₀, w', k, hs, hc⟩ := call_cases h
  rcases hc with ⟨e, i, ps, left, _, hn, hp, hf, hl, hr⟩ | ⟨hf, hl, hr⟩
  · left
    obtain ⟨m', a', h1, h2⟩ := fullMatch_source k.good.reach hs ((hf e).mpr rfl)
    simp only [Op.call.injEq] at h1
    obtain ⟨rfl, rfl⟩ := h1
    exact ⟨e, i, ps, left, (k.candidate _ _ _).mp h2, hf, hn, hp, hl, hr⟩
  · right
    refine ⟨fun e he => ?_, hf, hl, hr⟩
    rcases C08_selection k.good.reach hs with ⟨hno, _⟩ | ⟨x, older, r, _, _, hr⟩
    · exact hno e ((k.candidate m a e).mpr he)
    · exact hf r ((hr r).mpr rfl)

/-- C67: among those that could, the choice is the one described by `Chosen`: policies have no say in it. -/
theorem C67_chosen {pre post : OTrace σ α ρ} {s : Store σ α ρ} {m : Nat} {a : α} {c : Came α ρ}
    (h : OReach (pre ++ (.call m a, c) :: post) s) {e : Nat} (he : Event.fullMatch e ∈ c.events) :
    ∃ x older, YoungestFirst (pre.candidate m a) (x :: older) ∧ pre.flat.Chosen x older e := by
  obtain ⟨s₀, w', k, hs, _⟩ := call_cases h
  rcases C08_selection k.good.reach hs with ⟨_, hno⟩ | ⟨x, older, r, h1, h2, h3⟩
  · exact absurd he (hno e)
  · obtain rfl := (h3 e).mp he
    exact ⟨x, older, ⟨h1.1, fun y => (h1.2 y).trans (k.candidate m a y)⟩, h2⟩

/-- C67: the reports of a call. There is one for each expectation with a policy that throws, and then exactly one more: about the match,
or, if there is none, about the expectations that accept the call, or, if there are none either, about all others. -/
theorem C67_reports {pre post : OTrace σ α ρ} {s : Store σ α ρ} {m : Nat} {a : α} {c : Came α ρ}
    (h : OReach (pre ++ (.call m a, c) :: post) s) :
    ∃ us last, c.events = us.map Event.unhandled ++ [last] ∧ YoungestFirst (pre.throws m a) us ∧
      ((∃ e, pre.candidate m a e ∧ last = .fullMatch e) ∨
       ((∀ e, ¬ pre.candidate m a e) ∧ (∃ e, pre.accepts m a e) ∧ ∃ es, last = .inapplicable es ∧ YoungestFirst (pre.accepts m a) es) ∨
       ((∀ e, ¬ pre.accepts m a e) ∧ ∃ es, last = .noMatch es ∧ YoungestFirst (fun e => pre.of m e ∧ ¬ pre.throws m a e) es)) := by
  obtain ⟨s₀, w', k, hs, _⟩ := call_cases h
  have hacc : ∀ e, pre.flat.accepts m (a, fun e => askAll (s₀.policies e) a) e ↔ pre.accepts m a e := by
    intro e
    unfold Trace.accepts OTrace.accepts OTrace.of
    constructor
    · rintro ⟨h1, d, hd, hm, hp⟩
      obtain ⟨i, hi, hn, _⟩ := k.exists hd
      refine ⟨⟨h1, d, hd, hm⟩, i, hn, ?_⟩
      rw [← askAll_true, ← (k.policies hd hn).2]
      exact hp (asked e) (by rw [k.good.decl e d hd]; simp)
    · rintro ⟨⟨h1, d, hd, hm⟩, i, hn, ha⟩
      refine ⟨h1, d, hd, hm, ?_⟩
      rw [k.good.decl e d hd]
      intro p hp
      simp only [List.mem_singleton] at hp
      subst hp
      rw [← askAll_true, ← (k.policies hd hn).2] at ha
      exact ha
  have hthr : ∀ e, pre.flat.throws m (a, fun e => askAll (s₀.policies e) a) e ↔ pre.throws m a e := by
    intro e
    unfold Trace.throws OTrace.throws OTrace.of
    constructor
    · rintro ⟨h1, d, hd, hm, p, hp, ht⟩
      obtain ⟨i, hi, hn, _⟩ := k.exists hd
      refine ⟨⟨h1, d, hd, hm⟩, i, hn, ?_⟩
      rw [k.good.decl e d hd, List.mem_singleton] at hp
      subst hp
      rw [← askAll_none, ← (k.policies hd hn).2]
      exact ht
    · rintro ⟨⟨h1, d, hd, hm⟩, i, hn, ha⟩
      refine ⟨h1, d, hd, hm, asked e, by rw [k.good.decl e d hd]; simp, ?_⟩
      rw [← askAll_none, ← (k.policies hd hn).2] at ha
      exact ha
  obtain ⟨us, last, h1, h2, h3⟩ := C10_outcome k.good.reach hs
  refine ⟨us, last, h1, ⟨h2.1, fun e => (h2.2 e).trans (hthr e)⟩, ?_⟩
  rcases h3 with ⟨e, h4, h5⟩ | ⟨h4, ⟨e, h5⟩, es, h6, h7⟩ | ⟨h4, es, h5, h6⟩
  · exact Or.inl ⟨e, (k.candidate m a e).mp h4, h5⟩
  · exact Or.inr (Or.inl ⟨fun e he => h4 e ((k.candidate m a e).mpr he), ⟨e, (hacc e).mp h5⟩, es, h6, h7.1,
      fun e => (h7.2 e).trans (hacc e)⟩)
  · refine Or.inr (Or.inr ⟨fun e he => h4 e ((hacc e).mpr he), es, h5, h6.1, fun e => (h6.2 e).trans ?_⟩)
    have := hthr e
    exact and_congr Iff.rfl (not_congr this)

/-- C67: when an expectation ends, it is reported as unfulfilled iff it has taken too few calls or one of its policies, being what it is
by now, is not satisfied. -/
theorem C67_unfulfilled {pre post : OTrace σ α ρ} {s : Store σ α ρ} {e : Nat} {c : Came α ρ}
    (h : OReach (pre ++ (.destroy e, c) :: post) s) :
    ∃ rest, (∀ x ∈ rest, (∃ q, x = .sequenceDestroyed q) ∨ ∃ q k n, x = .sequenceError q k n) ∧
      ((pre.satisfied e ∧ c.events = .destroyed e :: rest) ∨
        (¬ pre.satisfied e ∧ c.events = .destroyed e :: .unfulfilled e :: rest)) := by
  obtain ⟨s₀, s₁, h0, h1⟩ := h.split
  have k := reach_kept h0
  simp only [Store.step, Store.destroy] at h1
  split at h1
  · simp at h1
  · rename_i w' ev hw
    simp only [Except.ok.injEq, Prod.mk.injEq] at h1
    obtain ⟨_, rfl⟩ := h1
    obtain ⟨d, hd, _⟩ := C03_unfulfilled_iff k.good.reach hw
    obtain ⟨rest, hr, hcase⟩ := destroy_report k.good.reach hw
    have hm : Event.unfulfilled e ∉ rest := fun hc => by simpa [seqEvent] using hr _ hc
    refine ⟨rest, fun x hx => ?_, ?_⟩
    · have := hr x hx
      revert this
      cases x <;> simp [seqEvent]
    · rw [k.satisfied hd]
      rcases hcase with ⟨hu, rfl⟩ | ⟨hu, rfl⟩
      · right
        simp [hu]
      · cases ha : allSatisfied (s₀.policies e) with
        | true => left; simp [hu]
        | false => right; simp [hm]

/-- C67: and so says `is_satisfied`, at any time, without making reports. -/
theorem C67_satisfied {pre post : OTrace σ α ρ} {s : Store σ α ρ} {e : Nat} {c : Came α ρ}
    (h : OReach (pre ++ (.ask e, c) :: post) s) :
    pre.flat.live e ∧ c.events = [] ∧ ∃ b, c.answer = some b ∧ (b = true ↔ pre.satisfied e) := by
  obtain ⟨s₀, s₁, h0, h1⟩ := h.split
  have k := reach_kept h0
  simp only [Store.step] at h1
  split at h1
  · simp at h1
  · rename_i x hx
    split at h1
    · rename_i ha
      simp only [Except.ok.injEq, Prod.mk.injEq] at h1
      obtain ⟨_, rfl⟩ := h1
      obtain ⟨d, hd, hxd⟩ := k.good.reach.view.2.get (abs_mem hx)
      have hl : pre.flat.live e := by
        refine ⟨⟨d, hd⟩, ?_⟩
        have e1 : x.alive = decide (Event.destroyed e ∉ pre.flat.events) := congrArg Spec.Exp.alive hxd
        rw [ha] at e1
        simpa using e1.symm
      refine ⟨hl, rfl, _, rfl, ?_⟩
      obtain ⟨y, hy, hiff⟩ := satisfied_iff k.good.reach hl
      have : y = x := by
        simp only [World.deref, hx, ha, if_true, Except.ok.injEq] at hy
        exact hy.symm
      subst this
      have hpol : y.policies = [asked e] := by
        have e3 : y.policies = d.policies := congrArg Spec.Exp.policies hxd
        rw [e3, k.good.decl e d hd]
      have hd' : pre.flat.decl e = some d := hd
      rw [k.satisfied hd', ← hiff]
      simp [Exp.isSatisfied, hpol, asked]
    · simp at h1

/-- C67: a call of an existing mock ends, unless a policy of an expectation that could resolve it throws while consuming the call: then
the program ends. -/
theorem C67_returns {th : OTrace σ α ρ} {s : Store σ α ρ} (h : OReach th s) {m : Nat} (hm : Event.mockCreated m ∈ th.flat.events) (a : α) :
    (∃ s' c, s.step (.call m a) = .ok (s', c)) ∨
    ((∃ why, s.step (.call m a) = .error (.terminate why)) ∧
      ∃ e i, th.candidate m a e ∧ th.now e i ∧ ¬ ∃ ps left, Passed i.policies a ps left) := by
  have k := reach_kept h
  have hlt := (k.good.reach.view.2.mocks m).mp hm
  obtain ⟨w', hw', _, _⟩ := k.good.reach.view.1.handleCall (show m < s.w.colls.length from hlt) (a, fun e => askAll (s.policies e) a)
  have hw : s.w.handleCall m (a, fun e => askAll (s.policies e) a) =
    .ok (w', ((abs s.w).call m (a, fun e => askAll (s.policies e) a)).2) := hw'
  revert hw
  generalize ((abs s.w).call m (a, fun e => askAll (s.policies e) a)).2 = out
  obtain ⟨ev, res⟩ := out
  intro hw
  cases res with
  | none => exact Or.inl ⟨_, _, by simp only [Store.step, Store.call, hw]; rfl⟩
  | some e =>
    obtain ⟨us, _, hlt⟩ := handleCall_result hw
    rw [← k.good.len] at hlt
    have hi : s.inner[e]? = some s.inner[e] := List.getElem?_eq_getElem hlt
    cases hp : consumeAll s.inner[e].policies a with
    | some r => exact Or.inl ⟨_, _, by simp only [Store.step, Store.call, hw, hi, hp]; rfl⟩
    | none =>
      refine Or.inr ⟨⟨_, by simp only [Store.step, Store.call, hw, hi, hp]; rfl⟩, e, s.inner[e], ?_, k.now e _ hi, consumeAll_none.mp hp⟩
      have hstep : s.w.step (.call m (a, fun e => askAll (s.policies e) a)) = .ok (w', ev) := by
        simp [World.step, hw, bind, Except.bind, pure, Except.pure]
      obtain ⟨m', a', h1, h2⟩ := fullMatch_source k.good.reach hstep (((handleCall_full hw e).1).mpr rfl)
      simp only [Op.call.injEq] at h1
      obtain ⟨rfl, rfl⟩ := h1
      exact (k.candidate _ _ _).mp h2

/-- C67: the policies have no influence on what else the client may do: mocks and sequences can always be created; a sequence object can be
destroyed iff it is there; an expectation can be created (or is rejected with an exception) iff its mock and sequence objects are there, its
limits are `int`s and none of its sequences is at capacity; and it can be asked and withdrawn iff it is there. -/
theorem C67_possible {th : OTrace σ α ρ} {s : Store σ α ρ} (h : OReach th s) :
    (∀ st, ∃ r, s.step (.newSequence st) = .ok r) ∧ (∃ r, s.step .newMock = .ok r) ∧
    (∀ q, (∃ r, s.step (.dropSequence q) = .ok r) ↔ th.flat.handle q) ∧
    (∀ m min max tags i, (∃ r, s.step (.expect m min max tags i) = .ok r) ↔
      th.flat.valid (.expect m min max tags []) ∧ ¬ th.flat.overflows (.expect m min max tags [])) ∧
    (∀ e, (∃ r, s.step (.ask e) = .ok r) ↔ th.flat.live e) ∧
    (∀ e, (∃ r, s.step (.destroy e) = .ok r) ↔ th.flat.live e) := by
  have k := reach_kept h
  have base : ∀ op : Op (Seen α), (∃ r, s.w.step op = .ok r) ↔ th.flat.valid op ∧ ¬ th.flat.overflows op := by
    intro op
    obtain ⟨h1, h2, h3⟩ := C17_progress k.good.reach op
    constructor
    · rintro ⟨r, hr⟩
      by_cases hv : th.flat.valid op
      · refine ⟨hv, fun ho => ?_⟩
        obtain ⟨x, hx⟩ := h2 hv ho; rw [hx] at hr; simp at hr
      · obtain ⟨x, hx⟩ := h3 hv; rw [hx] at hr; simp at hr
    · rintro ⟨hv, ho⟩
      obtain ⟨x, y, hx⟩ := h1 hv ho
      exact ⟨_, hx⟩
  have plain : ∀ op : Op (Seen α), (∃ r, s.plain op = .ok r) ↔ ∃ r, s.w.step op = .ok r := by
    intro op
    unfold Store.plain
    cases s.w.step op with
    | error x => simp
    | ok r => simp
  refine ⟨fun st => (plain (.newSequence st)).mpr ((base (.newSequence st)).mpr ⟨trivial, id⟩),
    (plain .newMock).mpr ((base .newMock).mpr ⟨trivial, id⟩), fun q => ?_, fun m min max tags i => ?_,
    fun e => ?_, fun e => ?_⟩
  · exact ((plain _).trans (base _)).trans ⟨fun x => x.1, fun x => ⟨x, id⟩⟩
  · refine Iff.trans ?_ (base (.expect m min max tags [asked s.w.exps.length]))
    simp only [Store.step]
    cases s.w.step (.expect m min max tags [asked s.w.exps.length]) with
    | error x => simp
    | ok r => simp
  · have hd := C17_progress k.good.reach (.destroy e)
    constructor
    · rintro ⟨⟨s', c⟩, hr⟩
      exact (C67_satisfied (pre := th) (post := []) (h.step hr)).1
    · intro hl
      obtain ⟨w', ev, hw⟩ := hd.1 hl id
      simp only [World.step, World.destroyExp] at hw
      simp only [Store.step]
      cases hx : s.w.exps[e]? with
      | none => simp [hx] at hw
      | some x =>
        simp only [hx] at hw
        cases ha : x.alive with
        | false => simp [ha] at hw
        | true => exact ⟨_, if_pos ha⟩
  · refine Iff.trans ?_ ((base (.destroy e)).trans ⟨fun x => x.1, fun x => ⟨x, id⟩⟩)
    simp only [Store.step, Store.destroy]
    cases s.w.step (.destroy e) with
    | error x => simp
    | ok r => simp

/-- C67: whatever the policies do, nothing undefined happens. -/
theorem C67_no_ub {th : OTrace σ α ρ} {s : Store σ α ρ} (h : OReach th s) (op : OOp σ α ρ) (why : String) :
    s.step op ≠ .error (.ub why) := by
  have k := reach_kept h
  have base : ∀ (op : Op (Seen α)) why, s.w.step op ≠ .error (.ub why) := by
    intro op why hc
    obtain ⟨h1, h2, h3⟩ := C17_progress k.good.reach op
    by_cases hv : th.flat.valid op
    · by_cases ho : th.flat.overflows op
      · obtain ⟨x, hx⟩ := h2 hv ho; rw [hx] at hc; simp at hc
      · obtain ⟨x, y, hx⟩ := h1 hv ho; rw [hx] at hc; simp at hc
    · obtain ⟨x, hx⟩ := h3 hv; rw [hx] at hc; simp at hc
  intro hc
  have plain : ∀ {p : Op (Seen α)}, s.plain p ≠ .error (.ub why) := by
    intro p hp
    unfold Store.plain at hp
    split at hp
    · rename_i x hx
      simp only [Except.error.injEq] at hp
      rw [hp] at hx
      exact base _ _ hx
    · simp at hp
  cases op with
  | newSequence st => exact plain (p := .newSequence st) hc
  | dropSequence q => exact plain (p := .dropSequence q) hc
  | newMock => exact plain (p := .newMock) hc
  | expect m min max tags i =>
    simp only [Store.step] at hc
    split at hc
    · rename_i x hx
      simp only [Except.error.injEq] at hc
      rw [hc] at hx
      exact base _ _ hx
    · simp at hc
  | destroy e =>
    simp only [Store.step, Store.destroy] at hc
    split at hc
    · rename_i x hx
      simp only [Except.error.injEq] at hc
      rw [hc] at hx
      exact base _ _ hx
    · simp at hc
  | ask e =>
    simp only [Store.step] at hc
    split at hc
    · simp at hc
    · split at hc <;> simp at hc
  | call m a =>
    by_cases hm : Event.mockCreated m ∈ th.flat.events
    · rcases C67_returns h hm a with ⟨s', c, hk⟩ | ⟨⟨why', hk⟩, _⟩
      · rw [hk] at hc; simp at hc
      · rw [hk] at hc; simp at hc
    · simp only [Store.step, Store.call] at hc
      split at hc
      · rename_i x hx
        simp only [Except.error.injEq] at hc
        rw [hc] at hx
        exact base (.call m (a, fun e => askAll (s.policies e) a)) why (by simp [World.step, hx, bind, Except.bind])
      all_goals
        rename_i hx
        obtain ⟨_, _, h3⟩ := C17_progress k.good.reach (.call m (a, fun e => askAll (s.policies e) a))
        obtain ⟨w, hw⟩ := h3 hm
        simp [World.step, hx, bind, Except.bind, pure, Except.pure] at hw

/-- C67: policies that keep no state and make no demands, such as those of the library, add nothing to what is known about the library:
what they say depends on the call alone, and an expectation is satisfied iff it has taken enough calls. -/
theorem C67_plain {th : OTrace σ α ρ} {s : Store σ α ρ} (h : OReach th s) {e : Nat} {i : Inner σ α ρ} (hi : th.made e = some i)
    (hp : ∀ p ∈ i.policies, Plain p) :
    (∀ m a, th.accepts m a e ↔ th.of m e ∧ Accept i.policies a) ∧
    (th.satisfied e ↔ ∃ min, th.min e = some min ∧ min ≤ (th.took e).length) := by
  obtain ⟨i', hu, _, huniq⟩ := C67_state h hi
  have hpol := hu.plain hp
  have hn : ∀ j, th.now e j ↔ j = i' := by
    intro j
    unfold OTrace.now
    rw [hi]
    constructor
    · rintro ⟨i₀, h1, h2⟩
      simp only [Option.some.injEq] at h1
      subst h1
      exact huniq j h2
    · rintro rfl
      exact ⟨i, rfl, hu⟩
  constructor
  · intro m a
    unfold OTrace.accepts
    simp only [hn, exists_eq_left, hpol]
  · unfold OTrace.satisfied
    simp only [hn, exists_eq_left, hpol]
    exact ⟨fun h => h.1, fun h => ⟨h, fun p hm => (hp p hm).2 _⟩⟩

/-! ## Examples -/

/-- What was seen of the operations of a program. -/
def seen (ops : List (OOp σ α ρ)) : List (List Event × Option ρ × Option α × Option Bool) :=
  (Store.final ops).2.map (fun st => (st.2.events, st.2.result, st.2.left, st.2.answer))

namespace Example

/-- A policy with a budget: it accepts calls that cost no more than what is left, and is satisfied when nothing is left. -/
def budget (n : Nat) : Policy Nat Nat :=
  { state := n, accepts := fun t a => some (decide (a ≤ t)), satisfied := fun t => t == 0, consume := fun t a => some (t - a, a) }

/-- A side effect as the library offers them. -/
def double : Policy Nat Nat :=
  { state := 0, accepts := fun _ _ => some true, satisfied := fun _ => true, consume := fun t a => some (t, 2 * a) }

/-- Throws when asked about 0, and when it consumes 13. -/
def touchy : Policy Nat Nat :=
  { state := 0, accepts := fun _ a => if a = 0 then none else some true, satisfied := fun _ => true,
    consume := fun t a => if a = 13 then none else some (t, a) }

/-- Returns the sum of all arguments so far. -/
def sum : Finalizer Nat Nat Nat := { state := 0, finalize := fun t a => (t + a, t + a) }

/-- examples/Finalizers.cpp 162-178 -/
def myFinalizer : Finalizer Nat Nat Nat := { state := 0, finalize := fun t _ => (t, 1337) }

def spend : List (OOp Nat Nat Nat) :=
  [.newMock, .expect 0 0 100 [] ⟨[budget 10, double], sum⟩, .call 0 4, .call 0 7, .ask 0, .call 0 6, .ask 0, .call 0 1, .destroy 0]

/-- The second call is refused, since only 6 is left by then; and the last one, since nothing is left. -/
example : seen spend = [([.mockCreated 0], none, none, none), ([.created 0], none, none, none),
    ([.fullMatch 0], some 8, some 8, none), ([.noMatch [0]], none, some 7, none), ([], none, none, some false),
    ([.fullMatch 0], some 20, some 12, none), ([], none, none, some true), ([.noMatch [0]], none, some 1, none),
    ([.destroyed 0], none, none, none)] := rfl

/-- Without the second half it is reported as unfulfilled, although no calls were required. -/
example : (seen (spend.take 4 ++ [.destroy 0])).getLast? = some ([.destroyed 0, .unfulfilled 0], none, none, none) := rfl

/-- A policy throws while it is asked: reported. -/
example : (seen [.newMock, .expect 0 1 1 [] ⟨[touchy], myFinalizer⟩, .call 0 0, .call 0 5]).drop 2 =
    [([.unhandled 0, .noMatch []], none, some 0, none), ([.fullMatch 0], some 1337, some 5, none)] := rfl

/-- A policy throws while it consumes a call: the program ends. -/
example : ∃ (th : OTrace Nat Nat Nat) (s : Store Nat Nat Nat), OReach th s ∧
    s.step (.call 0 13) = .error (.terminate "a policy throws while it consumes a call") :=
  ⟨_, _, oreach_final [.newMock, .expect 0 1 1 [] ⟨[touchy], myFinalizer⟩], rfl⟩

/-- Hypotheses of `C67_state`: the budget is what is left of it, and the finalizer has seen the doubled arguments. -/
example : ∃ (th : OTrace Nat Nat Nat) (s : Store Nat Nat Nat) (i : Inner Nat Nat Nat), OReach th s ∧ th.made 0 = some i ∧ th.took 0 = [4, 6] ∧
    (s.inner[0]?).map (fun i => (i.policies.map (·.state), i.fin.state)) = some ([0, 0], 20) :=
  ⟨_, _, ⟨[budget 10, double], sum⟩, oreach_final spend, rfl, rfl, rfl⟩

example : Plain double := ⟨fun t a t' a' h => by simp only [double, Option.some.injEq, Prod.mk.injEq] at h; exact h.1.symm, fun _ => rfl⟩

end Example

end Mimic.Own
