import Verif.Proofs.NestedReturns
import Verif.Proofs.LockOrder
import Verif.Props.Selection

/-!
# C60: matchers that call mocks
-/

set_option autoImplicit false

namespace Mimic.Nested

variable {α : Type}

/-- Matchers only call mocks that exist. -/
def NTrace.existing (nh : NTrace α) : Prop :=
  ∀ m min max tags asks tr, (NOp.expect m min max tags asks, tr) ∈ nh → ∀ p ∈ asks, ∀ a,
    Ask.Only (fun k => Event.mockCreated k ∈ nh.flat.events) (p a)

/-- C60: as long as matchers only call mocks of lower layers, and sequences do not connect layers, the library behaves as if the
calls came one after the other, in the order in which they end: what happens is a history in the sense of `Reach`, so that all
theorems about those apply to it. The full claim, for all programs, is false: see `C60_relock`, `C60_stale_assert` and
`C60_stale_inapplicable`. -/
theorem C60_flat_partial {rank srank : Nat → Nat} {nh : NTrace α} {s : Store α} (h : NReach nh s) (hl : nh.layered rank srank) :
    Reach nh.flat s.w := (reach_good h hl).1.reach

/-- C60: in such programs, each call is carried out as described by `Made`: the living expectations of the mock are asked, the
youngest first and each matcher of each once, unless one of the same expectation threw before; nested calls are
carried out the same way, where and when the matchers make them; and the history contains just these calls. -/
theorem C60_explained {rank srank : Nat → Nat} {pre post : NTrace α} {s : Store α} {m : Nat} {a : α} {tr : Trace (Seen α)}
    (h : NReach (pre ++ (.call m a, tr) :: post) s) (hl : NTrace.layered rank srank (pre ++ (.call m a, tr) :: post)) :
    ∃ r, Made pre.matchers pre.flat m a tr r := by
  obtain ⟨s₀, s₁, h0, h1⟩ := h.split
  have hl0 : NTrace.layered rank srank pre := fun st hst => hl st (by simp [hst])
  have g := (reach_good h0 hl0).1
  simp only [Store.step] at h1
  split at h1
  · simp at h1
  · rename_i s' tr' r hc
    simp only [Except.ok.injEq, Prod.mk.injEq] at h1
    obtain ⟨rfl, rfl⟩ := h1
    refine ⟨r, ?_⟩
    rw [← reach_matchers h0 hl0]
    exact ((call_ok (rank := rank) (srank := srank) _ [] (rank m + 1) (by simp) pre.flat s₀ m a g
      (Nat.lt_succ_self _)).2 _ _ _ hc).2.2

/-- C60: and what the matchers said is what decides: a call with arguments `a`, about which `f` was said, can be resolved by the
living expectations of the mock whose matchers all accepted it and whose turn it is. -/
theorem C60_candidate {rank srank : Nat → Nat} {nh : NTrace α} {s : Store α} (h : NReach nh s) (hl : nh.layered rank srank)
    (m : Nat) (a : α) (f : Nat → Option Bool) (e : Nat) :
    nh.flat.candidate m (a, f) e ↔
      nh.flat.live e ∧ (∃ d, nh.flat.decl e = some d ∧ d.mock = m) ∧ f e = some true ∧ nh.flat.applicable e := by
  have g := (reach_good h hl).1
  unfold Trace.candidate Trace.accepts
  constructor
  · rintro ⟨⟨h1, d, hd, hm, hp⟩, h2⟩
    refine ⟨h1, ⟨d, hd, hm⟩, ?_, h2⟩
    have := hp (asked e) (by rw [(g.decl e d hd).1]; simp)
    exact this
  · rintro ⟨h1, ⟨d, hd, hm⟩, hf, h2⟩
    refine ⟨⟨h1, d, hd, hm, ?_⟩, h2⟩
    rw [(g.decl e d hd).1]
    intro p hp
    simp only [List.mem_singleton] at hp
    subst hp
    exact hf

/-- C60: in such programs no assertion fails and nothing undefined happens. -/
theorem C60_defined {rank srank : Nat → Nat} {nh : NTrace α} {s : Store α} (h : NReach nh s) (hl : nh.layered rank srank)
    (op : NOp α) (why : String) : s.step op ≠ .error (.ub why) := by
  have g := (reach_good h hl).1
  have key : ∀ p : Op (Seen α), s.w.step p ≠ .error (.ub why) := by
    intro p hp
    obtain ⟨h1, h2, h3⟩ := C17_progress g.reach p
    by_cases hv : nh.flat.valid p
    · by_cases ho : nh.flat.overflows p
      · obtain ⟨w, hw⟩ := h2 hv ho
        rw [hw] at hp
        simp at hp
      · obtain ⟨w, ev, hw⟩ := h1 hv ho
        rw [hw] at hp
        simp at hp
    · obtain ⟨w, hw⟩ := h3 hv
      rw [hw] at hp
      simp at hp
  have plain : ∀ p : Op (Seen α), s.plain p ≠ .error (.ub why) := by
    intro p hp
    unfold Store.plain at hp
    split at hp
    · rename_i hw
      simp only [Except.error.injEq] at hp
      subst hp
      exact key p hw
    · simp at hp
  cases op with
  | newSequence st => exact plain (.newSequence st)
  | dropSequence q => exact plain (.dropSequence q)
  | newMock => exact plain .newMock
  | destroy e => exact plain (.destroy e)
  | expect m min max tags asks =>
    intro hp
    simp only [Store.step] at hp
    split at hp
    · rename_i hw
      simp only [Except.error.injEq] at hp
      subst hp
      exact key _ hw
    · simp at hp
  | call m a =>
    intro hp
    simp only [Store.step] at hp
    split at hp
    · rename_i hc
      simp only [Except.error.injEq] at hp
      subst hp
      obtain ⟨w, hw⟩ := (call_ok (rank := rank) (srank := srank) _ [] (rank m + 1) (by simp) nh.flat s m a g
        (Nat.lt_succ_self _)).1 _ hc
      simp at hw
    · simp at hp

/-- C60: in such programs every call of an existing mock comes to an end, if the matchers also only call mocks that exist. -/
theorem C60_returns {rank srank : Nat → Nat} {nh : NTrace α} {s : Store α} (h : NReach nh s) (hl : nh.layered rank srank)
    (he : nh.existing) {m : Nat} (hm : Event.mockCreated m ∈ nh.flat.events) (a : α) : ∃ s' tr, s.step (.call m a) = .ok (s', tr) := by
  have g := (reach_good h hl).1
  have k := reach_kept h
  have mocks := g.reach.view.2.mocks
  have hw : Within s.w.colls.length s := by
    refine ⟨rfl, fun e p hp a => ?_⟩
    rw [k.matchers] at hp
    obtain ⟨m', min, max, tags, asks, tr, h1, h2⟩ := matchers_source hp
    have := he m' min max tags asks tr h1 p h2 a
    have hP : (fun k => Event.mockCreated k ∈ nh.flat.events) = (· < s.w.colls.length) := by
      funext k
      exact propext (mocks k)
    rwa [hP] at this
  simp only [Store.step]
  split
  · rename_i x hc
    obtain ⟨why, rfl⟩ := (call_ok (rank := rank) (srank := srank) _ [] (rank m + 1) (by simp) nh.flat s m a g
      (Nat.lt_succ_self _)).1 _ hc
    exact absurd hc (call_nc _ [] _ (by simp) (by simp) (by simp) s m a hw ((mocks m).mp hm) why)
  · exact ⟨_, _, rfl⟩

/-- C60: whatever the matchers do: while a call of a mock is under way, no other call of the same mock ends. So a matcher cannot
get an answer from its own mock, directly or through others. -/
theorem C60_back {pre post : NTrace α} {s : Store α} {m : Nat} {a : α} {tr : Trace (Seen α)}
    (h : NReach (pre ++ (.call m a, tr) :: post) s) :
    ∃ before f ev, tr = before ++ [(.call m (a, f), ev)] ∧ ∀ st ∈ before, ∃ k c, st.1 = .call k c ∧ k ≠ m := by
  obtain ⟨s₀, s₁, _, h1⟩ := h.split
  simp only [Store.step] at h1
  split at h1
  · simp at h1
  · rename_i s' tr' r hc
    simp only [Except.ok.injEq, Prod.mk.injEq] at h1
    obtain ⟨rfl, rfl⟩ := h1
    obtain ⟨before, f, ev, h2, h3, _⟩ := call_back hc
    exact ⟨before, f, ev, h2, fun st hst => (h3 st hst).1⟩

/-- C60: whatever the matchers do, calls are never nested deeper than there are mocks: the bound on the depth in the model has no
effect. -/
theorem C60_ends (s : Store α) (m : Nat) (a : α) :
    s.step (.call m a) ≠ .error (.client "nested deeper than there are mocks") := by
  intro h
  simp only [Store.step] at h
  split at h
  · rename_i hc
    simp only [Except.error.injEq] at h
    subst h
    exact call_shallow _ [] _ (by simp) (by simp) (by simp) s m a rfl hc
  · simp at h

/-- C60: if the first matcher of a living expectation reacts to a call by calling the same mock again, then that call of the mock
never returns. -/
theorem C60_relock {nh : NTrace α} {s : Store α} (h : NReach nh s) {m e : Nat} {a a' : α} {d : Decl (Seen α)}
    (hl : nh.flat.live e) (hd : nh.flat.decl e = some d) (hm : d.mock = m) {p : α → Ask α} {ps : List (α → Ask α)}
    (hp : nh.matchers e = p :: ps) {next : Option Nat → Ask α} (hpa : p a = .call m a' next) :
    ¬ ∃ s' tr, s.step (.call m a) = .ok (s', tr) := by
  rintro ⟨s', tr, hs⟩
  simp only [Store.step] at hs
  split at hs
  · simp at hs
  · rename_i r hc
    exact call_relock (reach_kept h) hl hd hm hp hpa _ hc

/-! ## Several threads -/

/-- C60: if matchers only call mocks of lower layers, then in whatever order several threads proceed, they never all wait for each
other: as long as one of them is not finished, one of them can go on. -/
theorem C60_no_deadlock {rank : Nat → Nat} {Asks : Nat → α → List (Ask α) → Prop} (ho : Ordered rank Asks) (ha : Answered Asks)
    {ts : List (Thread α)} (h : LReach Asks ts) (hf : ∃ t ∈ ts, ¬ t.finished) : ∃ ts', LStep Asks ts ts' := no_deadlock ho ha h hf

/-- C60: and they cannot go on for ever: every schedule ends, and by `C60_no_deadlock` it ends with all calls having returned. -/
theorem C60_all_return {rank : Nat → Nat} {Asks : Nat → α → List (Ask α) → Prop} (ho : Ordered rank Asks)
    (f : Nat → List (Thread α)) (h : LReach Asks (f 0)) : ∃ n, ¬ LStep Asks (f n) (f (n + 1)) := by
  have := no_infinite (all_acc (h.acc ho)) f rfl
  simp only [Classical.not_forall] at this
  obtain ⟨n, hn⟩ := this
  exact ⟨n, fun hs => hn hs.any⟩

/-- C60: whatever the matchers do, the expectations of one mock are not asked by two threads at the same time. -/
theorem C60_exclusive {Asks : Nat → α → List (Ask α) → Prop} {ts : List (Thread α)} (h : LReach Asks ts) {i j : Nat} {t u : Thread α}
    (hi : ts[i]? = some t) (hj : ts[j]? = some u) {m : Nat} (ht : t.locks m) (hu : u.locks m) : i = j := by
  have hn := exclusive h
  clear h
  induction ts generalizing i j with
  | nil => simp at hi
  | cons v ts ih =>
    simp only [List.flatMap_cons, List.nodup_append] at hn
    obtain ⟨_, h2, h3⟩ := hn
    cases i with
    | zero =>
      cases j with
      | zero => rfl
      | succ j =>
        simp only [List.getElem?_cons_zero, Option.some.injEq] at hi
        simp only [List.getElem?_cons_succ] at hj
        subst hi
        exact absurd rfl (h3 m (locks_iff.mp ht) m (List.mem_flatMap.mpr ⟨u, List.mem_of_getElem? hj, locks_iff.mp hu⟩))
    | succ i =>
      cases j with
      | zero =>
        simp only [List.getElem?_cons_zero, Option.some.injEq] at hj
        simp only [List.getElem?_cons_succ] at hi
        subst hj
        exact absurd rfl (h3 m (locks_iff.mp hu) m (List.mem_flatMap.mpr ⟨t, List.mem_of_getElem? hi, locks_iff.mp ht⟩))
      | succ j =>
        simp only [List.getElem?_cons_succ] at hi hj
        rw [ih hi hj h2]

/-! ## Examples -/

/-- Runs a program and records the history. -/
def Store.record (s : Store α) : List (NOp α) → M (Store α × NTrace α)
  | [] => .ok (s, [])
  | op :: ops =>
    match s.step op with
    | .error x => .error x
    | .ok (s', tr) =>
      match s'.record ops with
      | .error x => .error x
      | .ok (s'', nh) => .ok (s'', (op, tr) :: nh)

theorem record_nreach (ops : List (NOp α)) : ∀ {nh nh' : NTrace α} {s s' : Store α}, NReach nh s →
    s.record ops = .ok (s', nh') → NReach (nh ++ nh') s' := by
  induction ops with
  | nil =>
    intro nh nh' s s' h hr
    simp only [Store.record, Except.ok.injEq, Prod.mk.injEq] at hr
    obtain ⟨rfl, rfl⟩ := hr
    simpa using h
  | cons op ops ih =>
    intro nh nh' s s' h hr
    simp only [Store.record] at hr
    split at hr
    · simp at hr
    · rename_i hs
      split at hr
      · simp at hr
      · rename_i hk
        simp only [Except.ok.injEq, Prod.mk.injEq] at hr
        obtain ⟨rfl, rfl⟩ := hr
        have := ih (h.step hs) hk
        simpa using this

/-- The state and the history a program ends with (the fresh state if it does not survive). -/
def Store.final (ops : List (NOp α)) : Store α × NTrace α :=
  match Store.init.record ops with
  | .ok r => r
  | .error _ => (Store.init, [])

theorem nreach_final (ops : List (NOp α)) : NReach (Store.final ops).2 (Store.final ops).1 := by
  unfold Store.final
  cases h : (Store.init : Store α).record ops with
  | error x => exact .init
  | ok r =>
    have := record_nreach ops .init h
    simpa using this

/-- Accepts what mock `m` accepts. -/
def like (m : Nat) : Nat → Ask Nat := fun a => .call m a (fun r => .answer r.isSome)

/-- Accepts `x`. -/
def only (x : Nat) : Nat → Ask Nat := fun a => .answer (a == x)

/-- The matcher of an expectation of mock 1 asks mock 0, which accepts 5 up to two times. -/
def layersDemo : List (NOp Nat) :=
  [.newSequence .lazy, .newMock, .newMock, .expect 0 0 2 [] [only 5], .expect 1 1 9 [0] [like 0], .call 1 4, .call 1 5]

theorem layersDemo_layered : NTrace.layered (fun m => m) (fun _ => 1) (Store.final layersDemo).2 := by
  intro st hst
  have : (Store.final layersDemo).2.map (·.1) = layersDemo := rfl
  have hm : st.1 ∈ layersDemo := this ▸ List.mem_map.mpr ⟨st, hst, rfl⟩
  revert hm
  generalize st.1 = op
  intro hm
  simp only [layersDemo, List.mem_cons, List.not_mem_nil, or_false] at hm
  rcases hm with rfl | rfl | rfl | rfl | rfl | rfl | rfl
  · trivial
  · trivial
  · trivial
  · exact ⟨by simp, by intro p hp a; simp only [List.mem_singleton] at hp; subst hp; exact .answer⟩
  · exact ⟨by simp, by
      intro p hp a
      simp only [List.mem_singleton] at hp
      subst hp
      exact .call (by simp) fun _ => .answer⟩
  · trivial
  · trivial

theorem layersDemo_existing : (Store.final layersDemo).2.existing := by
  intro m min max tags asks tr hst p hp a
  have : (Store.final layersDemo).2.map (·.1) = layersDemo := rfl
  have hm : NOp.expect m min max tags asks ∈ layersDemo := this ▸ List.mem_map.mpr ⟨_, hst, rfl⟩
  simp only [layersDemo, List.mem_cons, List.not_mem_nil, or_false, reduceCtorEq, false_or, NOp.expect.injEq] at hm
  rcases hm with ⟨_, _, _, _, rfl⟩ | ⟨_, _, _, _, rfl⟩
  · simp only [List.mem_singleton] at hp; subst hp; exact .answer
  · simp only [List.mem_singleton] at hp
    subst hp
    exact .call (by decide) fun _ => .answer

/-- What is observed: both calls of mock 1 lead to a call of mock 0 first. -/
example : (Store.final layersDemo).2.flat.events =
    [.sequenceCreated 0 .lazy, .mockCreated 0, .mockCreated 1, .created 0, .created 1,
      .noMatch [0], .noMatch [1], .fullMatch 0, .fullMatch 1] := rfl

example : Reach (Store.final layersDemo).2.flat (Store.final layersDemo).1.w :=
  C60_flat_partial (nreach_final _) layersDemo_layered

example : ∃ s' tr, (Store.final layersDemo).1.step (.call 1 5) = .ok (s', tr) :=
  C60_returns (nreach_final _) layersDemo_layered layersDemo_existing (by decide) 5

/-- The last call of the program is one to which `C60_explained` and `C60_back` apply. -/
example : ∃ pre tr, (Store.final layersDemo).2 = pre ++ [(.call 1 5, tr)] ∧ tr.length = 2 :=
  ⟨(Store.final layersDemo).2.take 6, ((Store.final layersDemo).2.drop 6).flatMap (·.2), rfl, rfl⟩

/-- A matcher that asks its own mock. -/
def selfish : List (NOp Nat) := [.newMock, .expect 0 0 9 [] [like 0]]

example : ¬ ∃ s' tr, (Store.final selfish).1.step (.call 0 5) = .ok (s', tr) :=
  C60_relock (nreach_final _) (e := 0) (d := ⟨0, 0, 9, [], [asked 0]⟩) ⟨⟨_, rfl⟩, by decide⟩ rfl rfl rfl rfl

/-- C60: such a call locks a mutex that its thread has locked already. -/
theorem C60_relock_ub : (Store.final selfish).1.step (.call 0 5) = .error (.ub "a std::mutex is locked twice by one thread") := by rfl

/-- Matchers of one mock ask the other, and vice versa. -/
def crossed : List (NOp Nat) := [.newMock, .newMock, .expect 0 0 9 [] [like 1], .expect 1 0 9 [] [like 0]]

/-- C60: the same through a second mock. -/
theorem C60_relock_through : (Store.final crossed).1.step (.call 0 5) = .error (.ub "a std::mutex is locked twice by one thread") := by rfl

/-- Calls mock `m` but does not care. -/
def nudge (m : Nat) (b : Bool) : Nat → Ask Nat := fun a => .call m a (fun _ => .answer b)

/-- A sequence that connects layers: the second expectation of mock 0 is followed by one of mock 1. While a call of mock 0 is looked
at, the older expectation of mock 0 (which is asked later) calls mock 1. -/
def staleDemo : List (NOp Nat) :=
  [.newSequence .lazy, .newMock, .newMock, .expect 0 0 9 [] [nudge 1 false], .expect 0 0 1 [0] [only 5], .expect 1 0 1 [0] [only 5]]

/-- C60: the answers of a first expectation can be outdated when the last one has been asked. Here the sequence has moved on
meanwhile, and an assertion of the library fails. -/
theorem C60_stale_assert : (Store.final staleDemo).1.step (.call 0 5) =
    .error (.ub "ControlPolicy::consume: assert(is_applicable())") := by rfl

/-- The program is layered but for its sequence. -/
example : ∀ op ∈ staleDemo, ∀ m min max tags asks, op = .expect m min max tags asks → ∀ p ∈ asks, ∀ a,
    Ask.Below (fun m => 1 - m) (1 - m) (p a) := by
  intro op hop m min max tags asks h p hp a
  simp only [staleDemo, List.mem_cons, List.not_mem_nil, or_false] at hop
  rcases hop with rfl | rfl | rfl | rfl | rfl | rfl <;> simp only [reduceCtorEq, NOp.expect.injEq] at h
  · obtain ⟨rfl, rfl, rfl, rfl, rfl⟩ := h
    simp only [List.mem_singleton] at hp
    subst hp
    exact .call (by simp) fun _ => .answer
  · obtain ⟨rfl, rfl, rfl, rfl, rfl⟩ := h
    simp only [List.mem_singleton] at hp
    subst hp
    exact .answer
  · obtain ⟨rfl, rfl, rfl, rfl, rfl⟩ := h
    simp only [List.mem_singleton] at hp
    subst hp
    exact .answer

/-- The first step of the sequence is a call of mock 1, which the matcher of the second step makes. -/
def staleDemo' : List (NOp Nat) :=
  [.newSequence .lazy, .newMock, .newMock, .expect 1 1 1 [0] [only 5], .expect 0 1 1 [0] [nudge 1 true]]

/-- C60: or a call is reported as inapplicable although, when it has been looked at, an expectation could resolve it: here
expectation 1, because expectation 0 has been satisfied meanwhile. -/
theorem C60_stale_inapplicable : ∃ s' c₁ c₂, (Store.final staleDemo').1.step (.call 0 5) =
      .ok (s', [(.call 1 c₁, [.fullMatch 0]), (.call 0 c₂, [.inapplicable [1]])]) ∧
    Trace.candidate ((Store.final staleDemo').2.flat ++ [(.call 1 c₁, [.fullMatch 0])]) 0 c₂ 1 := by
  refine ⟨_, (5, look [(0, some true)]), (5, look [(1, some true)]), rfl, ?_⟩
  have hr := reach_final [Op.newSequence .lazy, .newMock, .newMock, .expect 1 1 1 [0] [asked 0], .expect 0 1 1 [0] [asked 1],
    .call 1 ((5, look [(0, some true)]) : Seen Nat)]
  obtain ⟨m, c, hop, h1, h2⟩ := fullMatch_source hr (op := .call 0 (5, look [(1, some true)])) (ev := [.fullMatch 1]) (e := 1) (by rfl)
    (by simp)
  simp only [Op.call.injEq] at hop
  obtain ⟨rfl, rfl⟩ := hop
  exact ⟨h1, h2⟩

/-- Two threads, two mocks, and matchers that ask the other mock. -/
def crossAsks (m : Nat) (a : Nat) (ps : List (Ask Nat)) : Prop := ps = [like (1 - m) a]

/-- C60: if matchers call each other's mocks, two threads may wait for each other for ever. -/
theorem C60_deadlock : ∃ ts : List (Thread Nat), LReach crossAsks ts ∧ (∃ t ∈ ts, ¬ t.finished) ∧ ¬ ∃ ts', LStep crossAsks ts ts' := by
  refine ⟨[⟨[(0, [like 1 5])], []⟩, ⟨[(1, [like 0 5])], []⟩], ?_, ⟨_, List.mem_cons_self .., by simp [Thread.finished]⟩, ?_⟩
  · have h0 : LReach crossAsks [⟨[], [(0, 5)]⟩, ⟨[], [(1, 5)]⟩] := .start [[(0, 5)], [(1, 5)]]
    have h1 : LReach crossAsks [⟨[(0, [like 1 5])], []⟩, ⟨[], [(1, 5)]⟩] :=
      h0.step (.go (pre := []) (.enter rfl) (by simp [Thread.locks]))
    exact h1.step (.go (pre := [_]) (post := []) (.enter rfl) (by
      intro m a hw u hu
      simp only [Thread.wants, Option.some.injEq, Prod.mk.injEq] at hw
      obtain ⟨rfl, rfl⟩ := hw
      simp only [List.cons_append, List.nil_append, List.mem_cons, List.not_mem_nil, or_false] at hu
      rcases hu with rfl | rfl <;> simp [Thread.locks]))
  · rintro ⟨ts', h⟩
    generalize hts : [(⟨[(0, [like 1 5])], []⟩ : Thread Nat), ⟨[(1, [like 0 5])], []⟩] = ts at h
    cases h with
    | @go pre post t t' ht hfree =>
      have hmem : t ∈ [(⟨[(0, [like 1 5])], []⟩ : Thread Nat), ⟨[(1, [like 0 5])], []⟩] := by rw [hts]; simp
      rw [← hts] at hfree
      simp only [List.mem_cons, List.not_mem_nil, or_false] at hmem
      rcases hmem with rfl | rfl
      · exact hfree 1 5 rfl ⟨[(1, [like 0 5])], []⟩ (by simp) ⟨_, by simp; rfl⟩
      · exact hfree 0 5 rfl ⟨[(0, [like 1 5])], []⟩ (by simp) ⟨_, by simp; rfl⟩

/-- Several threads call two mocks; the matchers of the upper one ask the lower one. -/
def towerAsks (m : Nat) (a : Nat) (ps : List (Ask Nat)) : Prop := ps = if m = 0 then [only 5 a] else [like (m - 1) a, only 5 a]

theorem towerAsks_ordered : Ordered (fun m => m) towerAsks := by
  intro m a ps h p hp
  unfold towerAsks at h
  subst h
  split at hp
  · simp only [List.mem_singleton] at hp
    subst hp
    exact .answer
  · simp only [List.mem_cons, List.not_mem_nil, or_false] at hp
    rcases hp with rfl | rfl
    · exact .call (by change m - 1 < m; omega) fun _ => .answer
    · exact .answer

theorem towerAsks_answered : Answered towerAsks := fun _ _ => ⟨_, rfl⟩

example : ∃ ts', LStep towerAsks [⟨[], [(3, 5)]⟩, ⟨[], [(7, 4), (2, 5)]⟩] ts' :=
  C60_no_deadlock towerAsks_ordered towerAsks_answered (.start [[(3, 5)], [(7, 4), (2, 5)]])
    ⟨_, List.mem_cons_self .., by simp [Thread.finished]⟩

/-- Two threads that are inside calls. -/
example : ∃ ts, LReach towerAsks ts ∧ ∃ t u, ts = [t, u] ∧ t.locks 3 ∧ u.locks 7 := by
  have h0 : LReach towerAsks [⟨[], [(3, 5)]⟩, ⟨[], [(7, 4)]⟩] := .start [[(3, 5)], [(7, 4)]]
  have h1 : LReach towerAsks [⟨[(3, [like 2 5, only 5 5])], []⟩, ⟨[], [(7, 4)]⟩] :=
    h0.step (.go (pre := []) (.enter rfl) (by simp [Thread.locks]))
  have h2 := h1.step (.go (pre := [_]) (post := []) (.enter rfl) (by
      intro m a hw u hu
      simp only [Thread.wants, Option.some.injEq, Prod.mk.injEq] at hw
      obtain ⟨rfl, rfl⟩ := hw
      simp only [List.cons_append, List.nil_append, List.mem_cons, List.not_mem_nil, or_false] at hu
      rcases hu with rfl | rfl <;> simp [Thread.locks]))
  exact ⟨_, h2, _, _, rfl, ⟨_, List.mem_cons_self ..⟩, ⟨_, List.mem_cons_self ..⟩⟩

end Mimic.Nested
