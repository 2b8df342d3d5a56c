import Verif.Proofs.Scopes

/-!
# Expectations from inner scopes are preferred (C66)

"In fact, mimic++ just makes the guarantee, that expectations from most inside scope will be preferred over expectations from
further outside." (`/repo/include/mimic++/Expectation.hpp` 92)
-/

set_option autoImplicit false

namespace Mimic.TestRun

variable {α : Type}

/-- C66: scopes are nested. At any time of a test, of two scoped expectations that exist one lies inside the other, and the
one that ends is the innermost one. -/
theorem C66_nested {k : Installed} {p : Prog α} {t : Env α} {x : Option Thrown} (h : test k p = .ok (t, x))
    {pre post : STrace α} {st : SEntry α} (hp : t.past = pre ++ st :: post) :
    (∀ o o', pre.exists o → pre.exists o' → o ≠ o' → pre.inside o o' ∨ pre.inside o' o) ∧
    (∀ o o', pre.inside o o' → ¬ pre.inside o' o) ∧
    (∀ o, st.op = .drop o → ∀ o', pre.exists o' → ¬ pre.inside o' o) := by
  have hr := exec_reach h .init
  obtain ⟨sw₁, sw₂, h1, h2, h3⟩ := hr.cut hp
  have key : ∀ {o o' : Nat}, pre.exists o → pre.exists o' → o < o' → pre.inside o' o := by
    intro o o' ho ho' hlt
    obtain ⟨st', hst', hs'⟩ := ho'.1
    obtain ⟨a, b, hab⟩ := List.append_of_mem hst'
    refine ⟨ho', ho, a, st', b, hab, hs', ?_⟩
    obtain ⟨sw₃, sw₄, h4, h5, h6⟩ := h1.cut hab
    refine (h4.inv.made o).mpr ?_ |> fun hm => ⟨hm, fun q hq => ho.2 q (by rw [hab]; simp [hq])⟩
    rw [(step_slot h5 hs').1] at hlt
    exact hlt
  refine ⟨fun o o' ho ho' hne => ?_, fun o o' hi hi' => ?_, fun o ho o' ho' hi => ?_⟩
  · rcases Nat.lt_or_gt_of_ne hne with hlt | hlt
    · exact .inr (key ho ho' hlt)
    · exact .inl (key ho' ho hlt)
  · have := inside_lt h1 hi
    have := inside_lt h1 hi'
    omega
  · have hlt := inside_lt h1 hi
    rcases exec_proper .init h pre st post hp (by simp [Env.start]) with hu | hu | ⟨s, hu⟩ | ⟨s, hu⟩ | ⟨o₂, hu, hall⟩
    · rw [ho] at hu
      exact absurd hu (by
        intro hu
        clear h
        induction p <;> cases hu <;> grind)
    · rw [ho] at hu; simp at hu
    · rw [ho] at hu; simp at hu
    · rw [ho] at hu; simp at hu
    · rw [ho] at hu
      simp only [SOp.drop.injEq] at hu
      have := hall o' ho'
      omega

/-- C66: in a test that keeps each expectation in the scope it was created in, expectations from inner scopes are the younger
ones. -/
theorem C66_younger {k : Installed} {p : Prog α} (hm : p.moveless) {t : Env α} {x : Option Thrown} (h : test k p = .ok (t, x))
    {pre post : STrace α} {st : SEntry α} (hp : t.past = pre ++ st :: post) {o o' e e' : Nat} (ho : pre.owns o e)
    (ho' : pre.owns o' e') : pre.inside o' o ↔ e < e' := by
  have hr := exec_reach h .init
  obtain ⟨sw₁, sw₂, h1, h2, h3⟩ := hr.cut hp
  have hmv : ∀ q ∈ pre, (∀ s, q.op ≠ .moveConstruct s) ∧ ∀ d s, q.op ≠ .moveAssign d s := by
    intro q hq
    obtain ⟨a, b, hab⟩ := List.append_of_mem hq
    have := exec_proper .init h a q (b ++ st :: post) (by rw [hp, hab]; simp) (by simp [Env.start])
    unfold Proper at this
    constructor
    · intro s hs; rw [hs] at this; simp at this; exact (hm s).1 this
    · intro d s hs; rw [hs] at this; simp at this; exact (hm s).2 d this
  constructor
  · intro hi
    exact owns_ordered h1 hmv ho ho' (inside_lt h1 hi)
  · intro hlt
    have e1 := (C37_owner h1).2.2.2 _ _ ho
    have e2 := (C37_owner h1).2.2.2 _ _ ho'
    rcases Nat.lt_trichotomy o o' with hl | rfl | hl
    · rcases (C66_nested h hp).1 o o' e1 e2 (by omega) with hi | hi
      · have := inside_lt h1 hi; omega
      · exact hi
    · have := (C37_owner h1).2.2.1 _ _ _ ho ho'; omega
    · have := owns_ordered h1 hmv ho' ho hl; omega

/-- C66, in part: if no expectation that could resolve the call is attached to more lazy than greedy sequences, and the test keeps
expectations in the scopes they were created in, then the call is resolved by the one from the innermost scope. What is missing
is false: see `C66_lazy`, `C66_bystander`, `C66_assigned` and `C66_moved`. -/
theorem C66_preferred_partial {k : Installed} {p : Prog α} (hm : p.moveless) {t : Env α} {x : Option Thrown}
    (h : test k p = .ok (t, x)) {pre : STrace α} {m : Nat} {a : α}
    (hl : ∀ e d, pre.flat.candidate m a e → pre.flat.decl e = some d →
      pre.flat.kindCount d.seqs .lazy ≤ pre.flat.kindCount d.seqs .greedy) (e e' : Nat) : ¬ Overtaken t.past pre m a e e' := by
  rintro ⟨⟨st, post, hp, hop, hf⟩, hc', o, o', ho, ho', hi⟩
  have hr := exec_reach h .init
  obtain ⟨sw₁, sw₂, h1, h2, h3⟩ := hr.cut hp
  have hlt := (C66_younger hm h hp ho ho').mp hi
  rw [hop] at h2
  simp only [SWorld.step] at h2
  split at h2
  · simp at h2
  · rename_i sw' ev exn hlib
    obtain ⟨w', hst, rfl, _⟩ := lib_eq hlib
    simp only [Except.ok.injEq, Prod.mk.injEq] at h2
    rw [← h2.2] at hf
    simp only [Trace.events, List.flatMap_cons, List.flatMap_nil, List.append_nil] at hf
    rcases C08_selection h1.inv.reach hst with ⟨hn, _⟩ | ⟨y, older, r, hyf, hch, hfm⟩
    · exact hn e' hc'
    · have hy : pre.flat.candidate m a y := (hyf.2 y).mp (by simp)
      have hmax : ∀ z, pre.flat.candidate m a z → z ≤ y := by
        intro z hz
        rcases List.mem_cons.mp ((hyf.2 z).mpr hz) with rfl | hz
        · exact Nat.le_refl _
        · have := List.pairwise_cons.mp hyf.1 |>.1 z hz
          omega
      have := C08_youngest_unless_lazy h1.inv.reach hst hy hmax (fun d hd => hl y d hy hd)
      have e1 := (hfm e).mp hf
      have e2 := (hfm y).mp this
      have := hmax e' hc'
      omega

/-- C66 without sequences. -/
theorem C66_unsequenced {k : Installed} {p : Prog α} (hm : p.moveless) {t : Env α} {x : Option Thrown}
    (h : test k p = .ok (t, x)) {pre : STrace α} {m : Nat} {a : α}
    (hs : ∀ e s, pre.flat.candidate m a e → ¬ pre.flat.attached e s) (e e' : Nat) : ¬ Overtaken t.past pre m a e e' := by
  refine C66_preferred_partial hm h (fun e d hc hd => ?_) e e'
  have : d.seqs = [] := by
    cases hds : d.seqs with
    | nil => rfl
    | cons s l => exact absurd ⟨d, hd, by rw [hds]; simp⟩ (hs e s hc)
  rw [this]
  simp [Trace.kindCount]

/-! ## Where the guarantee fails -/

namespace ScopeExamples

/-- Carries out operations one after the other, with the given reporter and without exceptions on their way. -/
def replay (k : Installed) : List (SOp Nat) → SWorld Nat × STrace Nat → Option (SWorld Nat × STrace Nat)
  | [], s => some s
  | op :: ops, s =>
    match s.1.step ⟨k.reporter, 0⟩ op with
    | .error _ => none
    | .ok (sw, log) => replay k ops (sw, s.2 ++ [⟨⟨k.reporter, 0⟩, op, log⟩])

theorem replay_reach {k : Installed} {ops : List (SOp Nat)} {s s' : SWorld Nat × STrace Nat} (h : SReach s.2 s.1)
    (hr : replay k ops s = some s') : SReach s'.2 s'.1 := by
  induction ops generalizing s with
  | nil => simp only [replay, Option.some.injEq] at hr; rw [← hr]; exact h
  | cons op ops ih =>
    simp only [replay] at hr
    split at hr
    · simp at hr
    · rename_i hs
      exact ih (h.step hs) hr

/-- The state before the call. -/
def before (k : Installed) (ops : List (SOp Nat)) : SWorld Nat × STrace Nat :=
  (replay k ops (SWorld.init, [])).getD (SWorld.init, [])

theorem before_reach (k : Installed) (ops : List (SOp Nat)) : SReach (before k ops).2 (before k ops).1 := by
  unfold before
  cases h : replay k ops (SWorld.init, []) with
  | none => exact .init
  | some s => exact replay_reach (s := (SWorld.init, [])) .init h

/-- Facts that can be computed tell that an expectation was overtaken. -/
theorem overtaken {k : Installed} {p : Prog Nat} (ops : List (SOp Nat)) {o o' e e' : Nat} (hlt : o < o')
    (hc : ∃ x ∈ (((abs (before k ops).1.w).candidates 0).filter (·.accepts 7)).filter (abs (before k ops).1.w).applicable, x.id = e')
    (ho : innerAt (before k ops).1.slots o = some e ∧ innerAt (before k ops).1.slots o' = some e')
    (ht : ∃ t st post, test k p = .ok (t, none) ∧ t.past = (before k ops).2 ++ st :: post ∧ st.op = .plain (.call 0 7) ∧
      Event.fullMatch e ∈ Trace.events st.log.lib) :
    ∃ t, test k p = .ok (t, none) ∧ Overtaken t.past (before k ops).2 0 7 e e' := by
  have hr := before_reach k ops
  obtain ⟨t, st, post, h1, h2, h3, h4⟩ := ht
  have ho1 := (hr.inv.owns o e).mpr ho.1
  have ho2 := (hr.inv.owns o' e').mpr ho.2
  refine ⟨t, h1, ⟨st, post, h2, h3, h4⟩, (hr.inv.reach.view.2.candidate_iff _ _ _).mpr hc, o, o', ho1, ho2, ?_⟩
  rcases (C66_nested h1 h2).1 o o' ((C37_owner hr).2.2.2 _ _ ho1) ((C37_owner hr).2.2.2 _ _ ho2) (by omega) with hi | hi
  · have := inside_lt hr hi; omega
  · exact hi

/-- Two optional expectations in a lazy sequence, the second one in an inner scope. -/
def lazyTest : Prog Nat :=
  .seq .mock (.sequence .lazy (.expectation 0 0 1 [0] [] (.expectation 0 0 1 [0] [] (.call 0 7))))

/-- The same with an expectation without sequences in between. -/
def bystanderTest : Prog Nat :=
  .seq .mock (.sequence .lazy (.expectation 0 0 1 [0] [] (.expectation 0 0 1 [] [] (.expectation 0 0 1 [0] [] (.call 0 7)))))

/-- The outermost of three scoped expectations is assigned the innermost one. -/
def assignedTest : Prog Nat :=
  .seq .mock (.expectation 0 0 1 [] [] (.expectation 0 0 1 [] [] (.expectation 0 0 1 [] [] (.seq (.assign 0 2) (.call 0 7)))))

/-- The outer one of two scoped expectations is moved into an inner scope. -/
def movedTest : Prog Nat :=
  .seq .mock (.expectation 0 0 1 [] [] (.expectation 0 0 1 [] [] (.moved 0 (.call 0 7))))

/-- The operations of the tests before the call. -/
def lazyOps : List (SOp Nat) := [.plain .newMock, .plain (.newSequence .lazy), .expect 0 0 1 [0] [], .expect 0 0 1 [0] []]
def bystanderOps : List (SOp Nat) :=
  [.plain .newMock, .plain (.newSequence .lazy), .expect 0 0 1 [0] [], .expect 0 0 1 [] [], .expect 0 0 1 [0] []]
def assignedOps : List (SOp Nat) :=
  [.plain .newMock, .expect 0 0 1 [] [], .expect 0 0 1 [] [], .expect 0 0 1 [] [], .moveAssign 0 2]
def movedOps : List (SOp Nat) := [.plain .newMock, .expect 0 0 1 [] [], .expect 0 0 1 [] [], .moveConstruct 0]

end ScopeExamples

open ScopeExamples

/-- C66 does not hold in general: with a lazy sequence the expectation from the outer scope is taken. -/
theorem C66_lazy (k : Installed) : lazyTest.moveless ∧
    ∃ t pre, test k lazyTest = .ok (t, none) ∧ Overtaken t.past pre 0 7 0 1 := by
  refine ⟨fun src => ⟨fun h => ?_, fun dst h => ?_⟩, ?_⟩
  · cases h with
    | seqLeft h => cases h
    | seqRight h => cases h with | sequence h => cases h with | inExpectation h => cases h with | inExpectation h => cases h
  · cases h with
    | seqLeft h => cases h
    | seqRight h => cases h with | sequence h => cases h with | inExpectation h => cases h with | inExpectation h => cases h
  · have : ∃ t, test k lazyTest = .ok (t, none) ∧ Overtaken t.past (before k lazyOps).2 0 7 0 1 := by
      cases k with
      | default out =>
        cases out <;> exact overtaken (o := 0) (o' := 1) lazyOps (by omega) ⟨_, .head _, rfl⟩ ⟨rfl, rfl⟩ ⟨_, _, _, rfl, rfl, rfl, by decide⟩
      | adapter f =>
        cases f <;> exact overtaken (o := 0) (o' := 1) lazyOps (by omega) ⟨_, .head _, rfl⟩ ⟨rfl, rfl⟩ ⟨_, _, _, rfl, rfl, rfl, by decide⟩
    exact ⟨_, _, this.choose_spec⟩

/-- C66 does not hold in general: the expectation that is passed over (here number 1) need not be attached to any sequence. -/
theorem C66_bystander (k : Installed) : bystanderTest.moveless ∧
    ∃ t pre, test k bystanderTest = .ok (t, none) ∧ Overtaken t.past pre 0 7 0 1 ∧ ∀ s, ¬ pre.flat.attached 1 s := by
  refine ⟨fun src => ⟨fun h => ?_, fun dst h => ?_⟩, ?_⟩
  · cases h with
    | seqLeft h => cases h
    | seqRight h =>
      cases h with | sequence h => cases h with | inExpectation h => cases h with | inExpectation h => cases h with
        | inExpectation h => cases h
  · cases h with
    | seqLeft h => cases h
    | seqRight h =>
      cases h with | sequence h => cases h with | inExpectation h => cases h with | inExpectation h => cases h with
        | inExpectation h => cases h
  · have : ∃ t, test k bystanderTest = .ok (t, none) ∧ Overtaken t.past (before k bystanderOps).2 0 7 0 1 := by
      cases k with
      | default out =>
        cases out <;> exact overtaken (o := 0) (o' := 1) bystanderOps (by omega) ⟨_, .tail _ (.head _), rfl⟩ ⟨rfl, rfl⟩
          ⟨_, _, _, rfl, rfl, rfl, by decide⟩
      | adapter f =>
        cases f <;> exact overtaken (o := 0) (o' := 1) bystanderOps (by omega) ⟨_, .tail _ (.head _), rfl⟩ ⟨rfl, rfl⟩
          ⟨_, _, _, rfl, rfl, rfl, by decide⟩
    obtain ⟨t, h1, h2⟩ := this
    refine ⟨t, _, h1, h2, ?_⟩
    rintro s ⟨d, hd, hs⟩
    have h3 : (before k bystanderOps).2.flat.decl 1 = some ⟨0, 0, 1, [], []⟩ := by
      cases k with
      | default out => cases out <;> rfl
      | adapter f => cases f <;> rfl
    rw [h3] at hd
    injection hd with hd
    rw [← hd] at hs
    simp at hs

/-- C66 does not hold in general: an expectation that was assigned to an object of an outer scope keeps its preference. -/
theorem C66_assigned (k : Installed) : ∃ t pre, test k assignedTest = .ok (t, none) ∧ Overtaken t.past pre 0 7 2 1 := by
  have : ∃ t, test k assignedTest = .ok (t, none) ∧ Overtaken t.past (before k assignedOps).2 0 7 2 1 := by
    cases k with
    | default out =>
      cases out <;> exact overtaken (o := 0) (o' := 1) assignedOps (by omega) ⟨_, .tail _ (.head _), rfl⟩ ⟨rfl, rfl⟩
        ⟨_, _, _, rfl, rfl, rfl, by decide⟩
    | adapter f =>
      cases f <;> exact overtaken (o := 0) (o' := 1) assignedOps (by omega) ⟨_, .tail _ (.head _), rfl⟩ ⟨rfl, rfl⟩
        ⟨_, _, _, rfl, rfl, rfl, by decide⟩
  exact ⟨_, _, this.choose_spec⟩

/-- C66 does not hold in general: an expectation that was moved into an inner scope is not preferred there. -/
theorem C66_moved (k : Installed) : ∃ t pre, test k movedTest = .ok (t, none) ∧ Overtaken t.past pre 0 7 1 0 := by
  have : ∃ t, test k movedTest = .ok (t, none) ∧ Overtaken t.past (before k movedOps).2 0 7 1 0 := by
    cases k with
    | default out =>
      cases out <;> exact overtaken (o := 1) (o' := 2) movedOps (by omega) ⟨_, .tail _ (.head _), rfl⟩ ⟨rfl, rfl⟩
        ⟨_, _, _, rfl, rfl, rfl, by decide⟩
    | adapter f =>
      cases f <;> exact overtaken (o := 1) (o' := 2) movedOps (by omega) ⟨_, .tail _ (.head _), rfl⟩ ⟨rfl, rfl⟩
        ⟨_, _, _, rfl, rfl, rfl, by decide⟩
  exact ⟨_, _, this.choose_spec⟩

/-! ## Non-vacuity -/

/-- Two overlapping expectations without sequences: `C66_preferred_partial`, `C66_unsequenced` and `C66_younger` speak of tests
like this one, in which the inner expectation resolves the call although the outer one could. -/
example : ∃ t st, test (.adapter .catch2) (.seq .mock (.expectation 0 0 1 [] [] (.expectation 0 0 1 [] [] (.call 0 7)))) =
      .ok (t, none) ∧ t.past[3]? = some st ∧ st.op = .plain (.call 0 7) ∧ Event.fullMatch 1 ∈ Trace.events st.log.lib ∧
    ∃ x ∈ (((abs (before (.adapter .catch2) [.plain .newMock, .expect 0 0 1 [] [], .expect 0 0 1 [] []]).1.w).candidates 0).filter
      (·.accepts 7)).filter (abs (before (.adapter .catch2) [.plain .newMock, .expect 0 0 1 [] [], .expect 0 0 1 [] []]).1.w).applicable,
      x.id = 0 :=
  ⟨_, _, rfl, rfl, rfl, by decide, ⟨_, .tail _ (.head _), rfl⟩⟩

/-- `C66_nested`: a test with scopes inside each other and after each other. -/
example : ∃ t, test (.adapter .catch2) (.seq .mock (.expectation 0 0 1 [] [] (.seq (.expectation 0 0 1 [] [] .skip)
    (.moved 0 (.call 0 7))))) = .ok (t, none) ∧ t.past.length = 8 := ⟨_, rfl, rfl⟩

end Mimic.TestRun
