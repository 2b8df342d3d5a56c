import Verif.Proofs.Library
import Verif.Props.Touch
import Verif.Props.Own

/-!
# C68: requirements count only for what they say; and histories with requirements of special kinds that behave (C60, C64, C67)
-/

set_option autoImplicit false

namespace Mimic

variable {α β : Type}

/-- C68: if two histories differ only in the requirements of expectations and the arguments of calls, and the requirements of the living
expectations of a mock say the same whenever it is called, then the library can produce one of them iff it can produce the other. -/
theorem C68_histories {tr : Trace α} {tr' : Trace β} (h : Alike tr tr') : (∃ w, Reach tr w) ↔ ∃ w', Reach tr' w' := by
  constructor
  · rintro ⟨w, hw⟩
    obtain ⟨v, hv, _⟩ := h.reach hw
    exact ⟨v, hv⟩
  · rintro ⟨w, hw⟩
    obtain ⟨v, hv, _⟩ := h.symm.reach hw
    exact ⟨v, hv⟩

/-- C68: two programs that differ only in requirements that mean the same do the same: all reports and exceptions are the same, and if
one of them breaks off, the other does for the same reason. -/
theorem C68_programs {R : α → β → Prop} {ops : List (Op α)} {ops' : List (Op β)} (h : Program.Same R ops ops') :
    (runProgram ops).map (·.2) = (runProgram ops').map (·.2) := by
  have := run_same h .init .init .init ⟨rfl, rfl, rfl⟩ (fun e d d' hd => by simp [Trace.decl] at hd)
  unfold runProgram
  generalize hr : World.init.run ops = r at this
  generalize hr' : World.init.run ops' = r' at this
  cases this with
  | ok h => simp only [Except.map, h]
  | error x => rfl

/-- Each program means the same as itself. -/
theorem Program.Same.refl (ops : List (Op α)) : Program.Same Eq ops ops := by
  have hp : ∀ ps : List (Policy α), Policy.Same Eq ps ps := fun ps => ⟨rfl, fun a a' h => by rw [h]⟩
  induction ops with
  | nil => exact .nil
  | cons op ops ih =>
    cases op with
    | newSequence st => exact .newSequence st ih
    | dropSequence s => exact .dropSequence s ih
    | newMock => exact .newMock ih
    | expect m min max tags ps => exact .expect m min max tags (hp ps) ih
    | call m a => exact .call m rfl ih
    | destroy e => exact .destroy e ih

/-- C68: the requirements of an expectation may be replaced by ones that mean the same, wherever it is created. -/
theorem C68_replace {ps ps' : List (Policy α)} (h : Policy.Same Eq ps ps') (before after : List (Op α)) (m : Nat) (min max : Int)
    (tags : List Nat) :
    (runProgram (before ++ .expect m min max tags ps :: after)).map (·.2) =
      (runProgram (before ++ .expect m min max tags ps' :: after)).map (·.2) := by
  refine C68_programs (R := Eq) ?_
  induction before with
  | nil => exact .expect m min max tags h (.refl after)
  | cons op ops ih =>
    have hp : ∀ ps : List (Policy α), Policy.Same Eq ps ps := fun ps => ⟨rfl, fun a a' h => by rw [h]⟩
    simp only [List.cons_append]
    cases op with
    | newSequence st => exact .newSequence st ih
    | dropSequence s => exact .dropSequence s ih
    | newMock => exact .newMock ih
    | expect m min max tags ps => exact .expect m min max tags (hp ps) ih
    | call m a => exact .call m rfl ih
    | destroy e => exact .destroy e ih

theorem says_eq {ps ps' : List (Policy α)} {a : α} (h : (∃ p ∈ ps, p.accepts a = none) ↔ ∃ p ∈ ps', p.accepts a = none)
    (h' : (∀ p ∈ ps, p.accepts a = some true) ↔ ∀ p ∈ ps', p.accepts a = some true) : Policy.says ps a = Policy.says ps' a := by
  have h1 : ps.any (fun p => p.accepts a == none) = ps'.any (fun p => p.accepts a == none) := by
    rw [Bool.eq_iff_iff]
    simpa using h
  have h2 : ps.all (fun p => p.accepts a == some true) = ps'.all (fun p => p.accepts a == some true) := by
    rw [Bool.eq_iff_iff]
    simpa using h'
  simp only [Policy.says, h1, h2]

/-- C68: neither the order in which requirements are stated matters, nor whether one is stated several times. -/
theorem C68_order {ps ps' : List (Policy α)} (h : ∀ p, p ∈ ps ↔ p ∈ ps') : Policy.Same Eq ps ps' := by
  constructor
  · rw [Bool.eq_iff_iff]
    simp only [Policy.content, List.all_eq_true, h]
  · rintro a _ rfl
    exact says_eq (by simp only [h]) (by simp only [h])

/-- C68: a requirement that is always met, such as the wildcard `_`, may be left out. -/
theorem C68_wildcard {p : Policy α} (h : ∀ a, p.accepts a = some true) (hs : p.isSatisfied = true) (ps qs : List (Policy α)) :
    Policy.Same Eq (ps ++ p :: qs) (ps ++ qs) := by
  constructor
  · simp [Policy.content, hs]
  · rintro a _ rfl
    refine says_eq ?_ ?_
    · simp only [List.mem_append, List.mem_cons]
      constructor
      · rintro ⟨q, h1 | rfl | h1, h2⟩
        · exact ⟨q, .inl h1, h2⟩
        · simp [h a] at h2
        · exact ⟨q, .inr h1, h2⟩
      · rintro ⟨q, h1 | h1, h2⟩
        · exact ⟨q, .inl h1, h2⟩
        · exact ⟨q, .inr (.inr h1), h2⟩
    · simp only [List.mem_append, List.mem_cons]
      constructor
      · intro hq q h1
        rcases h1 with h1 | h1
        · exact hq q (.inl h1)
        · exact hq q (.inr (.inr h1))
      · rintro hq q (h1 | rfl | h1)
        · exact hq q (.inl h1)
        · exact h a
        · exact hq q (.inr h1)

/-- C68: two requirements may be joined to a single one that throws if one of them does, and else accepts iff both do. -/
theorem C68_joined {p q r : Policy α} (ht : ∀ a, r.accepts a = none ↔ p.accepts a = none ∨ q.accepts a = none)
    (ha : ∀ a, r.accepts a = some true ↔ p.accepts a = some true ∧ q.accepts a = some true)
    (hs : r.isSatisfied = (p.isSatisfied && q.isSatisfied)) (ps qs : List (Policy α)) :
    Policy.Same Eq (ps ++ p :: q :: qs) (ps ++ r :: qs) := by
  constructor
  · simp [Policy.content, hs, Bool.and_assoc]
  · rintro a _ rfl
    refine says_eq ?_ ?_
    · simp only [List.mem_append, List.mem_cons]
      constructor
      · rintro ⟨x, h1 | rfl | rfl | h1, h2⟩
        · exact ⟨x, .inl h1, h2⟩
        · exact ⟨r, .inr (.inl rfl), (ht a).mpr (.inl h2)⟩
        · exact ⟨r, .inr (.inl rfl), (ht a).mpr (.inr h2)⟩
        · exact ⟨x, .inr (.inr h1), h2⟩
      · rintro ⟨x, h1 | rfl | h1, h2⟩
        · exact ⟨x, .inl h1, h2⟩
        · rcases (ht a).mp h2 with h2 | h2
          · exact ⟨p, .inr (.inl rfl), h2⟩
          · exact ⟨q, .inr (.inr (.inl rfl)), h2⟩
        · exact ⟨x, .inr (.inr (.inr h1)), h2⟩
    · simp only [List.mem_append, List.mem_cons]
      constructor
      · rintro hq x (h1 | rfl | h1)
        · exact hq x (.inl h1)
        · exact (ha a).mpr ⟨hq p (.inr (.inl rfl)), hq q (.inr (.inr (.inl rfl)))⟩
        · exact hq x (.inr (.inr (.inr h1)))
      · rintro hq x (h1 | rfl | rfl | h1)
        · exact hq x (.inl h1)
        · exact ((ha a).mp (hq r (.inr (.inl rfl)))).1
        · exact ((ha a).mp (hq r (.inr (.inl rfl)))).2
        · exact hq x (.inr (.inr h1))

/-- C68: what a requirement says about itself in reports does not matter for anything else. -/
theorem C68_described (p : Policy α) (d : Option String) (ps qs : List (Policy α)) :
    Policy.Same Eq (ps ++ p :: qs) (ps ++ { p with description := d } :: qs) := by
  constructor
  · simp [Policy.content]
  · rintro a _ rfl
    simp [Policy.says]

/-! ## Examples -/

namespace AlikeExamples

/-- Accepts even numbers, throws at 13. -/
def even : Policy Nat := { accepts := fun a => if a = 13 then none else some (a % 2 == 0) }

def small : Policy Nat := { accepts := fun a => some (decide (a < 10)), description := some "expect: arg[0] < 10" }

def anything : Policy Nat := { accepts := fun _ => some true }

/-- Accepts small even numbers, throws at 13. -/
def smallEven : Policy Nat := { accepts := fun a => if a = 13 then none else some (a % 2 == 0 && decide (a < 10)) }

def test (ps : List (Policy Nat)) : List (Op Nat) :=
  [.newMock, .expect 0 1 2 [] ps, .call 0 3, .call 0 4, .call 0 12, .call 0 13, .call 0 6, .call 0 8, .destroy 0]

/-- What such a test comes to. -/
example : ((runProgram (test [even, small])).map (·.2)).toOption = some [.mockCreated 0, .created 0, .noMatch [0], .fullMatch 0,
    .noMatch [0], .unhandled 0, .noMatch [], .fullMatch 0, .inapplicable [0], .destroyed 0] := by decide +kernel

example : (runProgram (test [even, small])).map (·.2) = (runProgram (test [small, even, even])).map (·.2) :=
  C68_replace (C68_order (fun p => by simp; exact Or.comm)) [.newMock] _ 0 1 2 []

example : (runProgram (test [even, anything, small])).map (·.2) = (runProgram (test [even, small])).map (·.2) :=
  C68_replace (C68_wildcard (fun _ => rfl) rfl [even] [small]) [.newMock] _ 0 1 2 []

example : (runProgram (test [even, small])).map (·.2) = (runProgram (test [smallEven])).map (·.2) := by
  refine C68_replace (C68_joined (p := even) (q := small) (r := smallEven) ?_ ?_ rfl [] []) [.newMock] _ 0 1 2 []
  · intro a; simp only [even, small, smallEven]; split <;> simp
  · intro a; simp only [even, small, smallEven]; split <;> simp

/-- The same test with another mock, whose parameter is a `bool`. -/
def isTrue : Policy Bool := { accepts := fun a => some a }

def evenOnly : Policy Nat := { accepts := fun a => some (a % 2 == 0) }

example : (runProgram [.newMock, .expect 0 1 1 [] [evenOnly], .call 0 4, .call 0 5, .destroy 0]).map (·.2) =
    (runProgram [.newMock, .expect 0 1 1 [] [isTrue, isTrue], .call 0 true, .call 0 false, .destroy 0]).map (·.2) := by
  refine C68_programs (R := fun (n : Nat) (b : Bool) => (n % 2 == 0) = b) ?_
  refine .newMock (.expect 0 1 1 [] ⟨rfl, ?_⟩ (.call 0 rfl (.call 0 rfl (.destroy 0 .nil))))
  rintro a _ rfl
  simp only [Policy.says, evenOnly, isTrue]
  simp

/-- Two histories that are alike. -/
example : ∃ (tr : Trace Nat) (tr' : Trace Bool), Alike tr tr' ∧ (∃ w, Reach tr w) ∧ Event.fullMatch 0 ∈ tr.events := by
  refine ⟨[] ++ [(.newMock, [.mockCreated 0])] ++ [(.expect 0 1 1 [] [evenOnly], [.created 0])] ++ [(.call 0 4, [.fullMatch 0])],
    [] ++ [(.newMock, [.mockCreated 0])] ++ [(.expect 0 1 1 [] [isTrue], [.created 0])] ++ [(.call 0 true, [.fullMatch 0])],
    ?_, ?_, by decide⟩
  · refine .step (op := .call 0 4) (op' := .call 0 true) _ (.step (op := .expect 0 1 1 [] [evenOnly]) (op' := .expect 0 1 1 [] [isTrue]) _
      (.step _ .init .newMock) (.expect 0 1 1 [] _ _ rfl)) (.call 0 4 true ?_)
    intro e d d' _ hd hd' _
    simp only [Trace.decl, List.nil_append, List.cons_append, List.findSome?, List.mem_singleton, Event.created.injEq] at hd hd'
    by_cases he : e = 0
    · subst he
      simp only [if_true, Option.some.injEq] at hd hd'
      subst hd hd'
      rfl
    · simp [he] at hd
  · exact ⟨_, .step (.step (.step .init rfl) rfl) rfl⟩

end AlikeExamples

end Mimic

namespace Mimic.Own

variable {σ α ρ : Type}

/-- C67: a history whose policies are all like those of the library is one of `Model/World.lean`: the operations (except the questions
`is_satisfied`) come to the same with policies that are pure functions of the call. -/
theorem C67_library {th : OTrace σ α ρ} {s : Store σ α ρ} (h : OReach th s) (hp : th.plain) : ∃ w : World α, Reach th.lower w := by
  obtain ⟨w, hw, _⟩ := (plain_alike h hp).reach (reach_kept h).good.reach
  exact ⟨w, hw⟩

example : ∃ w : World Nat, Reach [(.newMock, [.mockCreated 0]), (.expect 0 1 3 [] [Example.double.lower], [.created 0]),
    (.call 0 4, [.fullMatch 0]), (.destroy 0, [.destroyed 0])] w := by
  refine C67_library (th := (Store.final [.newMock, .expect 0 1 3 [] ⟨[Example.double], Example.sum⟩, .call 0 4, .ask 0, .destroy 0]).2)
    (oreach_final _) ?_
  intro m min max tags inner c hm p hp
  have : inner.policies = [Example.double] := by
    have hm' : (OOp.expect m min max tags inner, c) ∈ [_, _, _, _, _] := hm
    simp only [List.mem_cons, Prod.mk.injEq, reduceCtorEq, false_and, OOp.expect.injEq, List.not_mem_nil, or_false, false_or] at hm'
    obtain ⟨⟨_, _, _, _, rfl⟩, _⟩ := hm'
    rfl
  rw [this, List.mem_singleton] at hp
  subst hp
  exact ⟨fun t a t' a' h => by simp only [Example.double, Option.some.injEq, Prod.mk.injEq] at h; exact h.1.symm, fun _ => rfl⟩

end Mimic.Own

namespace Mimic.Touch

variable {α : Type}

/-- C64: a history whose matchers all obey the documentation is one of `Model/World.lean`, with matchers that are pure functions of the
call. The full claim, for all matchers, is false: see `C64_depends`. -/
theorem C64_documented_partial {th : TTrace α} {s : Store α} (h : TReach th s) (hg : th.gentle) : ∃ w : World α, Reach th.lower w := by
  obtain ⟨w, hw, _⟩ := (gentle_alike h hg).reach (reach_good h).1.reach
  exact ⟨w, hw⟩

example : ∃ w : World Nat, Reach [(.newMock, [.mockCreated 0]), (.expect 0 1 1 [] [Matcher.lower (only 5)], [.created 0]),
    (.call 0 4, [.noMatch [0]]), (.call 0 5, [.fullMatch 0])] w := by
  refine C64_documented_partial (th := (Store.final [.newMock, .expect 0 1 1 [] [only 5], .call 0 4, .call 0 5]).2) (treach_final _) ?_
  intro m min max tags asks c hm p hp
  have hm' : (TOp.expect m min max tags asks, c) ∈ [_, _, _, _] := hm
  simp only [List.mem_cons, Prod.mk.injEq, reduceCtorEq, false_and, TOp.expect.injEq, List.not_mem_nil, or_false, false_or] at hm'
  obtain ⟨⟨_, _, _, _, rfl⟩, _⟩ := hm'
  rw [List.mem_singleton] at hp
  subst hp
  exact only_gentle 5

end Mimic.Touch

namespace Mimic.Nested

variable {α : Type}

/-- C60: a history whose matchers make no calls is one of `Model/World.lean`, with matchers that are pure functions of the call. -/
theorem C60_quiet {nh : NTrace α} {s : Store α} (h : NReach nh s) (hq : nh.quiet) : ∃ w : World α, Reach nh.lower w := by
  obtain ⟨w, hw, _⟩ := (quiet_alike h hq).reach (reach_good h (quiet_layered hq)).1.reach
  exact ⟨w, hw⟩

example : ∃ w : World Nat, Reach [(.newMock, [.mockCreated 0]), (.expect 0 1 1 [] [Nested.lower (fun a => .answer (a == 5))], [.created 0]),
    (.call 0 4, [.noMatch [0]]), (.call 0 5, [.fullMatch 0])] w := by
  refine C60_quiet (nh := (Store.final [.newMock, .expect 0 1 1 [] [fun a => .answer (a == 5)], .call 0 4, .call 0 5]).2)
    (nreach_final _) ?_
  intro m min max tags asks c hm p hp
  have hm' : (NOp.expect m min max tags asks, c) ∈ [_, _, _, _] := hm
  simp only [List.mem_cons, Prod.mk.injEq, reduceCtorEq, false_and, NOp.expect.injEq, List.not_mem_nil, or_false, false_or] at hm'
  obtain ⟨⟨_, _, _, _, rfl⟩, _⟩ := hm'
  rw [List.mem_singleton] at hp
  subst hp
  intro a m a' next h
  simp at h

end Mimic.Nested
