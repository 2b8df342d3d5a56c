import Verif.Proofs.Answers
import Verif.Props.Language

/-!
# C91: Nothing but the answers of the matchers counts
-/

set_option autoImplicit false

namespace Mimic.Answers

open Language

variable {α β : Type} {strict : Prop} {R : Nat × α → Nat × β → Prop}

/-- C91: two tests do the same, but with other mocks, arguments and matchers, so that the expectations say the same about calls that
correspond to each other. If the first one runs, and the mocks used in the second one exist, then the second one runs, too, and
both report the same. Only the creation of mocks and the lists of expectations that do not match are not compared. -/
theorem C91_same {ops : List (Op α)} {ops' : List (Op β)} (h : Same strict R ops ops') (hm : mocked 0 ops') {w : World α}
    {evs : List Event} (hr : runProgram ops = .ok (w, evs)) :
    ∃ w' evs', runProgram ops' = .ok (w', evs') ∧ evs.filterMap observe = evs'.filterMap observe := by
  obtain ⟨⟨S, h1⟩, h2⟩ := program_iff_spec.mp ⟨w, hr⟩
  obtain ⟨T, evs', h3, h4, h5⟩ := Pair.run h (z := []) (T := Spec.State.init) ⟨rfl, rfl, by simp, rfl, fun _ => rfl⟩ hm h2 h1
  obtain ⟨w', h6⟩ := program_iff_spec.mpr ⟨⟨T, h3⟩, h4⟩
  exact ⟨w', evs', h6, h5.1⟩

/-- C91: if the mocks are the same in both tests, the reports are the same. -/
theorem C91_exact {ops : List (Op α)} {ops' : List (Op β)} (h : Same True R ops ops') {evs : List Event} :
    (∃ w, runProgram ops = .ok (w, evs)) ↔ ∃ w', runProgram ops' = .ok (w', evs) := by
  have key : ∀ {α β : Type} {R : Nat × α → Nat × β → Prop} {ops : List (Op α)} {ops' : List (Op β)}, Same True R ops ops' →
      (∃ w, runProgram ops = .ok (w, evs)) → ∃ w', runProgram ops' = .ok (w', evs) := by
    intro α β R ops ops' h hr
    obtain ⟨⟨S, h1⟩, h2⟩ := program_iff_spec.mp hr
    have hm0 : mocked 0 ops := mocked_of_run h1
    have hm : mocked 0 ops' := by
      clear h1 h2 hr
      generalize 0 = n at *
      induction h generalizing n with
      | nil => trivial
      | both ho _ ih =>
        cases ho with
        | newSequence st => exact ih n hm0
        | dropSequence s => exact ih n hm0
        | newMock => exact ih _ hm0
        | expect min max tags ha hs => exact ⟨hs trivial ▸ hm0.1, ih n hm0.2⟩
        | call hr hs => exact ⟨hs trivial ▸ hm0.1, ih n hm0.2⟩
        | destroy e => exact ih n hm0
      | left hn => exact absurd trivial hn
      | right hn => exact absurd trivial hn
    obtain ⟨T, evs', h3, h4, h5⟩ := Pair.run h (z := []) (T := Spec.State.init) ⟨rfl, rfl, by simp, rfl, fun _ => rfl⟩ hm h2 h1
    obtain rfl := h5.2 trivial
    exact program_iff_spec.mpr ⟨⟨T, h3⟩, h4⟩
  exact ⟨key h, key h.symm⟩

theorem failure_observe (ev : Event) : ∀ ev', observe ev = some ev' → Language.failure ev = Language.failure ev' := by
  intro ev' h
  cases ev <;> simp only [observe, Option.some.injEq, reduceCtorEq] at h <;> subst h <;> rfl

theorem passes_observe {evs evs' : List Event} (h : evs.filterMap observe = evs'.filterMap observe) (hp : passes evs) :
    passes evs' := by
  intro ev hev
  cases ho : observe ev with
  | none => cases ev <;> simp_all [observe, Language.failure]
  | some ev' =>
    have h1 : ev' ∈ evs'.filterMap observe := List.mem_filterMap.mpr ⟨ev, hev, ho⟩
    rw [← h] at h1
    obtain ⟨ev2, h2, h3⟩ := List.mem_filterMap.mp h1
    rw [failure_observe ev ev' ho, ← failure_observe ev2 ev' h3]
    exact hp ev2 h2

/-- C91: the first test passes iff the second one does. -/
theorem C91_passes {ops : List (Op α)} {ops' : List (Op β)} (h : Same strict R ops ops') (hm : mocked 0 ops) (hm' : mocked 0 ops') :
    (∃ w evs, runProgram ops = .ok (w, evs) ∧ passes evs) ↔ ∃ w' evs', runProgram ops' = .ok (w', evs') ∧ passes evs' := by
  constructor
  · rintro ⟨w, evs, h1, h2⟩
    obtain ⟨w', evs', h3, h4⟩ := C91_same h hm' h1
    exact ⟨w', evs', h3, passes_observe h4 h2⟩
  · rintro ⟨w, evs, h1, h2⟩
    obtain ⟨w', evs', h3, h4⟩ := C91_same h.symm hm h1
    exact ⟨w', evs', h3, passes_observe h4 h2⟩

/-- C91: arguments and requirements may be replaced by others, if each expectation says the same about each call of the test (and
about the end). -/
theorem C91_replace (f : α → β) (g : List (Policy α) → List (Policy β)) {ops : List (Op α)}
    (hg : ∀ m min max tags ps, .expect m min max tags ps ∈ ops →
      (∀ m' a, .call m' a ∈ ops → answer m ps (m', a) = answer m (g ps) (m', f a)) ∧
      ps.all (·.isSatisfied) = (g ps).all (·.isSatisfied)) {evs : List Event} :
    (∃ w, runProgram ops = .ok (w, evs)) ↔ ∃ w', runProgram (ops.map (changed f g)) = .ok (w', evs) := by
  refine C91_exact (R := fun c d => c.1 = d.1 ∧ d.2 = f c.2 ∧ .call c.1 c.2 ∈ ops) ?_
  have key : ∀ l : List (Op α), (∀ op ∈ l, op ∈ ops) →
      Same True (fun c d => c.1 = d.1 ∧ d.2 = f c.2 ∧ .call c.1 c.2 ∈ ops) l (l.map (changed f g)) := by
    intro l hl
    induction l with
    | nil => exact .nil
    | cons op l ih =>
      refine .both ?_ (ih fun x hx => hl x (by simp [hx]))
      have hop := hl op (by simp)
      cases op with
      | newSequence st => exact .newSequence st
      | dropSequence s => exact .dropSequence s
      | newMock => exact .newMock
      | expect m min max tags ps =>
        refine .expect min max tags ⟨?_, (hg m min max tags ps hop).2⟩ (fun _ => rfl)
        rintro ⟨c1, c2⟩ ⟨d1, d2⟩ ⟨h1, h2, h3⟩
        simp only at h1 h2 h3
        subst h1 h2
        exact (hg m min max tags ps hop).1 c1 c2 h3
      | call m a => exact .call ⟨rfl, rfl, hop⟩ (fun _ => rfl)
      | destroy e => exact .destroy e
  exact key ops fun _ h => h

/-- C91: how arguments look like makes no difference: with `f` applied to all arguments and matchers that look at the results, a test
does the same as with matchers that look at what `f` makes of the arguments. -/
theorem C91_arguments (f : α → β) (g : List (Policy α) → List (Policy β)) {ops : List (Op α)}
    (hg : ∀ m min max tags ps, .expect m min max tags ps ∈ ops → ps = (g ps).map (before f)) {evs : List Event} :
    (∃ w, runProgram ops = .ok (w, evs)) ↔ ∃ w', runProgram (ops.map (changed f g)) = .ok (w', evs) := by
  refine C91_replace f g fun m min max tags ps hps => ?_
  have h := hg m min max tags ps hps
  generalize g ps = qs at h
  subst h
  refine ⟨fun m' a _ => ?_, ?_⟩
  · simp only [answer, List.any_map, List.all_map]
    rfl
  · simp only [List.all_map]
    rfl

/-- C91: several requirements are the same as one that combines them. -/
theorem C91_conjunction {ops : List (Op α)} {evs : List Event} :
    (∃ w, runProgram ops = .ok (w, evs)) ↔ ∃ w', runProgram (ops.map (changed id fun ps => [conjunction ps])) = .ok (w', evs) := by
  refine C91_replace id _ fun m min max tags ps _ => ⟨fun m' a _ => ?_, ?_⟩
  · simp only [answer, conjunction, List.any_cons, List.any_nil, List.all_cons, List.all_nil, id]
    split
    · split <;> simp
    · rfl
  · simp [conjunction]

/-- C91: neither the order of the requirements of an expectation nor repetitions matter. -/
theorem C91_set (g : List (Policy α) → List (Policy α)) (hg : ∀ ps p, p ∈ g ps ↔ p ∈ ps) {ops : List (Op α)} {evs : List Event} :
    (∃ w, runProgram ops = .ok (w, evs)) ↔ ∃ w', runProgram (ops.map (changed id g)) = .ok (w', evs) := by
  have hany : ∀ (ps : List (Policy α)) (q : Policy α → Bool), (g ps).any q = ps.any q := by
    intro ps q
    rw [Bool.eq_iff_iff, List.any_eq_true, List.any_eq_true]
    simp only [hg]
  have hall : ∀ (ps : List (Policy α)) (q : Policy α → Bool), (g ps).all q = ps.all q := by
    intro ps q
    rw [Bool.eq_iff_iff, List.all_eq_true, List.all_eq_true]
    simp only [hg]
  refine C91_replace id g fun m min max tags ps _ => ⟨fun m' a _ => ?_, (hall ps _).symm⟩
  simp only [answer, hany, hall, id]

/-- C91: instead of several mocks one may use a single one that is told which of them is meant. -/
theorem C91_one_mock {ops : List (Op α)} (hm : mocked 0 ops) :
    (∀ w evs, runProgram ops = .ok (w, evs) → ∃ w' evs', runProgram (.newMock :: ops.filterMap joint) = .ok (w', evs') ∧
      evs.filterMap observe = evs'.filterMap observe) ∧
    ((∃ w evs, runProgram ops = .ok (w, evs) ∧ passes evs) ↔
      ∃ w' evs', runProgram (.newMock :: ops.filterMap joint) = .ok (w', evs') ∧ passes evs') := by
  have hs : Same False (fun (c : Nat × α) (d : Nat × (Nat × α)) => d = (0, c)) ops (.newMock :: ops.filterMap joint) := by
    refine .right (fun h => h) ?_
    clear hm
    induction ops with
    | nil => exact .nil
    | cons op ops ih =>
      cases op with
      | newSequence st => exact .both (.newSequence st) ih
      | dropSequence s => exact .both (.dropSequence s) ih
      | newMock => exact .left (fun h => h) ih
      | expect m min max tags ps =>
        refine .both (.expect min max tags ⟨?_, ?_⟩ (fun h => h.elim)) ih
        · rintro ⟨k, a⟩ d rfl
          simp only [answer, forMock, List.any_cons, List.all_cons, List.any_map, List.all_map, if_true]
          by_cases hk : k = m
          · subst hk
            simp [Function.comp_def]
          · have : (k == m) = false := by simpa using hk
            simp [hk, Function.comp_def, this]
        · simp only [forMock, List.all_cons, List.all_map, Bool.true_and]
          rfl
      | call m a => exact .both (.call rfl (fun h => h.elim)) ih
      | destroy e => exact .both (.destroy e) ih
  have hm' : mocked 0 (.newMock :: ops.filterMap joint) := by
    show mocked 1 (ops.filterMap joint)
    clear hs hm
    induction ops with
    | nil => trivial
    | cons op ops ih =>
      cases op with
      | expect m min max tags ps => exact ⟨by omega, ih⟩
      | call m a => exact ⟨by omega, ih⟩
      | _ => exact ih
  exact ⟨fun w evs hr => C91_same hs hm' hr, C91_passes hs hm hm'⟩

/-! ### Examples -/

/-- Accepts the given number. -/
def equals (n : Nat) : Policy Nat := { accepts := fun a => some (a == n) }

/-- Two mocks and a sequence: mock 0 is to be called with 1, then mock 1 with 2. -/
def twoMocks : List (Op Nat) :=
  [.newMock, .newMock, .newSequence .lazy, .expect 0 1 1 [0] [equals 1], .expect 1 1 2 [0] [equals 2, equals 2], .call 0 1, .call 1 2,
   .call 0 2, .destroy 0, .destroy 1, .dropSequence 0]

/-- The observations of a program. -/
def observed {γ : Type} (ops : List (Op γ)) : Option (List Event) := (runProgram ops).toOption.map (·.2)

/-- `C91_one_mock` applies, and the tests differ in what is not compared only. -/
example : mocked 0 twoMocks ∧
    observed twoMocks = some [.mockCreated 0, .mockCreated 1, .sequenceCreated 0 .lazy, .created 0, .created 1, .fullMatch 0,
      .fullMatch 1, .noMatch [0], .destroyed 0, .destroyed 1, .sequenceDestroyed 0] ∧
    observed (.newMock :: twoMocks.filterMap joint) = some [.mockCreated 0, .sequenceCreated 0 .lazy, .created 0, .created 1,
      .fullMatch 0, .fullMatch 1, .noMatch [1, 0], .destroyed 0, .destroyed 1, .sequenceDestroyed 0] := by
  refine ⟨by simp [mocked, twoMocks], by decide +kernel, by decide +kernel⟩

/-- The theorems about other requirements apply to this test, too. -/
example : observed twoMocks = observed (twoMocks.map (changed id fun ps => [conjunction ps])) ∧
    observed twoMocks = observed (twoMocks.map (changed id List.reverse)) ∧
    (∀ (ps : List (Policy Nat)) p, p ∈ ps.reverse ↔ p ∈ ps) := by
  exact ⟨by decide +kernel, by decide +kernel, by simp⟩

/-- Matchers that look at the length of a text only: then texts may be replaced by their lengths. -/
example : ∃ (g : List (Policy String) → List (Policy Nat)) (ops : List (Op String)),
    (∀ m min max tags ps, .expect m min max tags ps ∈ ops → ps = (g ps).map (before String.length)) ∧
    observed (ops.map (changed String.length g)) = some [.mockCreated 0, .created 0, .fullMatch 0, .noMatch [0]] := by
  refine ⟨fun _ => [equals 3], [.newMock, .expect 0 0 9 [] [before String.length (equals 3)], .call 0 "abc", .call 0 "ab"], ?_, ?_⟩
  · intro m min max tags ps h
    simp at h
    rw [h.2.2.2.2]
    rfl
  · decide +kernel

end Mimic.Answers
