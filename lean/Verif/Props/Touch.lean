import Verif.Proofs.Touch
import Verif.Props.Selection

/-!
# C64: matchers and the arguments of a call
-/

set_option autoImplicit false

namespace Mimic.Touch

open Mimic.Nested (Seen asked look)

variable {α : Type}

/-- C64: whatever the matchers do to the arguments, what happens is a history in the sense of `Reach`, so that all theorems about those
apply to it: a call is one whose arguments `f` was said about. -/
theorem C64_flat {th : TTrace α} {s : Store α} (h : TReach th s) : Reach th.flat s.w := (reach_good h).1.reach

/-- C64: each call is carried out as described by `Asked`: the living expectations of the mock are asked, the youngest first, and each
matcher judges what those asked before it have left of the arguments. Reports about exceptions of matchers show the arguments as they
are at that time. The final report shows, and the caller keeps, what all matchers have left. -/
theorem C64_explained {pre post : TTrace α} {s : Store α} {m : Nat} {a : α} {c : Came α}
    (h : TReach (pre ++ (.call m a, c) :: post) s) :
    ∃ es f left shown, YoungestFirst (pre.of m) es ∧ Asked pre.matchers f es a left shown ∧ c.op = .call m (left, f) ∧
      c.left = some left ∧ c.shown = shown ++ [left] ∧ c.shown.length = c.events.length := call_came h

/-- C64: what the matchers said is what decides: a call about which `f` was said can be resolved by the living expectations of the mock
whose matchers all accepted it and whose turn it is. -/
theorem C64_candidate {th : TTrace α} {s : Store α} (h : TReach th s) (m : Nat) (left : α) (f : Nat → Option Bool) (e : Nat) :
    th.flat.candidate m (left, f) e ↔ th.of m e ∧ f e = some true ∧ th.flat.applicable e := by
  have g := (reach_good h).1
  unfold Trace.candidate Trace.accepts TTrace.of
  constructor
  · rintro ⟨⟨h1, d, hd, hm, hp⟩, h2⟩
    refine ⟨⟨h1, d, hd, hm⟩, ?_, h2⟩
    exact hp (asked e) (by rw [g.decl e d hd]; simp)
  · rintro ⟨⟨h1, d, hd, hm⟩, hf, h2⟩
    refine ⟨⟨h1, d, hd, hm, ?_⟩, h2⟩
    rw [g.decl e d hd]
    intro p hp
    simp only [List.mem_singleton] at hp
    subst hp
    exact hf

/-- C64: every call of an existing mock ends, and nothing undefined happens. -/
theorem C64_returns {th : TTrace α} {s : Store α} (h : TReach th s) {m : Nat} (hm : Event.mockCreated m ∈ th.flat.events) (a : α) :
    ∃ s' c, s.step (.call m a) = .ok (s', c) := by
  have g := (reach_good h).1
  have hlt := (g.reach.view.2.mocks m).mp hm
  obtain ⟨es, hes⟩ : ∃ es, s.w.colls[m]? = some es := ⟨_, List.getElem?_eq_getElem hlt⟩
  obtain ⟨w', d, _, _, k1, _⟩ := call_ok g hes a
  exact ⟨_, _, by simp only [Store.step, k1]; rfl⟩

/-- C64: an expectation judges the arguments as the caller has passed them if the matchers of all younger living expectations of the
mock obey the documentation. The full claim, for all matchers, is false: see `C64_depends` and `C64_single_pass`. -/
theorem C64_judges_partial {pre post : TTrace α} {s : Store α} {m : Nat} {a : α} {c : Came α}
    (h : TReach (pre ++ (.call m a, c) :: post) s) {e : Nat} (he : pre.of m e)
    (hg : ∀ y, pre.of m y → e < y → ∀ p ∈ pre.matchers y, Gentle p) :
    ∃ left f, c.op = .call m (left, f) ∧ ∃ a', SayAll (pre.matchers e) a a' (f e) := by
  obtain ⟨es, f, left, shown, h1, h2, h3, _⟩ := call_came h
  obtain ⟨before, after, hes⟩ := List.append_of_mem ((h1.2 e).mpr he)
  refine ⟨left, f, h3, h2.gentle_before hes fun y hy => hg y ?_ ?_⟩
  · exact (h1.2 y).mp (by rw [hes]; simp [hy])
  · have := h1.1
    rw [hes, List.pairwise_append] at this
    exact this.2.2 y hy e (by simp)

/-- C64: if the matchers of all living expectations of the mock obey the documentation, then a call leaves the arguments alone as far as
matching is concerned, all reports show them as the caller has passed them, and each expectation judges them as such. The full claim,
for all matchers, is false: see `C64_changed`, `C64_depends` and `C64_single_pass`. -/
theorem C64_untouched_partial {pre post : TTrace α} {s : Store α} {m : Nat} {a : α} {c : Came α}
    (h : TReach (pre ++ (.call m a, c) :: post) s) (hg : ∀ e, pre.of m e → ∀ p ∈ pre.matchers e, Gentle p) :
    c.left = some a ∧ (∀ x ∈ c.shown, x = a) ∧
      ∃ f, c.op = .call m (a, f) ∧ ∀ e, pre.of m e → f e = verdict (pre.matchers e) a := by
  obtain ⟨es, f, left, shown, h1, h2, h3, h4, h5, _⟩ := call_came h
  obtain ⟨rfl, k2, k3⟩ := h2.gentle (fun e he => hg e ((h1.2 e).mp he))
  refine ⟨h4, ?_, f, h3, fun e he => k3 e ((h1.2 e).mpr he)⟩
  rw [h5]
  intro x hx
  rcases List.mem_append.mp hx with hx | hx
  · exact k2 x hx
  · exact List.mem_singleton.mp hx

/-! ## Matchers of the library on targets that can be passed only once -/

/-- C64: `range::eq` gives the right answer about what is there, -/
theorem C64_pass_answer {τ : Type} [DecidableEq τ] (target expected : List τ) :
    (passEq expected target).2 = some (decide (target = expected)) := by
  simp only [passEq, Option.some.injEq]
  induction target generalizing expected with
  | nil => cases expected <;> simp [passEqual]
  | cons x target ih =>
    cases expected with
    | nil => simp [passEqual]
    | cons y expected =>
      simp only [passEqual]
      split
      · rename_i h; subst h; simp [ih]
      · rename_i h; simp [h]

/-- C64: but uses up what both have in common: what is left of the target is what follows their longest common prefix. -/
theorem C64_pass_left {τ : Type} [DecidableEq τ] (target expected : List τ) :
    ∃ common rest, target = common ++ (passEq expected target).1 ∧ expected = common ++ rest ∧
      ∀ x, ¬ ((passEq expected target).1.head? = some x ∧ rest.head? = some x) := by
  simp only [passEq]
  induction target generalizing expected with
  | nil => exact ⟨[], expected, by simp [passEqual]⟩
  | cons x target ih =>
    cases expected with
    | nil => exact ⟨[], [], by simp [passEqual]⟩
    | cons y expected =>
      simp only [passEqual]
      split
      · rename_i h
        subst h
        obtain ⟨c, r, h1, h2, h3⟩ := ih expected
        exact ⟨x :: c, r, by simpa using h1, by simpa using h2, h3⟩
      · rename_i h
        exact ⟨[], y :: expected, by simp, by simp, by intro z hz; simp at hz; exact h (hz.1.trans hz.2.symm)⟩

/-- C64: so `range::eq` obeys the library's own documentation on such targets only if it expects nothing. -/
theorem C64_pass_gentle {τ : Type} [DecidableEq τ] (expected : List τ) : Gentle (passEq expected) ↔ expected = [] := by
  constructor
  · intro h
    cases expected with
    | nil => rfl
    | cons y expected =>
      have := h [y]
      simp only [passEq, passEqual, if_true] at this
      cases expected <;> simp at this
  · rintro rfl a
    cases a <;> simp [passEq, passEqual]

/-! ## Examples -/

/-- Runs a program and records the history. -/
def Store.record (s : Store α) : List (TOp α) → M (Store α × TTrace α)
  | [] => .ok (s, [])
  | op :: ops =>
    match s.step op with
    | .error x => .error x
    | .ok (s', c) =>
      match s'.record ops with
      | .error x => .error x
      | .ok (s'', th) => .ok (s'', (op, c) :: th)

theorem record_treach (ops : List (TOp α)) : ∀ {th th' : TTrace α} {s s' : Store α}, TReach th s →
    s.record ops = .ok (s', th') → TReach (th ++ th') s' := by
  induction ops with
  | nil =>
    intro th th' s s' h hr
    simp only [Store.record, Except.ok.injEq, Prod.mk.injEq] at hr
    obtain ⟨rfl, rfl⟩ := hr
    simpa using h
  | cons op ops ih =>
    intro th th' s s' h hr
    simp only [Store.record] at hr
    split at hr
    · simp at hr
    · rename_i hs
      split at hr
      · simp at hr
      · rename_i hk
        simp only [Except.ok.injEq, Prod.mk.injEq] at hr
        obtain ⟨rfl, rfl⟩ := hr
        have := ih (h.step hs) hk
        simpa using this

/-- The state and the history a program ends with (the fresh state if it does not survive). -/
def Store.final (ops : List (TOp α)) : Store α × TTrace α :=
  match Store.init.record ops with
  | .ok r => r
  | .error _ => (Store.init, [])

theorem treach_final (ops : List (TOp α)) : TReach (Store.final ops).2 (Store.final ops).1 := by
  unfold Store.final
  cases h : (Store.init : Store α).record ops with
  | error x => exact .init
  | ok r =>
    have := record_treach ops .init h
    simpa using this

/-- What the caller has after the last operation, and what the reports of all operations were. -/
def outcome (ops : List (TOp α)) : Option (Option α × List α) × List Event :=
  ((Store.final ops).2.getLast?.map (fun st => (st.2.left, st.2.shown)), (Store.final ops).2.flat.events)

/-- Accepts `x` and changes nothing. -/
def only (x : Nat) : Matcher Nat := fun a => (a, some (a == x))

/-- Refuses everything and increments the argument. -/
def spoil : Matcher Nat := fun a => (a + 1, some false)

/-- Throws after having incremented the argument. -/
def spoilThrow : Matcher Nat := fun a => (a + 1, none)

theorem only_gentle (x : Nat) : Gentle (only x) := fun _ => rfl

/-- C64: a call that no expectation resolves may nevertheless change the caller's variable: it was 5, it is 6, and so says the
report. -/
theorem C64_changed : outcome [.newMock, .expect 0 0 9 [] [spoil], .call 0 5] =
    (some (some 6, [6]), [.mockCreated 0, .created 0, .noMatch [0]]) := by rfl

/-- C64: whether an expectation for 5 resolves a call with 4 or with 5 depends on a younger expectation that resolves neither. -/
theorem C64_depends :
    (outcome [.newMock, .expect 0 0 9 [] [only 5], .call 0 4]).2 = [.mockCreated 0, .created 0, .noMatch [0]] ∧
    (outcome [.newMock, .expect 0 0 9 [] [only 5], .expect 0 0 9 [] [spoil], .call 0 4]).2 =
      [.mockCreated 0, .created 0, .created 1, .fullMatch 0] ∧
    (outcome [.newMock, .expect 0 0 9 [] [only 5], .expect 0 0 9 [] [spoil], .call 0 5]).2 =
      [.mockCreated 0, .created 0, .created 1, .noMatch [1, 0]] := ⟨by rfl, by rfl, by rfl⟩

/-- The report about the exception and the final one show different arguments. -/
example : outcome [.newMock, .expect 0 0 9 [] [spoil], .expect 0 0 9 [] [spoilThrow, spoil], .call 0 5] =
    (some (some 7, [6, 7]), [.mockCreated 0, .created 0, .created 1, .unhandled 1, .noMatch [0]]) := by rfl

/-- C64: two expectations with `range::eq` are alive, and a range that can be passed only once is the argument of a call. The younger
expectation refuses it but has used up its first element, so that the older one refuses it, too, though it expects just this range. -/
theorem C64_single_pass :
    outcome [.newMock, .expect 0 0 9 [] [passEq ['a', 'b']], .expect 0 0 9 [] [passEq ['a', 'c']], .call 0 ['a', 'b']] =
      (some (some ['b'], [['b']]), [.mockCreated 0, .created 0, .created 1, .noMatch [1, 0]]) ∧
    outcome [.newMock, .expect 0 0 9 [] [passEq ['a', 'b']], .call 0 ['a', 'b']] =
      (some (some [], [[]]), [.mockCreated 0, .created 0, .fullMatch 0]) := ⟨by rfl, by rfl⟩

/-- A program that keeps to the documentation for mock 0 but not for mock 1. -/
def demo : List (TOp Nat) :=
  [.newMock, .newMock, .expect 0 0 9 [] [only 5], .expect 0 0 9 [] [only 4], .expect 1 0 9 [] [spoil]]

theorem demo_gentle : ∀ e, (Store.final demo).2.of 0 e → ∀ p ∈ (Store.final demo).2.matchers e, Gentle p := by
  rintro e ⟨-, d, hd, hm⟩
  match e, hd with
  | 0, _ => intro p hp; have : p = only 5 := List.mem_singleton.mp hp; exact this ▸ only_gentle 5
  | 1, _ => intro p hp; have : p = only 4 := List.mem_singleton.mp hp; exact this ▸ only_gentle 4
  | 2, hd =>
    have : d = ⟨1, 0, 9, [], [asked 2]⟩ := (Option.some.inj hd).symm
    subst this
    exact absurd hm (by decide)
  | n + 3, hd =>
    have h1 := decl_lt (C64_flat (treach_final demo)) hd
    have h2 : (Store.final demo).1.w.exps.length = 3 := rfl
    omega

example (c : Came Nat) (s : Store Nat) (h : TReach ((Store.final demo).2 ++ [(.call 0 5, c)]) s) :
    c.left = some 5 ∧ ∀ x ∈ c.shown, x = 5 :=
  ⟨(C64_untouched_partial h demo_gentle).1, (C64_untouched_partial h demo_gentle).2.1⟩

/-- There is such a call. -/
example : ∃ c s, TReach ((Store.final demo).2 ++ [(.call 0 5, c)]) s := by
  obtain ⟨s', c, h⟩ := C64_returns (treach_final demo) (m := 0) (by decide) 5
  exact ⟨c, s', (treach_final demo).step h⟩

example : ∃ s' c, (Store.final demo).1.step (.call 1 5) = .ok (s', c) := C64_returns (treach_final demo) (by decide) 5

example : (outcome (demo ++ [.call 0 5])).1 = some (some 5, [5]) := by rfl

end Mimic.Touch
