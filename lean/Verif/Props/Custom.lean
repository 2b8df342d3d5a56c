import Verif.Proofs.Custom

/-!
# C65: custom matchers
-/

set_option autoImplicit false

namespace Mimic.Custom

variable {τ : Type}

/-- C65: `expect::arg<i>(c)` can be used exactly if there is both an answer and a description, each from the traits or from a member,
independently of each other; the traits come first. It then answers and is described accordingly. -/
theorem C65_arg (c : Class τ) (const : Bool) (index : Nat) (p : Policy τ) :
    c.arg const index = .ok p ↔
      ∃ f d, c.answers const f ∧ c.described d ∧
        p = { accepts := f, description := some ("expect: arg[" ++ toString index ++ "] " ++ d) } := by
  simp only [← hookMatches_iff, ← hookDescribe_iff, Class.arg, argDescriber]
  cases c.hookMatches const <;> cases c.hookDescribe <;> simp [eq_comm]

/-- C65: exactly these classes satisfy the concept `matcher_for`, and a class that does not is no error by itself: other overloads are
considered (C54). -/
theorem C65_matcher_for (c : Class τ) (const : Bool) (index : Nat) :
    (c.matcherFor const = true ↔ (∃ f, c.answers const f) ∧ ∃ d, c.described d) ∧
    (c.matcherFor const = false ↔ c.arg const index = .notViable) := by
  simp only [← hookMatches_iff, ← hookDescribe_iff, Class.matcherFor, Class.arg]
  cases c.hookMatches const <;> cases c.hookDescribe <;> simp

/-- C65: `range::each_element(c)` means what it should, if the traits of `c` do not offer another answer than its member: it accepts
if `c` accepts each element, is described with `c`'s description, and can itself be used like any other matcher. The full claim, for
all classes that can be used as matchers, is false: see `C65_elements_traits`, `C65_catch2` and `C65_elements_differ`. -/
theorem C65_each_partial (c : Class τ) (hc : c.consistent) {f : τ → Option Bool} {d : String} (hf : c.answers true f)
    (hd : c.described d) :
    ∃ c' g, c.elements true = .ok c' ∧ c'.consistent ∧ c'.described ("each el in range: el " ++ d) ∧
      (∀ const, c'.answers const g) ∧ ∀ xs, Every f xs (g xs) := by
  have hm : c.memberMatches true = some f := by
    rcases hf with h | ⟨-, h⟩
    · exact hc f h
    · exact h
  rw [← hookDescribe_iff] at hd
  simp only [Class.elements, hm, hd, if_true]
  exact ⟨_, allOf f, rfl, by simp [Class.consistent], Or.inr ⟨rfl, rfl⟩, fun _ => Or.inr ⟨rfl, rfl⟩, allOf_every f⟩

/-- C65: and likewise `range::any_element(c)`. -/
theorem C65_any_partial (c : Class τ) (hc : c.consistent) {f : τ → Option Bool} {d : String} (hf : c.answers true f)
    (hd : c.described d) :
    ∃ c' g, c.elements false = .ok c' ∧ c'.consistent ∧ c'.described ("any el in range: el " ++ d) ∧
      (∀ const, c'.answers const g) ∧ ∀ xs, Any f xs (g xs) := by
  have hm : c.memberMatches true = some f := by
    rcases hf with h | ⟨-, h⟩
    · exact hc f h
    · exact h
  rw [← hookDescribe_iff] at hd
  simp only [Class.elements, hm, hd, Bool.false_eq_true, if_false]
  exact ⟨_, anyOf f, rfl, by simp [Class.consistent], Or.inr ⟨rfl, rfl⟩, fun _ => Or.inr ⟨rfl, rfl⟩, anyOf_any f⟩

/-- C65: a matcher that answers by its traits only cannot be used with `each_element` or `any_element`, though it can be used with
`expect::arg`: the compilation ends. -/
theorem C65_elements_traits (c : Class τ) (hm : c.memberMatches true = none) (each : Bool) : c.elements each = .hardError := by
  simp [Class.elements, hm]

/-- C65: so all matchers of Catch2 can be used directly but for no elements, contrary to the documentation of the adapter. -/
theorem C65_catch2 (f : τ → Option Bool) (d : String) (const : Bool) (index : Nat) (each : Bool) :
    (∃ p, (ofCatch2 f d).arg const index = .ok p ∧ p.accepts = f) ∧ (ofCatch2 f d).elements each = .hardError :=
  ⟨⟨_, rfl, rfl⟩, rfl⟩

/-- C65: for whatever a class answers by its traits for a single object, `each_element` asks the member for an element: if these differ
on `x`, then so do `c` about `x` and `each_element(c)` about the range that consists of `x` alone. -/
theorem C65_elements_differ (c : Class τ) {f g : τ → Option Bool} {d : String} (hf : c.traitsMatches true = some f)
    (hg : c.memberMatches true = some g) (hd : c.described d) {x : τ} (hx : f x ≠ g x) (each : Bool) :
    ∃ c' h, c.answers true f ∧ c.elements each = .ok c' ∧ c'.answers true h ∧ h [x] ≠ f x := by
  rw [← hookDescribe_iff] at hd
  simp only [Class.elements, hg, hd]
  refine ⟨_, (if each then allOf g else anyOf g), Or.inl hf, rfl, Or.inr ⟨rfl, rfl⟩, ?_⟩
  intro h
  apply hx
  rw [← h]
  cases each <;> simp only [if_true, if_false, Bool.false_eq_true, allOf, anyOf, bind, Option.bind, pure] <;>
    cases hgx : g x with
    | none => rfl
    | some b => cases b <;> rfl

/-- C65: the library's own matchers have members only, so that the partial claims apply to them. -/
theorem C65_own {A : Type} (m : PMatcher Option τ A) (d : String) :
    (ofPredicate m d).consistent ∧ (∀ const, (ofPredicate m d).answers const m.matches) ∧ (ofPredicate m d).described d ∧
    (wildcard : Class τ).consistent ∧ (∀ const, (wildcard : Class τ).answers const (fun _ => some true)) ∧
    (wildcard : Class τ).described "has no constraints" :=
  ⟨by simp [Class.consistent, ofPredicate], fun _ => Or.inr ⟨rfl, rfl⟩, Or.inr ⟨rfl, rfl⟩,
   by simp [Class.consistent, wildcard], fun _ => Or.inr ⟨rfl, rfl⟩, Or.inr ⟨rfl, rfl⟩⟩

/-! ## Examples -/

namespace Example

/-- test/unit-tests/Matcher.cpp 23-80: the classes of the repository's tests, where a member answers `big`, and traits `small`. -/
def big : Nat → Option Bool := fun n => some (decide (10 < n))
def small : Nat → Option Bool := fun n => some (decide (n < 5))

def common : Class Nat := { memberMatches := fun _ => some big, memberDescribe := some "is big" }
def custom : Class Nat := { traitsMatches := fun _ => some small, traitsDescribe := some "is small" }
def mixed1 : Class Nat := { memberMatches := fun _ => some big, traitsDescribe := some "is large" }
def mixed2 : Class Nat := { traitsMatches := fun _ => some small, memberDescribe := some "is tiny" }
def both : Class Nat := { traitsMatches := fun _ => some small, memberMatches := fun _ => some big, memberDescribe := some "?" }

/-- What `expect::arg<1>` makes of a class: the answers to 3 and 30, and the description. -/
def use (c : Class Nat) : Use (Option Bool × Option Bool × Option String) :=
  match c.arg false 1 with
  | .ok p => .ok (p.accepts 3, p.accepts 30, p.description)
  | .notViable => .notViable
  | .hardError => .hardError

example : use common = .ok (some false, some true, some "expect: arg[1] is big") := by decide
example : use custom = .ok (some true, some false, some "expect: arg[1] is small") := by decide
example : use mixed1 = .ok (some false, some true, some "expect: arg[1] is large") := by decide
example : use mixed2 = .ok (some true, some false, some "expect: arg[1] is tiny") := by decide
example : use both = .ok (some true, some false, some "expect: arg[1] ?") := by decide
example : use { memberMatches := fun _ => some big } = .notViable := by decide

/-- `each_element(any_element(common))` about ranges of ranges. -/
def nested : Use (List (List Nat) → Option (Option Bool)) :=
  match common.elements false with
  | .ok c =>
    match c.elements true with
    | .ok c => .ok (fun xs => (c.hookMatches false).map (· xs))
    | .notViable => .notViable
    | .hardError => .hardError
  | .notViable => .notViable
  | .hardError => .hardError

example : ∃ g, nested = .ok g ∧ g [[1, 20], [30]] = some (some true) ∧ g [[1, 20], [3]] = some (some false) ∧ g [] = some (some true) :=
  ⟨_, rfl, by decide, by decide, by decide⟩

example : mixed1.consistent ∧ mixed1.answers true big ∧ mixed1.described "is large" :=
  ⟨by simp [Class.consistent, mixed1], Or.inr ⟨rfl, rfl⟩, Or.inl rfl⟩

/-- The class with both: about 3 itself the answer is yes, about each element of `{3}` it is no. -/
example : ∃ c' h, both.answers true small ∧ both.elements true = .ok c' ∧ c'.answers true h ∧ h [3] ≠ small 3 :=
  C65_elements_differ both rfl rfl (Or.inr ⟨rfl, rfl⟩) (by decide) true

example : custom.elements true = .hardError := C65_elements_traits custom rfl true

end Example

end Mimic.Custom
