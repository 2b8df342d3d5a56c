import Verif.Proofs.Stringify
import Verif.Proofs.StringifyShown

/-!
# Custom printers (C69)
-/

set_option autoImplicit false

namespace Mimic.Stringify

/-- C69: an object whose type has a custom printer is printed by it, no matter what else could print the object, if the printer
can take the object the way it is passed. -/
theorem C69_preferred (reg : Registry) (p : Pass) (o : Obj) (c : Printer) (h : reg o.type = some c) (ht : Binds c.takes p) :
    stringify reg p o = .ok (c.text o) := by
  rw [stringify, dress_custom (c := c) (by simp [Registry.find, h, binds_iff.mpr ht]), print]

/-- C69: if the printer cannot take the object the way it is passed, then the object is printed as if there was no such printer. -/
theorem C69_unusable (reg : Registry) (p : Pass) (o : Obj) (c : Printer) (h : reg o.type = some c) (ht : ¬ Binds c.takes p)
    (hi : o.type ∉ o.inner) : stringify reg p o = stringify (reg.without o.type) p o := by
  rw [stringify, stringify, dress_unusable o p (by simpa [Registry.find, h] using fun hh => ht (binds_iff.mp hh)) hi]

/-- C69: with custom printers that take their objects by value or as `const T&`, objects are printed as documented: wherever an
object of a type with custom printer occurs, inside of optionals, tuples and ranges at any depth, that printer is used. Missing
from the full claim: other custom printers, and ranges that depend on constness; for both the claim is wrong, see below. -/
theorem C69_documented_partial (reg : Registry) (ha : reg.accepting) (p : Pass) (o : Obj) (hs : o.steady) (t : Text) :
    stringify reg p o = .ok t ↔ Shows reg o t :=
  shows_iff ha o p t hs

/-- C69: in particular the text does not depend on how the object is passed. -/
theorem C69_passing_partial (reg : Registry) (ha : reg.accepting) (p q : Pass) (o : Obj) (hs : o.steady) (t : Text) :
    stringify reg p o = .ok t ↔ stringify reg q o = .ok t :=
  (shows_iff ha o p t hs).trans (shows_iff ha o q t hs).symm

/-- C69: custom printers for types that do not occur in an object do not change its text. -/
theorem C69_local (reg reg' : Registry) (p : Pass) (o : Obj) (h : ∀ t ∈ o.types, reg t = reg' t) :
    stringify reg p o = stringify reg' p o := by
  rw [stringify, dress_local o p h, ← stringify]

/-- C69: the arguments in the report of a call. -/
theorem C69_args_partial (reg : Registry) (ha : reg.accepting) (args : List (Text × Bool × Obj))
    (hs : ∀ a ∈ args, a.2.2.steady) (ts : List (Text × Text)) :
    stringifyArgs reg args = .ok ts ↔ ts.map Prod.fst = args.map Prod.fst ∧ ShowsAll reg (args.map (·.2.2)) (ts.map Prod.snd) := by
  induction args generalizing ts with
  | nil =>
    cases ts with
    | nil => simp [stringifyArgs, makeArgs, ShowsAll.nil]
    | cons t ts => simp [stringifyArgs, makeArgs]
  | cons a args ih =>
    obtain ⟨type, k, o⟩ := a
    have ih := ih (fun a ha => hs a (by simp [ha]))
    have ho := fun p t => shows_iff ha o p t (hs (type, k, o) (by simp))
    simp only [stringifyArgs] at ih
    simp only [stringifyArgs, List.map_cons, makeArgs, argVal, bind, Except.bind, pure, Except.pure]
    rw [← stringify]
    rcases h : stringify reg (if k = true then .const else .mutable) o with e | t
    · constructor
      · simp
      · rintro ⟨_, h2⟩
        cases ts with
        | nil => simp at *
        | cons u us =>
          simp only [List.map_cons] at h2
          cases h2 with
          | cons h2 _ =>
            have := (ho (if k = true then .const else .mutable) _).mpr h2
            rw [h] at this
            cases this
    · have ht := (ho _ _).mp h
      simp only
      rcases h' : makeArgs (args.map (argVal reg)) with e | us
      · constructor
        · simp
        · rintro ⟨h1, h2⟩
          cases ts with
          | nil => simp at h1
          | cons u us =>
            simp only [List.map_cons, List.cons.injEq] at h1 h2
            cases h2 with
            | cons _ h2 =>
              have := (ih us).mpr ⟨h1.2, h2⟩
              rw [h'] at this
              cases this
      · have ih' := (ih us).mp h'
        constructor
        · intro e
          simp only [Except.ok.injEq] at e
          subst e
          exact ⟨by simp [ih'.1], .cons ht ih'.2⟩
        · rintro ⟨h1, h2⟩
          cases ts with
          | nil => simp at h1
          | cons v vs =>
            simp only [List.map_cons, List.cons.injEq] at h1 h2
            cases h2 with
            | cons h3 h2 =>
              have e1 := (ih vs).mpr ⟨h1.2, h2⟩
              rw [h'] at e1
              have e2 := (ho (if k = true then .const else .mutable) _).mpr h3
              rw [h] at e2
              simp only [Except.ok.injEq] at e1 e2 ⊢
              subst e1
              obtain ⟨a, b⟩ := v
              simp_all

/-- C69: the model of printing with which C59 is proved agrees, so that C59 holds for objects with custom printers inside, too. -/
theorem C69_consistent (reg : Registry) (p : Pass) (o : Obj) :
    ∃ N, ∀ n, N ≤ n → Shown.shown (facts reg) n (p, o) = Shown.lift (stringify reg p o) :=
  shown_stringify reg o p

/-! Types: 1: a class without any printer, 2: an optional of it, 3: a view that filters, 4: an optional of that, 5: `int`,
6: `std::vector<int>`, 7: `bool`, 8: `std::vector<bool>`, 9: `std::vector<bool>::reference`, 10: `std::wstring`, 11: `wchar_t`. -/

/-- One custom printer. -/
def only (type : Nat) (takes : Takes) (t : String) : Registry :=
  fun x => if x = type then some ⟨takes, fun _ => lit t, fun c => lit t ++ decimal c⟩ else none

def thing : Obj := .leaf 1 .unknown

/-- C69 is wrong for custom printers that take `T&`: they are used for an argument of a non-const type, and silently not used for
the value of an optional or for a const argument. -/
theorem C69_reference_printer :
    ∃ (reg : Registry) (c : Printer) (o : Obj), reg o.type = some c ∧ stringify reg .mutable o = .ok (c.text o) ∧
      stringify reg .const o = .ok (lit "{?}") ∧ stringify reg .mutable (.engaged 2 o) = .ok (lit "{ value: {?} }") :=
  ⟨only 1 .reference "me", ⟨.reference, fun _ => lit "me", fun c => lit "me" ++ decimal c⟩, thing, by rfl, by rfl, by rfl, by rfl⟩

/-- C69: a view that can only be iterated when it is not const is printed with its elements as an argument, but as unknown inside
an optional. -/
theorem C69_filtered_view :
    ∃ o : Obj, stringify .nothing .mutable o = .ok (lit "{ 1, 2 }") ∧
      stringify .nothing .mutable (.engaged 4 o) = .ok (lit "{ value: {?} }") :=
  ⟨.other 3 (some .mutable) [.leaf 5 (.int 1), .leaf 5 (.int 2)] none [] none, by rfl, by rfl⟩

/-- C69: a custom printer for `bool` is used for the elements of a const `std::vector<bool>` only: otherwise its elements are proxies,
which nothing can print. -/
theorem C69_vector_bool :
    ∃ o : Obj, stringify (only 7 .anything "yes") .const o = .ok (lit "{ yes }") ∧
      stringify (only 7 .anything "yes") .mutable o = .ok (lit "{ {?} }") :=
  ⟨.other 8 (some .temporary) [.leaf 9 .unknown] (some .temporary) [.leaf 7 (.formatted (lit "true"))] none, by rfl, by rfl⟩

/-- The documented way: in an optional, in a tuple, in a range of those. -/
example : stringify (only 1 .anything "me") .mutable (.engaged 2 thing) = .ok (lit "{ value: me }") := by rfl
example : stringify (only 1 .anything "me") .const
    (.other 12 (some .mutable) [.tuple 13 [] [thing, .leaf 5 (.int 4)]] (some .const) [.tuple 13 [] [thing, .leaf 5 (.int 4)]] none) =
    .ok (lit "{ { me, 4 } }") := by rfl
/-- Printers for types that are printed otherwise, too: `int`, all ranges of them, all empty optionals. -/
example : stringify (only 5 .anything "n") .mutable (.other 6 (some .mutable) [.leaf 5 (.int 1), .leaf 5 (.int 2)] (some .const)
    [.leaf 5 (.int 1), .leaf 5 (.int 2)] none) = .ok (lit "{ n, n }") := by rfl
example : stringify (only 6 .anything "numbers") .mutable (.other 6 (some .mutable) [.leaf 5 (.int 1)] (some .const)
    [.leaf 5 (.int 1)] none) = .ok (lit "numbers") := by rfl
example : stringify (only nulloptType .anything "nothing") .mutable (.empty 2) = .ok (lit "nothing") := by rfl
/-- Printers for characters. -/
example : stringify (only 11 .anything "c") .mutable (.str 10 11 (lit "L") [7, 8]) = .ok (lit "L\"c7c8\"") := by rfl
example : stringify (only 11 .reference "c") .mutable (.str 10 11 (lit "L") [7, 8]) = .ok (lit "L\"0x7, 0x8\"") := by rfl
/-- A reference in a tuple is not const. -/
example : stringify (only 1 .reference "me") .mutable (.tuple 14 [true, false] [thing, thing]) = .ok (lit "{ me, {?} }") := by rfl
/-- Printers that take `T&&`. -/
example : stringify (only 1 .rvalue "me") .temporary thing = .ok (lit "me") ∧
    stringify (only 1 .rvalue "me") .mutable thing = .ok (lit "{?}") := ⟨by rfl, by rfl⟩
/-- The hypotheses of the theorems. -/
example : ¬ Binds .rvalue .mutable ∧ thing.type ∉ thing.inner := ⟨nofun, by simp [thing, Obj.inner]⟩
example : (only 1 .anything "me").accepting := by
  intro t c h
  simp only [only] at h
  split at h <;> simp_all
  rw [← h]
example : (Obj.engaged 2 thing).steady := by simp [Obj.steady, thing]
example : ∀ t ∈ (Obj.engaged 2 thing).types, (only 5 .anything "n") t = Registry.nothing t := by
  simp [Obj.types, thing, only, Registry.nothing]

end Mimic.Stringify
