import Verif.Spec.StringifyShown
import Verif.Proofs.Stringify

set_option autoImplicit false

namespace Mimic.Stringify
open Mimic.Shown

/-- All elements at once. -/
def printAll : List Val → M (List Text)
  | [] => .ok []
  | v :: vs => do
    let t ← print v
    let ts ← printAll vs
    return t :: ts

def liftAll : M (List Text) → Result (List Text)
  | .ok t => some (.ok t)
  | .error x => some (.error (.stop x))

theorem printRest_all (vs : List Val) :
    printRest vs = (printAll vs).map fun ts => (ts.map (lit ", " ++ ·)).flatten := by
  induction vs with
  | nil => rfl
  | cons v vs ih =>
    simp only [printRest, printAll, ih, bind, Except.bind, pure, Except.pure]
    rcases print v with x | t
    · rfl
    · rcases printAll vs with x | ts
      · rfl
      · simp [Except.map]

theorem commas_cons (t : Text) (ts : List Text) : commas (t :: ts) = t ++ (ts.map (lit ", " ++ ·)).flatten := by
  induction ts generalizing t with
  | nil => simp [commas]
  | cons u us ih => simp [commas, ih]

theorem printFirst_all (vs : List Val) : printFirst vs = (printAll vs).map commas := by
  cases vs with
  | nil => rfl
  | cons v vs =>
    simp only [printFirst, printAll, printRest_all, bind, Except.bind, pure, Except.pure]
    rcases print v with x | t
    · rfl
    · rcases printAll vs with x | ts
      · rfl
      · simp [Except.map, commas_cons]

theorem print_range_all (vs : List Val) : lift (print (.range vs)) = inBraces (liftAll (printAll vs)) := by
  simp only [print, printFirst_all, bind, Except.bind, pure, Except.pure]
  rcases printAll vs with x | ts <;> rfl

theorem print_tuple_all (vs : List Val) : lift (print (.tuple vs)) = inBraces (liftAll (printAll vs)) := by
  rw [← print_range_all]
  simp only [print, printTuple_zero]

theorem print_optional_all (v : Val) : lift (print (.optional (some v))) = asValue (lift (print v)) := by
  simp only [print, bind, Except.bind, pure, Except.pure]
  rcases print v with x | t <;> rfl

/-- With a custom printer. -/
theorem shown_custom {reg : Registry} {p : Pass} {o : Obj} {t : Text} (h : customText reg p o = some t) (n : Nat) :
    shown (facts reg) (n + 1) (p, o) = lift (stringify reg p o) := by
  have hd : dress reg p o = .custom t := by cases o <;> simp only [dress, h, choose_custom]
  rw [stringify, hd]
  cases o <;> simp [shown, facts, Facts.traits, h, resolve, overload, print, lift]

mutual

theorem shown_stringify (reg : Registry) : ∀ (o : Obj) (p : Pass),
    ∃ N, ∀ n, N ≤ n → shown (facts reg) n (p, o) = lift (stringify reg p o)
  | .leaf type v, p => by
    refine ⟨1, fun n hn => ?_⟩
    obtain ⟨n, rfl⟩ : ∃ k, n = k + 1 := ⟨n - 1, by omega⟩
    rcases h : customText reg p (.leaf type v) with _ | t
    · rw [stringify, dress, h, choose_leaf]
      cases v <;> simp [shown, facts, Facts.traits, h, resolve, overload, ifSo, isInternal, print, lift]
    · exact shown_custom h n
  | .str type ct l cs, p => by
    refine ⟨1, fun n hn => ?_⟩
    obtain ⟨n, rfl⟩ : ∃ k, n = k + 1 := ⟨n - 1, by omega⟩
    rcases h : customText reg p (.str type ct l cs) with _ | t
    · rw [stringify, dress, h, choose_internal]
      simp [shown, facts, Facts.traits, h, resolve, overload]
      rcases reg ct with _ | c <;> rfl
    · exact shown_custom h n
  | .empty type, p => by
    refine ⟨1, fun n hn => ?_⟩
    obtain ⟨n, rfl⟩ : ∃ k, n = k + 1 := ⟨n - 1, by omega⟩
    rcases h : customText reg p (.empty type) with _ | t
    · rw [stringify, dress, h, choose_internal]
      rcases h' : reg.find .const nulloptType with _ | c <;>
        simp [shown, facts, Facts.traits, h, h', resolve, overload, print, lift]
    · exact shown_custom h n
  | .engaged type o, p => by
    obtain ⟨N, ih⟩ := shown_stringify reg o .const
    refine ⟨N + 1, fun n hn => ?_⟩
    obtain ⟨n, rfl⟩ : ∃ k, n = k + 1 := ⟨n - 1, by omega⟩
    rcases h : customText reg p (.engaged type o) with _ | t
    · rw [stringify, dress, h, choose_internal, print_optional_all, ← stringify, ← ih n (by omega)]
      simp [shown, facts, Facts.traits, h, resolve, overload]
    · exact shown_custom h n
  | .tuple type refs os, p => by
    obtain ⟨N, ih⟩ := shown_tuple reg os refs
    refine ⟨N + 1, fun n hn => ?_⟩
    obtain ⟨n, rfl⟩ : ∃ k, n = k + 1 := ⟨n - 1, by omega⟩
    rcases h : customText reg p (.tuple type refs os) with _ | t
    · rw [stringify, dress, h, choose_internal, print_tuple_all, ← ih n (by omega)]
      simp [shown, facts, Facts.traits, h, resolve, overload]
    · exact shown_custom h n
  | .other type loose ms cst cs f, p => by
    rcases hi : iterated p loose cst with _ | q
    · refine ⟨1, fun n hn => ?_⟩
      obtain ⟨n, rfl⟩ : ∃ k, n = k + 1 := ⟨n - 1, by omega⟩
      rcases h : customText reg p (.other type loose ms cst cs f) with _ | t
      · rw [stringify, dress, h, hi]
        cases f <;> simp [shown, facts, Facts.traits, h, hi, resolve, overload, choose, print, lift]
      · exact shown_custom h n
    · obtain ⟨N1, ih1⟩ := shown_range reg ms q
      obtain ⟨N2, ih2⟩ := shown_range reg cs q
      refine ⟨N1 + N2 + 1, fun n hn => ?_⟩
      obtain ⟨n, rfl⟩ : ∃ k, n = k + 1 := ⟨n - 1, by omega⟩
      rcases h : customText reg p (.other type loose ms cst cs f) with _ | t
      · rw [stringify, dress, h, hi, Option.map_some, choose_range, print_range_all]
        by_cases hp : p = .const
        · rw [if_pos hp, ← ih2 n (by omega)]
          simp [shown, facts, Facts.traits, resolve, overload, hp]
          simp_all
        · rw [if_neg hp, ← ih1 n (by omega)]
          simp [shown, facts, Facts.traits, h, hi, resolve, overload, hp]
      · exact shown_custom h n

theorem shown_tuple (reg : Registry) : ∀ (os : List Obj) (refs : List Bool),
    ∃ N, ∀ n, N ≤ n → each (shown (facts reg) n) (passed refs os) = liftAll (printAll (dressTuple reg refs os))
  | [], _ => ⟨0, fun _ _ => rfl⟩
  | o :: os, refs => by
    obtain ⟨N1, ih1⟩ := shown_stringify reg o (if refs.headD false then .mutable else .const)
    obtain ⟨N2, ih2⟩ := shown_tuple reg os refs.tail
    refine ⟨N1 + N2, fun n hn => ?_⟩
    simp only [passed, each, ih1 n (by omega), ih2 n (by omega), dressTuple, printAll, stringify, bind, Except.bind, pure, Except.pure]
    rcases print _ with x | t
    · rfl
    · rcases printAll _ with x | ts <;> rfl

theorem shown_range (reg : Registry) : ∀ (os : List Obj) (q : Pass),
    ∃ N, ∀ n, N ≤ n → each (shown (facts reg) n) (os.map fun o => (q, o)) = liftAll (printAll (dressRange reg q os))
  | [], _ => ⟨0, fun _ _ => rfl⟩
  | o :: os, q => by
    obtain ⟨N1, ih1⟩ := shown_stringify reg o q
    obtain ⟨N2, ih2⟩ := shown_range reg os q
    refine ⟨N1 + N2, fun n hn => ?_⟩
    simp only [List.map_cons, each, ih1 n (by omega), ih2 n (by omega), dressRange, printAll, stringify, bind, Except.bind, pure, Except.pure]
    rcases print _ with x | t
    · rfl
    · rcases printAll _ with x | ts <;> rfl

end

end Mimic.Stringify
