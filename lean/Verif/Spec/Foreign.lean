import Verif.Model.Foreign

/-!
# Specification: expectations and control policies of the user's own
-/

set_option autoImplicit false

namespace Mimic.Foreign

variable {ω α ρ : Type}

/-- The expectations that were added to the collection and not removed since, the last one first. -/
def FTrace.present : FTrace ω α ρ → List Nat := fun th =>
  th.foldl (fun es st =>
    match st.1 with
    | .push e => e :: es
    | .remove e => es.filter (· ≠ e)
    | _ => es) []

/-- Expectation `e` throws when asked about the call. -/
def Throws (O : Objects ω α ρ) (p : ω) (a : α) (e : Nat) : Prop := O.matching e p a = none

/-- All policies of expectation `e` accept the call. -/
def Accepts (O : Objects ω α ρ) (p : ω) (a : α) (e : Nat) : Prop := ∃ c rs, O.matching e p a = some (c, rs) ∧ ∀ r ∈ rs, r.1 = true

/-- And its control policy says that it is its turn, with these ratings. -/
def Rated (O : Objects ω α ρ) (p : ω) (a : α) (e : Nat) (ratings : List Rating) : Prop :=
  ∃ min max count rs, O.matching e p a = some (.applicable min max count ratings, rs) ∧ ∀ r ∈ rs, r.1 = true

/-- Expectation `e` can resolve the call. -/
def Can (O : Objects ω α ρ) (p : ω) (a : α) (e : Nat) : Prop := ∃ ratings, Rated O p a e ratings

/-- The members of `es` with property `P` are `xs`, in the same order. -/
inductive Those (P : Nat → Prop) : List Nat → List Nat → Prop where
  | nil : Those P [] []
  | take {e : Nat} {es xs : List Nat} : P e → Those P es xs → Those P (e :: es) (e :: xs)
  | skip {e : Nat} {es xs : List Nat} : ¬ P e → Those P es xs → Those P (e :: es) xs

/-- The rating `l` is lower than that of the same sequence among `others`. -/
def lower (others : List Rating) (l : Rating) : Bool :=
  match others.find? (fun r => r.tag = l.tag) with
  | some r => l.priority < r.priority
  | none => false

/-- Expectation `x` gives way to the older expectation `y`: `y` has ratings for all sequences that `x` has ratings for, and more than half of
those of `x` are lower. -/
def GivesWay (O : Objects ω α ρ) (p : ω) (a : α) (x y : Nat) : Prop :=
  ∃ rx ry, Rated O p a x rx ∧ Rated O p a y ry ∧ (∀ l ∈ rx, ∃ r ∈ ry, r.tag = l.tag) ∧ rx.length < 2 * (rx.filter (lower ry)).length

/-- `Chosen x older r`: starting with `x` and looking at the older ones one by one, `r` is finally chosen. -/
inductive Chosen (O : Objects ω α ρ) (p : ω) (a : α) : Nat → List Nat → Nat → Prop where
  | done (x : Nat) : Chosen O p a x [] x
  | move {x y r : Nat} {ys : List Nat} : GivesWay O p a x y → Chosen O p a y ys r → Chosen O p a x (y :: ys) r
  | stay {x y r : Nat} {ys : List Nat} : ¬ GivesWay O p a x y → Chosen O p a x ys r → Chosen O p a x (y :: ys) r

/-- What a call comes to when the members of the collection are `es`, the last one first: the state of the rest of the program after it, and the
observations. -/
inductive Called (O : Objects ω α ρ) (p : ω) (a : α) (es : List Nat) : ω → Out ρ → Prop where
  | resolved {ts cs : List Nat} {c e : Nat} {p' p'' : ω} {x : ρ} : Those (Throws O p a) es ts → Those (Can O p a) es (c :: cs) →
    Chosen O p a c cs e → O.consume e p a = (p', true) → O.finalize e p' a = (p'', x) →
    Called O p a es p''
      { events := ts.map Event.unhandled ++ [.fullMatch e], touches := es.map Touch.asked ++ [.consumed e, .finalized e], result := some x }
  | broken {ts cs : List Nat} {c e : Nat} {p' : ω} : Those (Throws O p a) es ts → Those (Can O p a) es (c :: cs) →
    Chosen O p a c cs e → O.consume e p a = (p', false) →
    Called O p a es p'
      { events := ts.map Event.unhandled ++ [.fullMatch e], touches := es.map Touch.asked ++ [.consumed e], threw := true }
  | notNow {ts is : List Nat} : Those (Throws O p a) es ts → Those (Can O p a) es [] → Those (Accepts O p a) es is → is ≠ [] →
    Called O p a es p { events := ts.map Event.unhandled ++ [.inapplicable is], touches := es.map Touch.asked }
  | never {ts ns : List Nat} : Those (Throws O p a) es ts → Those (Accepts O p a) es [] → Those (fun e => ¬ Throws O p a e) es ns →
    Called O p a es p { events := ts.map Event.unhandled ++ [.noMatch ns], touches := es.map Touch.asked }

/-- The calls that expectation `e` was reported to take, oldest first. -/
def FTrace.took (th : FTrace ω α ρ) (e : Nat) : List α :=
  th.filterMap (fun st =>
    match st.1 with
    | .call a => if Event.fullMatch e ∈ st.2.events then some a else none
    | _ => none)

/-- An expectation with a state of its own: there is a place for its state in the rest of the program; what it does depends on that alone, its
members change nothing else, and other expectations do not change it. `use` is what `consume` and then, if it returns, `finalize_call` do. -/
structure Private {σ : Type} (O : Objects ω α ρ) (e : Nat) (place : ω → σ) (use : σ → α → σ) : Prop where
  own : ∀ p a, place (let q := O.consume e p a; if q.2 then (O.finalize e q.1 a).1 else q.1) = use (place p) a
  others : ∀ e' p a, e' ≠ e → place (O.consume e' p a).1 = place p ∧ place (O.finalize e' p a).1 = place p

end Mimic.Foreign
