import Verif.Model.Nested
import Verif.Spec.Trace

/-!
# Specification: matchers that call mocks
-/

set_option autoImplicit false

namespace Mimic.Nested

variable {α : Type}

/-- Whatever happens, only mocks below `r` are called. -/
inductive Ask.Below (rank : Nat → Nat) (r : Nat) : Ask α → Prop where
  | answer {b : Bool} : Below rank r (.answer b)
  | throws : Below rank r .throws
  | call {m : Nat} {a : α} {next : Option Nat → Ask α} : rank m < r → (∀ x, Below rank r (next x)) → Below rank r (.call m a next)

/-- Whatever happens, only mocks with property `P` are called. -/
inductive Ask.Only (P : Nat → Prop) : Ask α → Prop where
  | answer {b : Bool} : Only P (.answer b)
  | throws : Only P .throws
  | call {m : Nat} {a : α} {next : Option Nat → Ask α} : P m → (∀ x, Only P (next x)) → Only P (.call m a next)

/-- Matchers of expectations only call mocks of lower layers, and each sequence only concerns expectations of one layer. -/
def NOp.layered (rank srank : Nat → Nat) : NOp α → Prop
  | .expect m _ _ tags asks => (∀ q ∈ tags, srank q = rank m) ∧ ∀ p ∈ asks, ∀ a, Ask.Below rank (rank m) (p a)
  | _ => True

def NTrace.layered (rank srank : Nat → Nat) (nh : NTrace α) : Prop := ∀ st ∈ nh, st.1.layered rank srank

/-- All operations of the library, in the order in which they ended. -/
def NTrace.flat (nh : NTrace α) : Trace (Seen α) := nh.flatMap (·.2)

/-- The matchers of expectation number `e`. -/
def NTrace.matchers (nh : NTrace α) (e : Nat) : List (α → Ask α) :=
  (nh.findSome? (fun st =>
    match st with
    | (.expect _ _ _ _ asks, tr) => if Event.created e ∈ tr.events then some asks else none
    | _ => none)).getD []

/-- Which expectation resolved a call. -/
def resolver (ev : List Event) : Option Nat :=
  ev.findSome? (fun x => match x with | .fullMatch e => some e | _ => none)

mutual

/-- `Says M pre p tr b`: after `pre`, a matcher that does `p` answers `b`, and `tr` are the calls made meanwhile. `M e` are the
matchers of expectation `e`. -/
inductive Says (M : Nat → List (α → Ask α)) : Trace (Seen α) → Ask α → Trace (Seen α) → Option Bool → Prop where
  | answer {pre : Trace (Seen α)} {b : Bool} : Says M pre (.answer b) [] (some b)
  | throws {pre : Trace (Seen α)} : Says M pre .throws [] none
  | call {pre tr tr' : Trace (Seen α)} {m : Nat} {a : α} {next : Option Nat → Ask α} {r : Option Nat} {b : Option Bool} :
    Made M pre m a tr r → Says M (pre ++ tr) (next r) tr' b → Says M pre (.call m a next) (tr ++ tr') b

/-- The same for several matchers, all of which are asked unless one throws; they accept together. -/
inductive SayAll (M : Nat → List (α → Ask α)) : Trace (Seen α) → α → List (α → Ask α) → Trace (Seen α) → Option Bool → Prop where
  | nil {pre : Trace (Seen α)} {a : α} : SayAll M pre a [] [] (some true)
  | thrown {pre tr : Trace (Seen α)} {a : α} {p : α → Ask α} {ps : List (α → Ask α)} :
    Says M pre (p a) tr none → SayAll M pre a (p :: ps) tr none
  | cons {pre tr tr' : Trace (Seen α)} {a : α} {p : α → Ask α} {ps : List (α → Ask α)} {b : Bool} {r : Option Bool} :
    Says M pre (p a) tr (some b) → SayAll M (pre ++ tr) a ps tr' r → SayAll M pre a (p :: ps) (tr ++ tr') (r.map (b && ·))

/-- The matchers of one expectation after the other are asked, and `f` is what they say. -/
inductive Asked (M : Nat → List (α → Ask α)) : Trace (Seen α) → α → (Nat → Option Bool) → List Nat → Trace (Seen α) → Prop where
  | nil {pre : Trace (Seen α)} {a : α} {f : Nat → Option Bool} : Asked M pre a f [] []
  | cons {pre tr tr' : Trace (Seen α)} {a : α} {f : Nat → Option Bool} {e : Nat} {es : List Nat} :
    SayAll M pre a (M e) tr (f e) → Asked M (pre ++ tr) a f es tr' → Asked M pre a f (e :: es) (tr ++ tr')

/-- `Made M pre m a tr r`: after `pre`, mock `m` was called with `a`; the living expectations of `m` were asked, the youngest one
first; `tr` are the calls made meanwhile and finally this one, which `r` resolved. -/
inductive Made (M : Nat → List (α → Ask α)) : Trace (Seen α) → Nat → α → Trace (Seen α) → Option Nat → Prop where
  | call {pre tr : Trace (Seen α)} {m : Nat} {a : α} {f : Nat → Option Bool} {es : List Nat} {ev : List Event} :
    YoungestFirst (fun e => pre.live e ∧ ∃ d, pre.decl e = some d ∧ d.mock = m) es → Asked M pre a f es tr →
    Made M pre m a (tr ++ [(.call m (a, f), ev)]) (resolver ev)

end

end Mimic.Nested
