import Verif.Model.Touch
import Verif.Spec.Trace

/-!
# Specification: matchers that change what they look at
-/

set_option autoImplicit false

namespace Mimic.Touch

open Mimic.Nested (Seen)

variable {α : Type}

/-- The history as the base model sees it. -/
def TTrace.flat (th : TTrace α) : Trace (Seen α) := th.map (fun st => (st.2.op, st.2.events))

/-- The matchers of expectation number `e`. -/
def TTrace.matchers (th : TTrace α) (e : Nat) : List (Matcher α) :=
  (th.findSome? (fun st =>
    match st with
    | (.expect _ _ _ _ asks, c) => if Event.created e ∈ c.events then some asks else none
    | _ => none)).getD []

/-- Living expectation `e` of mock `m`. -/
def TTrace.of (th : TTrace α) (m e : Nat) : Prop := th.flat.live e ∧ ∃ d, th.flat.decl e = some d ∧ d.mock = m

/-- Matcher `p` obeys the documentation: it never changes what it looks at. -/
def Gentle (p : Matcher α) : Prop := ∀ a, (p a).1 = a

/-- What matchers say together that do not disturb each other: nothing (`none`) if one throws, else whether all accept. -/
def verdict (ps : List (Matcher α)) (a : α) : Option Bool :=
  if ps.any (fun p => (p a).2 == none) then none else some (ps.all (fun p => (p a).2 == some true))

/-- `SayAll ps a left b`: the matchers `ps` are asked about `a`, one after the other and each about what the ones before left, until
one throws. They say `b` together and leave `left`. -/
inductive SayAll : List (Matcher α) → α → α → Option Bool → Prop where
  | nil {a : α} : SayAll [] a a (some true)
  | thrown {p : Matcher α} {ps : List (Matcher α)} {a a' : α} : p a = (a', none) → SayAll (p :: ps) a a' none
  | cons {p : Matcher α} {ps : List (Matcher α)} {a a' left : α} {b : Bool} {r : Option Bool} :
    p a = (a', some b) → SayAll ps a' left r → SayAll (p :: ps) a left (r.map (b && ·))

/-- `Asked M f es a left shown`: the expectations `es`, whose matchers are given by `M`, are asked about `a`, one after the other and
each about what the ones before left; `f` is what they say, `left` what they leave, and `shown` lists what the ones that threw have
left. -/
inductive Asked (M : Nat → List (Matcher α)) (f : Nat → Option Bool) : List Nat → α → α → List α → Prop where
  | nil {a : α} : Asked M f [] a a []
  | said {e : Nat} {es : List Nat} {a a' left : α} {shown : List α} {b : Bool} :
    SayAll (M e) a a' (some b) → f e = some b → Asked M f es a' left shown → Asked M f (e :: es) a left shown
  | thrown {e : Nat} {es : List Nat} {a a' left : α} {shown : List α} :
    SayAll (M e) a a' none → f e = none → Asked M f es a' left shown → Asked M f (e :: es) a left (a' :: shown)

end Mimic.Touch
