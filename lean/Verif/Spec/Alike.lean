import Verif.Spec.Trace

/-!
# Specification: histories that differ in their requirements only
-/

set_option autoImplicit false

namespace Mimic

variable {α β : Type}

/-- What the requirements of an expectation say about a call together: nothing (`none`) if one throws, else whether all accept. -/
def Policy.says (ps : List (Policy α)) (a : α) : Option Bool :=
  if ps.any (fun p => p.accepts a == none) then none else some (ps.all (fun p => p.accepts a == some true))

/-- What the requirements demand at the end of an expectation's life: all are satisfied. -/
def Policy.content (ps : List (Policy α)) : Bool := ps.all (fun p => p.isSatisfied)

/-- `op` and `op'` are the same operation, except for the requirements of an expectation and the arguments of a call. If it is a call,
then the requirements of each living expectation of the mock say the same about it in both histories. -/
inductive OpAlike (tr : Trace α) (tr' : Trace β) : Op α → Op β → Prop where
  | newSequence (st : Strategy) : OpAlike tr tr' (.newSequence st) (.newSequence st)
  | dropSequence (s : Nat) : OpAlike tr tr' (.dropSequence s) (.dropSequence s)
  | newMock : OpAlike tr tr' .newMock .newMock
  | expect (m : Nat) (min max : Int) (tags : List Nat) (ps : List (Policy α)) (ps' : List (Policy β)) :
    Policy.content ps = Policy.content ps' → OpAlike tr tr' (.expect m min max tags ps) (.expect m min max tags ps')
  | call (m : Nat) (a : α) (a' : β) :
    (∀ (e : Nat) (d : Decl α) (d' : Decl β), tr.live e → tr.decl e = some d → tr'.decl e = some d' → d.mock = m →
      Policy.says d.policies a = Policy.says d'.policies a') → OpAlike tr tr' (.call m a) (.call m a')
  | destroy (e : Nat) : OpAlike tr tr' (.destroy e) (.destroy e)

/-- The histories `tr` and `tr'` consist of the same operations in this sense, and the same was observed. -/
inductive Alike : Trace α → Trace β → Prop where
  | init : Alike [] []
  | step {tr : Trace α} {tr' : Trace β} {op : Op α} {op' : Op β} (ev : List Event) :
    Alike tr tr' → OpAlike tr tr' op op' → Alike (tr ++ [(op, ev)]) (tr' ++ [(op', ev)])

/-- The requirements `ps` and `ps'` mean the same for calls that correspond to each other. -/
def Policy.Same (R : α → β → Prop) (ps : List (Policy α)) (ps' : List (Policy β)) : Prop :=
  Policy.content ps = Policy.content ps' ∧ ∀ a a', R a a' → Policy.says ps a = Policy.says ps' a'

/-- Two programs that differ only in requirements that mean the same, and in calls that correspond to each other. -/
inductive Program.Same (R : α → β → Prop) : List (Op α) → List (Op β) → Prop where
  | nil : Program.Same R [] []
  | newSequence {ops : List (Op α)} {ops' : List (Op β)} (st : Strategy) :
    Program.Same R ops ops' → Program.Same R (.newSequence st :: ops) (.newSequence st :: ops')
  | dropSequence {ops : List (Op α)} {ops' : List (Op β)} (s : Nat) :
    Program.Same R ops ops' → Program.Same R (.dropSequence s :: ops) (.dropSequence s :: ops')
  | newMock {ops : List (Op α)} {ops' : List (Op β)} : Program.Same R ops ops' → Program.Same R (.newMock :: ops) (.newMock :: ops')
  | expect {ops : List (Op α)} {ops' : List (Op β)} (m : Nat) (min max : Int) (tags : List Nat) {ps : List (Policy α)}
    {ps' : List (Policy β)} : Policy.Same R ps ps' → Program.Same R ops ops' →
    Program.Same R (.expect m min max tags ps :: ops) (.expect m min max tags ps' :: ops')
  | call {ops : List (Op α)} {ops' : List (Op β)} (m : Nat) {a : α} {a' : β} : R a a' → Program.Same R ops ops' →
    Program.Same R (.call m a :: ops) (.call m a' :: ops')
  | destroy {ops : List (Op α)} {ops' : List (Op β)} (e : Nat) :
    Program.Same R ops ops' → Program.Same R (.destroy e :: ops) (.destroy e :: ops')

end Mimic
