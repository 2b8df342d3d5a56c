import Verif.Model.Block

/-!
# What is required of the client code of several threads
-/

set_option autoImplicit false

namespace Mimic.Block

variable {α : Type}

/-- Layers of mocks and of sequences. -/
structure Layers where
  mock : Nat → Nat
  seq : Nat → Nat

/-- The operation only concerns mocks and sequences of layers lower than `n`. -/
def Act.under (r : Layers) (n : Nat) : Act α → Prop
  | .call m _ => r.mock m < n
  | .declare m => r.mock m < n
  | .withdraw m ss => r.mock m < n ∧ ∀ s ∈ ss, r.seq s < n
  | .drop s => r.seq s < n

/-- Every operation of the code only concerns mocks and sequences of layers lower than `n`. -/
inductive Code.Under (r : Layers) (n : Nat) : Code α → Prop where
  | stop : Code.Under r n .stop
  | act {k : Act α} {next : Option Nat → Code α} : k.under r n → (∀ x, Code.Under r n (next x)) → Code.Under r n (.act k next)

/-- Code that runs while the mutex of a mock is held keeps to lower layers than that mock's: matchers, printers of arguments, and the reporter
when it gets an exception or an unfulfilled expectation. -/
structure Client.Inner (C : Client α) (r : Layers) : Prop where
  matching : ∀ {m a c}, C.matching m a c → c.Under r (r.mock m)
  printing : ∀ {m a c}, C.printing m a c → c.Under r (r.mock m)
  unhandled : ∀ {m c}, C.unhandled m c → c.Under r (r.mock m)
  unfulfilled : ∀ {m c}, C.unfulfilled m c → c.Under r (r.mock m)

/-- The other code keeps to layers lower than `d` above that of the mock or the sequence concerned: `d = 1`, no higher layers; `d = 0`, only lower layers. -/
structure Client.Outer (C : Client α) (r : Layers) (d : Nat) : Prop where
  outcome : ∀ {m c}, C.outcome m c → c.Under r (r.mock m + d)
  effects : ∀ {m a c}, C.effects m a c → c.Under r (r.mock m + d)
  ending : ∀ {m c}, C.ending m c → c.Under r (r.mock m + d)
  broken : ∀ {s c}, C.broken s c → c.Under r (r.seq s + d)

/-- Nobody can go on, and not everybody is done. -/
def Deadlock (C : Client α) (ts : List (Thread α)) : Prop := (∃ t ∈ ts, ¬ t.done) ∧ ∀ ts', ¬ LStep C ts ts'

/-- A thread is about to lock a mutex it already holds, which is undefined behaviour. -/
def Relock (ts : List (Thread α)) : Prop := ∃ t ∈ ts, ∃ m, t.wants = some m ∧ t.locks m

/-- Every schedule that goes on from here comes to an end. -/
def Ends (C : Client α) (ts : List (Thread α)) : Prop := Acc (fun b a => LStep C a b) ts

/-- The code makes no use of mocks at all. -/
def Code.Plain (c : Code α) : Prop := c = .stop

end Mimic.Block
