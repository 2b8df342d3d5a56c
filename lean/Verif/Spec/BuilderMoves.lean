import Verif.Spec.Builders

/-!
# Specification: builders that are moved

A test in which a builder is moved to a new object, and the same test without the move. Builder objects are numbered in the order of their
creation, so that those created after the move have other numbers.
-/

set_option autoImplicit false

namespace Mimic.BuilderMoves

variable {α φ : Type}

/-- The number of a builder in the test in which builder `b` has been moved to the new object `n`: the new object is used instead of the old
one, and every later builder is counted one further. -/
def number (b n i : Nat) : Nat := if i = b then n else if i < n then i else i + 1

/-- The same operation in the test with the move. -/
def renamed (b n : Nat) : BOp α φ → BOp α φ
  | .extend i item => .extend (number b n i) item
  | .finalize i => .finalize (number b n i)
  | .dropBuilder i => .dropBuilder (number b n i)
  | .moveBuilder i => .moveBuilder (number b n i)
  | op => op

/-- The same history, with the same observations, in the test with the move. -/
def renamedAll (b n : Nat) (l : BTrace α φ) : BTrace α φ := l.map (fun st => (renamed b n st.1, st.2))

end Mimic.BuilderMoves
