import Verif.Model.Contracts

/-!
# Specification: exceptions of the client's classes
-/

set_option autoImplicit false

namespace Mimic.Contracts

/-- A function that is declared `noexcept` does not throw. (If it does, the program ends already because of the function itself.) -/
def Act.honest (f : Act) : Prop := f.declared = true → f.throws = false

def Cls.honest (c : Cls) : Prop := (∀ a, (c.construct a).honest) ∧ ∀ a f, c.call a = some f → f.honest

/-- A class as one would write it: constness and value category do not matter for calls. -/
def Cls.plain (c : Cls) : Prop := ∀ a, c.call a = c.call .lvalue

end Mimic.Contracts
