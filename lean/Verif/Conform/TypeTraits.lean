import Verif.Model.Signature

/-!
# The repository's own tests of the traits of signatures, carried out by the model

Transcribes the test cases of `/repo/test/unit-tests/TypeTraits.cpp` 102-597 and of `/repo/test/unit-tests/Utility.cpp` 79-109. Each
check stands for the four or more assertions of the test that differ only in how the trait is spelled.
-/

set_option autoImplicit false

namespace Mimic.Conform.Traits

/-- The types the tests use. -/
inductive T where
  | void | int | short | float | double
  | lref (const : Bool) (t : T)
  | rref (const : Bool) (t : T)
  | ptr (const : Bool) (t : T)
deriving DecidableEq

/-- `r(ps...)`. -/
def fn (r : T) (ps : List T) : Sig T := ⟨r, ps, false, false, .none, false⟩

/-- `r(ps..., ...)`. -/
def cfn (r : T) (ps : List T) : Sig T := ⟨r, ps, true, false, .none, false⟩

/-- `f const`, `f &`, `f &&`, `f noexcept`. -/
def asConst (f : Sig T) : Sig T := { f with isConst := true }

def lval (f : Sig T) : Sig T := { f with ref := .lvalue }

def rval (f : Sig T) : Sig T := { f with ref := .rvalue }

def noexc (f : Sig T) : Sig T := { f with noexc := true }

/-- The six rows of qualifiers in the order of the tests. -/
def qualified (f : Sig T) : List (Sig T) := [f, asConst f, lval f, asConst (lval f), rval f, asConst (rval f)]

/-- The parameter lists 105-170 uses, with a return type. -/
def shapes (r : T) : List (Sig T) := [fn r [], fn r [.int], cfn r [], fn r [.float, .int], cfn r [.float]]

/-- The signatures of 105-170. -/
def listed : List (Sig T) := [T.void, T.double].flatMap (fun r => (shapes r).flatMap qualified)

/-- 102-179: `signature_add_noexcept` adds `noexcept`, if it isn't there yet. -/
example : listed.length = 60 ∧ ∀ f ∈ listed, f.addNoexcept = noexc f ∧ (noexc f).addNoexcept = noexc f := by decide

/-- 181-258: `signature_remove_noexcept` removes `noexcept`, if it is there. -/
example : ∀ f ∈ listed, f.removeNoexcept = f ∧ (noexc f).removeNoexcept = f := by decide

/-- The return types and parameter lists of 263-342. -/
def returns : List T := [.void, .double, .lref false .double, .lref true .double, .rref false .double, .rref true .double,
  .ptr false .void, .ptr true .void]

def paramLists : List (List T) := [[], [.int], [.float, .int], [.lref false .float], [.lref true .float], [.rref false .float],
  [.rref true .float], [.ptr false .float], [.ptr true .float]]

/-- 260-402: `signature_decay`. -/
example : ∀ r ∈ returns, ∀ ps ∈ paramLists, ∀ f ∈ [fn r ps, cfn r ps], ∀ g ∈ qualified f,
    g.decay = f ∧ (noexc g).decay = f := by decide

/-- 404-474: `signature_return_type`. -/
example : ∀ r ∈ returns, ∀ f ∈ shapes r, f.returnType = r ∧ f.addNoexcept.returnType = r := by decide

/-- 476-506: `signature_param_type`. -/
example : ∀ row ∈ [(T.int, 0, fn .void [.int]), (.int, 0, fn .void [.int, .double]), (.double, 1, fn .void [.int, .double])],
    row.2.2.paramType row.2.1 = some row.1 ∧ row.2.2.addNoexcept.paramType row.2.1 = some row.1 := by decide

def v : Sig T := fn .void []

def i : Sig T := fn .int []

/-- The rows of 512-551. -/
def overloadable : List (Bool × Sig T × Sig T) :=
  (qualified v).map (fun f => (false, f, f)) ++
  ((qualified i).zip (qualified v)).map (fun p => (false, p.1, p.2)) ++
  [(false, v, lval v), (false, v, asConst (lval v)), (false, v, rval v), (false, v, asConst (rval v)),
   (false, asConst v, lval v), (false, asConst v, asConst (lval v)), (false, asConst v, rval v), (false, asConst v, asConst (rval v)),
   (true, v, asConst v),
   (true, lval v, asConst (lval v)), (true, lval v, rval v), (true, lval v, asConst (rval v)),
   (true, asConst (lval v), lval v), (true, asConst (lval v), rval v), (true, asConst (lval v), asConst (rval v)),
   (true, rval v, lval v), (true, rval v, asConst (lval v)), (true, rval v, asConst (rval v)),
   (true, asConst (rval v), lval v), (true, asConst (rval v), asConst (lval v)), (true, asConst (rval v), rval v),
   (true, v, fn .void [.int]), (true, i, fn .void [.int]), (true, fn .void [.int], fn .void [.short])]

/-- 508-576: `is_overloadable_with`, both ways around and with `noexcept` added to either. -/
example : overloadable.length = 36 ∧ ∀ row ∈ overloadable,
    ∀ f ∈ [row.2.1, row.2.1.addNoexcept], ∀ g ∈ [row.2.2, row.2.2.addNoexcept],
      overloadableWith f g = some row.1 ∧ overloadableWith g f = some row.1 := by decide

/-- 578-597: `is_overload_set`, also with the first signature moved to the end. -/
example : ∀ row ∈ [(false, v, [i]), (false, v, [asConst (lval v)]),
      (false, lval v, [asConst (lval v), lval i, rval v, asConst (rval v)]),
      (true, v, []), (true, v, [asConst v]),
      (true, lval v, [asConst (lval v), rval v, asConst (rval v)]),
      (true, fn .short [.int], [lval v, asConst (lval v), rval v, asConst (rval v)])],
    isOverloadSet (row.2.1 :: row.2.2) = some row.1 ∧ isOverloadSet (row.2.2 ++ [row.2.1]) = some row.1 := by decide

def intRef : T := .lref false .int

/-- Utility.cpp 95-109: `unique_list_t`. -/
example : ∀ row ∈ [([], []), ([T.int, intRef], [T.int, intRef]), ([.int, intRef], [.int, intRef, intRef]),
      ([.int, intRef, .double, .float], [.int, intRef, .double, .float]), ([.int], [.int, .int]),
      ([.int, intRef], [.int, intRef, .int]), ([.int, .double, intRef], [.int, .double, .int, intRef])],
    uniqueList row.2 = row.1 := by decide

end Mimic.Conform.Traits
