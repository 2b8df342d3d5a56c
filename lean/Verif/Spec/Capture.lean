import Verif.Model.Capture

/-!
# Specification vocabulary: value semantics of matchers

What a client expects who does not think about how things are stored: the meaning of a matcher is fixed when it is made,
from the values that its ingredients have at that time, and only an explicit `std::move` takes something away.
-/

set_option autoImplicit false

namespace Mimic.Capture

variable {V : Type}

/-- The meaning of a matcher: what it accepts, how it describes itself, and how its negation does. -/
structure Meaning (V : Type) where
  accepts : V → Bool
  text : Option String
  opposite : Option String

/-- What is known about the client's variables and its matchers. `none`: nothing, since it was given away or destroyed. -/
structure Ideal (V : Type) where
  vals : List (Option V)
  means : List (Option (Meaning V))

def Ideal.init : Ideal V := ⟨[], []⟩

/-- The value an expression has now. -/
def Ideal.value (i : Ideal V) : Expr V → Option V
  | .named _ o => i.vals[o]?.join
  | .moved _ o => i.vals[o]?.join
  | .temp _ v => some v
  | .view o => i.vals[o]?.join

/-- A matcher made from a value. -/
def Factory.meaning (f : Factory V) (print : V → String) (v : V) : Meaning V where
  accepts t := f.rel t v
  text := vformat f.fmt (if f.shown then [print v] else [])
  opposite := vformat f.inv (if f.shown then [print v] else [])

def Meaning.invert (d : Meaning V) : Meaning V where
  accepts t := !d.accepts t
  text := d.opposite
  opposite := d.text

/-- Every element, or some element, is accepted. -/
def Meaning.nest (elems : V → List V) (each : Bool) (d : Meaning V) : Meaning V where
  accepts t := if each then (elems t).all d.accepts else (elems t).any d.accepts
  text := d.text.map ((if each then "each el in range: el " else "any el in range: el ") ++ ·)
  opposite := d.text.map ((if each then "not each el in range: el " else "none el in range: el ") ++ ·)

/-- The client gives variable `o` away. -/
def Ideal.forget (i : Ideal V) (o : Nat) : Ideal V := { i with vals := i.vals.set o none }

/-- A matcher is made from another one, which is given away only if the client says `std::move`. -/
def Ideal.derive (i : Ideal V) (how : Pass) (m : Nat) (g : Meaning V → Meaning V) : Ideal V :=
  { i with means := (if how = .moved then i.means.set m none else i.means) ++ [i.means[m]?.join.map g] }

/-- What is known after an operation. -/
def Ideal.next (elems : V → List V) (print : V → String) (i : Ideal V) : Op V → Ideal V
  | .client (.object _ v) => { i with vals := i.vals ++ [some v] }
  | .client (.assign o v) => { i with vals := i.vals.set o (some v) }
  | .client (.take o) => i.forget o
  | .client (.destroy o) => i.forget o
  | .make f e =>
    let j := { i with means := i.means ++ [(i.value e).map (f.meaning print)] }
    match e with
    | .moved _ o => j.forget o
    | _ => j
  | .nest each how m => i.derive how m (Meaning.nest elems each)
  | .invert how m => i.derive how m Meaning.invert
  | .keep how m => i.derive how m id
  | .drop m => { i with means := i.means.set m none }
  | .test _ _ => i
  | .describe _ => i

/-- The answer that the client expects. -/
def Ideal.answer (i : Ideal V) : Op V → Option (Ans V)
  | .test m t => i.means[m]?.join.map (fun d => .truth (d.accepts t))
  | .describe m => i.means[m]?.join.map (fun d => .text d.text)
  | _ => none

/-- The expected answers of a history. -/
def expected (elems : V → List V) (print : V → String) : Ideal V → List (Op V) → List (Option (Ans V))
  | _, [] => []
  | i, op :: ops => i.answer op :: expected elems print (i.next elems print op) ops

/-- Wherever an answer is expected, it is given. -/
def AsExpected (ex : List (Option (Ans V))) (as : List (Ans V)) : Prop :=
  ∀ (n : Nat) (a : Ans V), ex[n]? = some (some a) → as[n]? = some a

/-- The operation makes a matcher that refers to object `o`: a range matcher from the name of a range, a string matcher
from a character array, any matcher from a pointer, a view or a `std::reference_wrapper`. -/
def Op.refers (o : Nat) : Op V → Prop
  | .make f (.named k o') => o' = o ∧ (f.all = true ∨ k = .array)
  | .make _ (.moved k o') => o' = o ∧ k = .array
  | .make _ (.view o') => o' = o
  | _ => False

/-- The operation changes object `o` or ends its life. -/
def Op.touches (o : Nat) : Op V → Prop
  | .client (.assign o' _) => o' = o
  | .client (.take o') => o' = o
  | .client (.destroy o') => o' = o
  | .make _ (.moved _ o') => o' = o
  | _ => False

/-- `each_element` or `any_element` gets the name of a matcher. -/
def Op.nestsNamed : Op V → Prop
  | .nest _ .named _ => True
  | _ => False

/-- Objects that matchers refer to are left alone. -/
def LeftAlone (ops : List (Op V)) : Prop :=
  ∀ (n k o : Nat) (a b : Op V), ops[n]? = some a → ops[k]? = some b → n < k → a.refers o → ¬ b.touches o

/-- The operation makes a new matcher. -/
def Op.makes : Op V → Bool
  | .make _ _ => true
  | .nest _ _ _ => true
  | .invert _ _ => true
  | .keep _ _ => true
  | _ => false

/-- How many matchers a history makes; the next one gets this number. -/
def made (ops : List (Op V)) : Nat := ops.countP Op.makes

/-- The operation takes matcher `n` away: it is destroyed, moved from, or named in `each_element` or `any_element`. -/
def Op.consumes (n : Nat) : Op V → Prop
  | .nest _ .named m => m = n
  | .nest _ .moved m => m = n
  | .invert .moved m => m = n
  | .keep .moved m => m = n
  | .drop m => m = n
  | _ => False

/-- After the operations `pre` the expression `e` has the value `v`: it is a temporary, or a variable that was assigned
`v` just before. -/
inductive HasValue : List (ClientOp V) → Expr V → V → Prop where
  | temp (k : Kind) (v : V) : HasValue [] (.temp k v) v
  | named (k : Kind) (o : Nat) (v : V) : HasValue [.assign o v] (.named k o) v
  | moved (k : Kind) (o : Nat) (v : V) : HasValue [.assign o v] (.moved k o) v

/-- The operation makes a new matcher from an existing one. -/
def Op.derives : Op V → Bool
  | .nest _ _ _ => true
  | .invert _ _ => true
  | .keep _ _ => true
  | _ => false

/-! ## What can be done at all -/

/-- The kind of the variable that an operation creates. -/
def ClientOp.kind? : ClientOp V → Option Kind
  | .object k _ => some k
  | _ => none

/-- After these operations variable `o`, of kind `k`, exists. -/
def Lives (cs : List (ClientOp V)) (o : Nat) (k : Kind) : Prop :=
  (cs.filterMap ClientOp.kind?)[o]? = some k ∧ ClientOp.destroy o ∉ cs

/-- The client uses its own variables only while they exist, and does not move arrays. -/
def ClientOp.proper (cs : List (ClientOp V)) : ClientOp V → Prop
  | .object _ _ => True
  | .assign o _ => ∃ k, Lives cs o k
  | .take o => ∃ k, k ≠ .array ∧ Lives cs o k
  | .destroy o => ∃ k, Lives cs o k

/-- The expression compiles as the argument of a factory (`all`: of a range matcher), and what it names exists. -/
def Expr.proper (all : Bool) (cs : List (ClientOp V)) : Expr V → Prop
  | .named k o => Lives cs o k
  | .moved k o => Lives cs o k ∧ ¬ (all = true ∧ k = .array)
  | .temp k _ => k ≠ .array
  | .view o => ∃ k, Lives cs o k

/-- What a history does with the variables of the client. -/
def clients (ops : List (Op V)) : List (ClientOp V) :=
  ops.filterMap fun op => match op with | .client c => some c | _ => none

/-- The operation uses only what exists, and compiles. -/
def Op.proper (pre : List (Op V)) : Op V → Prop
  | .client c => c.proper (clients pre)
  | .make f e => e.proper f.all (clients pre)
  | .nest _ how m => how ≠ .constant ∧ m < made pre ∧ Op.drop m ∉ pre
  | .invert _ m => m < made pre ∧ Op.drop m ∉ pre
  | .keep _ m => m < made pre ∧ Op.drop m ∉ pre
  | .drop m => m < made pre ∧ Op.drop m ∉ pre
  | .test m _ => m < made pre ∧ Op.drop m ∉ pre
  | .describe m => m < made pre ∧ Op.drop m ∉ pre

/-! ## Finalizers -/

/-- The operation makes a new finalizer. -/
def FinOp.makes : FinOp V → Bool
  | .returns _ => true
  | .throws _ => true
  | _ => false

/-- How many finalizers a history makes; the next one gets this number. -/
def finsMade (ops : List (FinOp V)) : Nat := ops.countP FinOp.makes

/-- What a history does with the variables of the client. -/
def finClients (ops : List (FinOp V)) : List (ClientOp V) :=
  ops.filterMap fun op => match op with | .client c => some c | _ => none

/-- An argument of `finally::returns` or `finally::throws`. -/
def Expr.isArray : Expr V → Bool
  | .named .array _ => true
  | .moved .array _ => true
  | _ => false

/-- The operation uses only what exists, and compiles; `finally::throws` is not used with a `std::reference_wrapper`. -/
def FinOp.proper (pre : List (FinOp V)) : FinOp V → Prop
  | .client c => c.proper (finClients pre)
  | .returns e => e.isArray = false ∧ e.proper false (finClients pre)
  | .throws e => e.isArray = false ∧ (∀ o, e ≠ .view o) ∧ e.proper false (finClients pre)
  | .call f _ => f < finsMade pre

/-- A caller assigns to, or moves from, the reference that it got from finalizer `f`. -/
def FinOp.alters (f : Nat) : FinOp V → Prop
  | .call g (.reference (some _)) => g = f
  | .call g (.rvalue true) => g = f
  | _ => False

end Mimic.Capture
