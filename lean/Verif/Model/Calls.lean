import Verif.Model.World

/-!
# Carrying out calls: side effects, finalizers, nested calls, `noexcept`

Models `BasicExpectation::consume` and `finalize_call` (`/repo/include/mimic++/Expectation.hpp` 526-544), their use in
`handle_call` (333-352), the policies and finalizers of `/repo/include/mimic++/ExpectationPolicies.hpp` (18-28, 90-148,
213-357, 403-717), and the binding of parameters and `noexcept` in `/repo/include/mimic++/Mock.hpp` (29-45, 65-519).

Client code is a tree of operations: it may read and write objects, use the library, catch exceptions, and attach further
client code to expectations. Objects live in a memory of cells; references are addresses. Nesting may be unbounded, so
that the interpreter carries fuel; `none` means that the fuel was too small.
-/

set_option autoImplicit false

namespace Mimic

variable {V : Type}

/-- What a matcher can look at: the memory and the addresses of the arguments
(Call.hpp 40-48: `args` is a tuple of `std::reference_wrapper`s). -/
structure Snap (V : Type) where
  mem : List V
  args : List Nat

/-- Exceptions seen by the client. The two reports of unresolved calls end with an exception of the reporter
(Reporter.hpp 66-101; what it throws is up to the reporter). -/
inductive Exc where
  | user (x : Nat)
  | noMatch
  | inapplicable
deriving DecidableEq, Repr

/-- How a function ends. -/
inductive Outcome (V : Type) where
  | ret (v : V)
  | exc (x : Exc)
deriving DecidableEq, Repr

/-- How a parameter is declared: a new object, or a reference (lvalue or rvalue) to the caller's object. -/
inductive ParamKind where
  | value
  | ref
deriving DecidableEq, Repr

/-- Client code, in continuation style. A library operation that may throw hands its outcome to the continuation,
which may catch the exception or pass it on.
`expect` is given the side effects (in the order of attachment) and the finalizer; both receive the addresses of the
arguments. -/
inductive Code (V : Type) where
  | done (o : Outcome V)
  /-- A program that would not compile. -/
  | illFormed
  | read (addr : Nat) (k : V → Code V)
  | write (addr : Nat) (v : V) (k : Code V)
  | newSequence (strategy : Strategy) (k : Code V)
  | dropSequence (s : Nat) (k : Code V)
  | newMock (noexc : Bool) (params : List ParamKind) (k : Code V)
  | expect (m : Nat) (min max : Int) (tags : List Nat) (policies : List (Policy (Snap V)))
      (effects : List (List Nat → Code V)) (fin : List Nat → Code V) (k : Code V)
  | call (m : Nat) (args : List Nat) (k : Outcome V → Code V)
  | destroy (e : Nat) (k : Code V)

/-- What an expectation carries out (the policies with effects, Expectation.hpp 529-534, and `m_Finalizer`, 559). -/
structure Acts (V : Type) where
  effects : List (List Nat → Code V)
  fin : List Nat → Code V

/-- The state of the program. `mocks[m]` are the properties of the mock with storage `m`, `acts[e]` the actions of
expectation `e`. -/
structure CState (V : Type) where
  w : World (Snap V)
  mem : List V
  mocks : List (Bool × List ParamKind)
  acts : List (Acts V)

def CState.init (mem : List V) : CState V := { w := World.init, mem := mem, mocks := [], acts := [] }

/-- What happens, in order. -/
inductive Obs (V : Type) where
  /-- A library operation and its reports. A call counts until its match was counted. -/
  | op (o : Op (Snap V)) (ev : List Event)
  /-- Side effect number `i` of expectation `e` begins. -/
  | effect (e i : Nat)
  /-- The finalizer of expectation `e` begins. -/
  | final (e : Nat)

/-- The parameters one by one: a by-value parameter is a new object initialised with the argument; a reference
parameter denotes the argument itself. -/
def bindParams (mem : List V) : List ParamKind → List Nat → Option (List V × List Nat)
  | [], [] => some (mem, [])
  | .value :: ps, a :: as =>
    match mem[a]? with
    | none => none
    | some v =>
      match bindParams (mem ++ [v]) ps as with
      | none => none
      | some (mem', locs) => some (mem', mem.length :: locs)
  | .ref :: ps, a :: as =>
    match bindParams mem ps as with
    | none => none
    | some (mem', locs) => some (mem', a :: locs)
  | _, _ => none

/-- Mock.hpp 29-45 and 65-519: the parameters of `operator()`. `none`: wrong number of arguments, or an argument does not
exist. -/
def bindArgs (mem : List V) (ps : List ParamKind) (as : List Nat) : Option (List V × List Nat) :=
  if as.all (fun a => decide (a < mem.length)) then bindParams mem ps as else none

/-- Which exception the reporter throws for an unresolved call. -/
def unresolvedExc (ev : List Event) : Exc :=
  if ev.any (fun x => match x with | .inapplicable _ => true | _ => false) then .inapplicable else .noMatch

/-- The result of carrying out client code: `none` if the fuel was too small. -/
abbrev Res (V A : Type) := Option (M (CState V × List (Obs V) × A))

/-- Whether the `ScopedExpectation` of `e` still exists. -/
def World.isAlive {α : Type} (w : World α) (e : Nat) : Bool :=
  match w.exps[e]? with
  | some x => x.alive
  | none => false

/-- Prefixes a log. -/
def Res.log {A : Type} (o : Obs V) : Res V A → Res V A
  | some (.ok (s, log, r)) => some (.ok (s, o :: log, r))
  | x => x

/-- Appends what follows. -/
def Res.andThen {A B : Type} (r : Res V A) (f : CState V → A → Res V B) : Res V B :=
  match r with
  | none => none
  | some (.error x) => some (.error x)
  | some (.ok (s, log, o)) =>
    match f s o with
    | none => none
    | some (.error x) => some (.error x)
    | some (.ok (s', log', o')) => some (.ok (s', log ++ log', o'))

/-- An outcome leaves a function; an exception must not leave a `noexcept` function. -/
def Res.leave (noexc : Bool) : Res V (Outcome V) → Res V (Outcome V)
  | some (.ok (s, log, .exc x)) =>
    if noexc then some (.error (.terminate "exception leaves a noexcept mock")) else some (.ok (s, log, .exc x))
  | r => r

/-- A library operation other than a call. -/
def CState.lib (s : CState V) (o : Op (Snap V)) (f : CState V → List Event → Res V (Outcome V)) :
    Res V (Outcome V) :=
  match s.w.step o with
  | .error x => some (.error x)
  | .ok (w', ev) => Res.log (.op o ev) (f { s with w := w' } ev)

mutual
/-- Carries out client code. -/
def exec : Nat → CState V → Code V → Res V (Outcome V)
  | 0, _, _ => none
  | n + 1, s, c =>
    match c with
    | .done o => some (.ok (s, [], o))
    | .illFormed => some (.error (.client "ill-formed program"))
    | .read a k =>
      match s.mem[a]? with
      | none => some (.error (.client "dangling reference"))
      | some v => exec n s (k v)
    | .write a v k =>
      if a < s.mem.length then exec n { s with mem := s.mem.set a v } k
      else some (.error (.client "dangling reference"))
    | .newSequence st k => s.lib (.newSequence st) (fun s' _ => exec n s' k)
    | .dropSequence q k => s.lib (.dropSequence q) (fun s' _ => exec n s' k)
    | .newMock noexc params k =>
      s.lib .newMock (fun s' _ => exec n { s' with mocks := s'.mocks ++ [(noexc, params)] } k)
    | .expect m min max tags policies effects fin k =>
      s.lib (.expect m min max tags policies) (fun s' ev =>
        exec n (if ev = [.rejected] then s' else { s' with acts := s'.acts ++ [⟨effects, fin⟩] }) k)
    | .destroy e k => s.lib (.destroy e) (fun s' _ => exec n s' k)
    | .call m args k => (invoke n s m args).andThen (fun s' o => exec n s' (k o))

/-- `mock(args...)`: binding of the parameters, `handle_call` (Expectation.hpp 300-352), and `noexcept`
(Mock.hpp 65-519: the call operator has the signature's `noexcept`). -/
def invoke : Nat → CState V → Nat → List Nat → Res V (Outcome V)
  | 0, _, _, _ => none
  | n + 1, s, m, args =>
    match s.mocks[m]? with
    | none => some (.error (.client "call on a non-existing mock"))
    | some (noexc, params) =>
      match bindArgs s.mem params args with
      | none => some (.error (.client "invalid arguments"))
      | some (mem', locs) =>
        match s.w.handleCall m ⟨mem', locs⟩ with
        | .error x => some (.error x)
        | .ok (w', ev, none) =>
          Res.leave noexc (some (.ok ({ s with w := w', mem := mem' }, [.op (.call m ⟨mem', locs⟩) ev], .exc (unresolvedExc ev))))
        | .ok (w', ev, some e) =>
          match s.acts[e]? with
          | none => some (.error (.ub "no actions"))
          | some acts =>
            Res.leave noexc (Res.log (.op (.call m ⟨mem', locs⟩) ev)
              ((runEffects n { s with w := w', mem := mem' } e 0 acts.effects locs).andThen (fun s' _ =>
                if s'.w.isAlive e then Res.log (.final e) (exec n s' (acts.fin locs))
                else some (.error (.ub "expectation destroyed while it is executing")))))

/-- Expectation.hpp 529-534: `(..., policies.consume(call))` inside a `noexcept` lambda.
Side effects ignore what the action returns (ExpectationPolicies.hpp 252-259). -/
def runEffects : Nat → CState V → Nat → Nat → List (List Nat → Code V) → List Nat → Res V Unit
  | 0, _, _, _, _, _ => none
  | _ + 1, s, _, _, [], _ => some (.ok (s, [], ()))
  | n + 1, s, e, i, c :: cs, locs =>
    if s.w.isAlive e then
      Res.log (.effect e i) ((exec n s (c locs)).andThen (fun s' o =>
        match o with
        | .exc _ => some (.error (.terminate "exception leaves a side effect"))
        | .ret _ => runEffects n s' e (i + 1) cs locs))
    else some (.error (.ub "expectation destroyed while it is executing"))
end

/-! ## Argument selection -/

/-- ExpectationPolicies.hpp 311-357: `ApplyArgsAction<Action, Projection, indices...>`: the addresses of the selected
arguments; `none`: an index is out of range (337: a `requires` clause). -/
def selectArgs (indices : List Nat) (locs : List Nat) : Option (List Nat) := indices.mapM (fun i => locs[i]?)

/-- ExpectationPolicies.hpp 647-717: `then::apply_arg`, `then::apply_args`: the selected arguments are handed to the
action as lvalue references. -/
def applyArgs (indices : List Nat) (action : List Nat → Code V) (locs : List Nat) : Code V :=
  match selectArgs indices locs with
  | some ls => action ls
  | none => .illFormed

/-- ExpectationPolicies.hpp 265-309, `then::apply_all`. -/
def applyAll (action : List Nat → Code V) (locs : List Nat) : Code V := action locs

/-- `then::invoke`. -/
def invokeAction (action : Code V) (_ : List Nat) : Code V := action

/-- ExpectationPolicies.hpp 500-513: `finally::returns(value)`; the value is copied at every call. Simplification: the return
type is an object type; references to the stored value are modelled in `Model/Capture`. -/
def returnsValue (v : V) (_ : List Nat) : Code V := .done (.ret v)

/-- 465-481: `finally::returns_result_of`. -/
def returnsResultOf (fn : Code V) (_ : List Nat) : Code V := fn

/-- 526-543: `finally::returns_apply_result_of`. -/
def returnsApplyResultOf (indices : List Nat) (action : List Nat → Code V) (locs : List Nat) : Code V :=
  applyArgs indices action locs

/-- 575-588: `finally::returns_arg<index>`: the current value of the argument. Simplification: that an argument passed by
value or by rvalue reference is moved from, and returned references, are modelled in `Model/Forward.lean` only. -/
def returnsArg (index : Nat) (locs : List Nat) : Code V :=
  match locs[index]? with
  | some l => .read l (fun v => .done (.ret v))
  | none => .illFormed

/-- 598-608: `finally::throws`. -/
def throwsExc (x : Nat) (_ : List Nat) : Code V := .done (.exc (.user x))

/-- 403-425 and 150-211: `expect::arg<index>(matcher, projection)`: the matcher sees the projected argument. -/
def expectArg (index : Nat) (matcher : V → Option Bool) : Policy (Snap V) where
  accepts s :=
    match s.args[index]? with
    | some l =>
      match s.mem[l]? with
      | some v => matcher v
      | none => none
    | none => none

end Mimic
