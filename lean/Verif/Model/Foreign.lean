import Verif.Model.World

/-!
# Expectations and control policies of the user's own

Models `ExpectationCollection` (`/repo/include/mimic++/Expectation.hpp` 205-357) for arbitrary implementations of the interface `Expectation`
(108-199). Among them is `BasicExpectation` (407-560) with control policies of the user's own, i.e. whatever meets the concept `control_policy`
(387-400; README.md 328): these say whether it is the expectation's turn, how it is rated, and whether it is satisfied.

Nothing is known of such objects but their member functions. They may share state with each other and with the rest of the program, which may
change it at any time between the operations on the collection.

Simplifications: member functions that are `const` (`matches`, `report`, `is_satisfied`) change nothing. The reporter does not throw when it gets
the report about a match; member functions other than `matches` that end the program are left out. The number of ratings of an expectation fits
`int`. One collection; what is done to others is a change made by the rest of the program. Threads are left out.
-/

set_option autoImplicit false

namespace Mimic.Foreign

/-- Expectation.hpp 108-199: the interface `Expectation`. `ω` is the state of the rest of the program with all these objects in it, `α` are calls,
`ρ` is what a call may end with: a value or an exception. -/
structure Objects (ω α ρ : Type) where
  /-- 172: `matches`, 502-521: what the control policy and the other policies say; `none` if one of them throws -/
  matching : Nat → ω → α → Option (ControlState × List (Bool × Option String))
  /-- 157: whether `report` returns; it does not if the control policy throws (459-482) -/
  reportable : Nat → ω → Bool
  /-- 164: `is_satisfied` -/
  satisfied : Nat → ω → Bool
  /-- 179: `consume`; whether it returns -/
  consume : Nat → ω → α → ω × Bool
  /-- 188: `finalize_call` -/
  finalize : Nat → ω → α → ω × ρ

/-- A collection (355: `m_Expectations`, the oldest first) and the rest of the program. -/
structure State (ω : Type) where
  members : List Nat
  rest : ω

/-- A use of a member function that is not `const`, or `matches`. -/
inductive Touch where
  | asked (e : Nat)
  | consumed (e : Nat)
  | finalized (e : Nat)
deriving DecidableEq, Repr

/-- Expectation.hpp 307-330 with 27-46: the expectations are asked one after the other. If one throws, `report` is used within a function that is
`noexcept`. -/
def scan {ω α ρ : Type} (O : Objects ω α ρ) (p : ω) (a : α) : List Nat → M Scan
  | [] => .ok { full := [], inapplicable := [], none := [], thrown := [] }
  | e :: es =>
    match O.matching e p a with
    | none =>
      if O.reportable e p then
        match scan O p a es with
        | .error x => .error x
        | .ok r => .ok { r with thrown := e :: r.thrown }
      else .error (.terminate "report throws within make_match_report")
    | some (c, rs) =>
      match scan O p a es with
      | .error x => .error x
      | .ok r =>
        let rep : MatchReport := { exp := e, control := c, results := rs }
        match evaluateMatchReport rep with
        | .none => .ok { r with none := rep :: r.none }
        | .inapplicable => .ok { r with inapplicable := rep :: r.inapplicable }
        | .full => .ok { r with full := rep :: r.full }

/-- What the client can do. -/
inductive FOp (ω α : Type) where
  /-- anything that the rest of the program does -/
  | change (f : ω → ω)
  /-- 258-267 -/
  | push (e : Nat)
  /-- 276-289 -/
  | remove (e : Nat)
  /-- 301-352 -/
  | call (a : α)

/-- What an operation comes to: reports (in front of them the creation or the end of an expectation), the uses of member functions, what a
call that is resolved ends with, and whether an exception of `consume` or `report` leaves the operation. -/
structure Out (ρ : Type) where
  events : List Event
  touches : List Touch := []
  result : Option ρ := none
  threw : Bool := false
deriving DecidableEq, Repr

/-- Expectation.hpp 301-352 -/
def call {ω α ρ : Type} (O : Objects ω α ρ) (s : State ω) (a : α) : M (State ω × Out ρ) :=
  match scan O s.rest a s.members.reverse with
  | .error x => .error x
  | .ok r =>
    let asked := s.members.reverse.map Touch.asked
    let unhandled := r.thrown.map Event.unhandled
    if !r.full.isEmpty then
      match pickBestMatch r.full with
      | .error x => .error x
      | .ok best =>
        match O.consume best.exp s.rest a with
        | (p, false) =>
          .ok ({ s with rest := p },
            { events := unhandled ++ [.fullMatch best.exp], touches := asked ++ [.consumed best.exp], threw := true })
        | (p, true) =>
          let (p', x) := O.finalize best.exp p a
          .ok ({ s with rest := p' },
            { events := unhandled ++ [.fullMatch best.exp], touches := asked ++ [.consumed best.exp, .finalized best.exp], result := some x })
    else if !r.inapplicable.isEmpty then
      .ok (s, { events := unhandled ++ [.inapplicable (r.inapplicable.map (·.exp))], touches := asked })
    else .ok (s, { events := unhandled ++ [.noMatch (r.none.map (·.exp))], touches := asked })

/-- One operation. -/
def step {ω α ρ : Type} (O : Objects ω α ρ) (s : State ω) : FOp ω α → M (State ω × Out ρ)
  | .change f => .ok ({ s with rest := f s.rest }, { events := [] })
  /- 262-264 -/
  | .push e =>
    if s.members.contains e then .error (.ub "push: assert(not contained)")
    else .ok ({ s with members := s.members ++ [e] }, { events := [.created e] })
  /- 280-288; the expectation is erased before it is asked -/
  | .remove e =>
    if s.members.contains e then
      let s' := { s with members := s.members.erase e }
      if O.satisfied e s.rest then .ok (s', { events := [.destroyed e] })
      else if O.reportable e s.rest then .ok (s', { events := [.destroyed e, .unfulfilled e] })
      else .ok (s', { events := [.destroyed e], threw := true })
    else .error (.ub "remove: assert(iter != end)")
  | .call a => call O s a

/-- Operations performed so far, each with what it came to, oldest first. -/
abbrev FTrace (ω α ρ : Type) := List (FOp ω α × Out ρ)

/-- Histories, from an empty collection and any state of the rest of the program. -/
inductive FReach {ω α ρ : Type} (O : Objects ω α ρ) (p₀ : ω) : FTrace ω α ρ → State ω → Prop where
  | init : FReach O p₀ [] { members := [], rest := p₀ }
  | step {th : FTrace ω α ρ} {s s' : State ω} {op : FOp ω α} {o : Out ρ} :
    FReach O p₀ th s → step O s op = .ok (s', o) → FReach O p₀ (th ++ [(op, o)]) s'

/-- Expectation.hpp 387-398: a control policy with state `σ`; `state` is `none`, and the flag of `consume` is `false`, if that throws. -/
structure ControlPolicy (σ : Type) where
  satisfied : σ → Bool
  state : σ → Option ControlState
  consume : σ → σ × Bool

/-- Expectation.hpp 407-560: `BasicExpectation`, each with its control policy, its other policies and its finalizer. The rest of the program are
the states of the control policies. Simplification: the other policies are those of the base model (they have no state); the finalizer too. -/
structure Basic (σ α ρ : Type) where
  control : Nat → ControlPolicy σ
  policies : Nat → List (Policy α)
  finalizer : Nat → α → ρ

/-- Expectation.hpp 459-543: the member functions of `BasicExpectation`. -/
def Basic.objects {σ α ρ : Type} (B : Basic σ α ρ) : Objects (Nat → σ) α ρ where
  /- 502-521 -/
  matching e p a :=
    match (B.control e).state (p e) with
    | none => none
    | some c =>
      match evalPolicies a (B.policies e) with
      | none => none
      | some rs => some (c, rs)
  /- 459-482 -/
  reportable e p := ((B.control e).state (p e)).isSome
  /- 487-497 -/
  satisfied e p := (B.control e).satisfied (p e) && (B.policies e).all (·.isSatisfied)
  /- 526-535 -/
  consume e p _ :=
    let q := (B.control e).consume (p e)
    (fun i => if i = e then q.1 else p i, q.2)
  /- 540-543 -/
  finalize e p a := (p, B.finalizer e a)

/-- Fwd.hpp, ExpectationControl.hpp: the expectations that the library itself makes, in the base model. The rest of the program is the world of
that model; finalizing a call is not part of it and yields the expectation's number. -/
def library (α : Type) : Objects (World α) α Nat where
  matching e w a :=
    match w.deref e with
    | .error _ => none
    | .ok x =>
      match x.matchReport e w.seqs a with
      | .ok (some rep) => some (rep.control, rep.results)
      | _ => none
  reportable _ _ := true
  satisfied e w :=
    match w.deref e with
    | .error _ => true
    | .ok x => x.isSatisfied
  consume e w _ :=
    match w.consume e with
    | .error _ => (w, false)
    | .ok w' => (w', true)
  finalize e w _ := (w, e)

end Mimic.Foreign
