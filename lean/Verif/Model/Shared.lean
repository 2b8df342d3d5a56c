/-!
# The reporter and several threads

Models `detail::get_reporter` (`/repo/include/mimic++/Reporter.hpp` 534-544), the report functions (547-621) and `install_reporter`
(624-640) as they are carried out by several threads at once: in pieces, as far as the pieces touch memory which is shared.

* `enter`: a report function calls `get_reporter`, which initialises its static variable if this has not happened yet (a thread that
  comes second waits for the first one, and what the first one did happens before everything the second one does afterwards), and follows
  the pointer (reads it) in order to call the report function of the reporter.
* `deliver`: the reporter object is used, and returns.
* `make`: the right hand side of the assignment in `install_reporter` constructs a new reporter.
* `assign`: the left hand side of the assignment calls `get_reporter`; the move assignment of `std::unique_ptr` overwrites the pointer.
* `destroy`: it then destroys the previous reporter.
* `release`, `acquire`: the client's own synchronisation: a mutex which is unlocked or locked, a thread which is started, ends, or is
  joined.

Simplifications: constructing a `DefaultReporter` (412-529) is one step together with the initialisation of the static variable, as it
touches nothing else; the client does not synchronise its threads in the middle of a report or an installation (a reporter may do so
on its own behalf, but this is not looked at: neither is anything it has besides being alive); reporters return (a reporter which
throws uses its object up to the throw, so this is no difference). The client's synchronisation does not block, so there are more
schedules here than there can be.
-/

set_option autoImplicit false

namespace Mimic.Shared

/-- What a thread can do next. -/
inductive Act where
  | enter
  | deliver
  | make
  | assign
  | destroy
  | release (c : Nat)
  | acquire (c : Nat)
deriving DecidableEq, Repr

/-- Where a thread is. -/
inductive Where where
  | idle
  /-- in a report, with a reference to this reporter -/
  | reporting (k : Nat)
  /-- in an installation, with a new reporter -/
  | made (k : Nat)
  /-- in an installation, with the previous reporter still to destroy -/
  | replaced (old : Nat)
deriving DecidableEq, Repr

/-- The memory that is shared: the pointer, and the reporters, numbered in the order of their construction. -/
inductive Mem where
  | pointer
  | reporter (k : Nat)
deriving DecidableEq, Repr

/-- What can be observed of a step, and the memory it uses. -/
structure Log where
  reads : List Mem := []
  writes : List Mem := []
  /-- The step has initialised the static variable of `get_reporter`, with this reporter. -/
  inits : Option Nat := none
  /-- The step has called `get_reporter`. -/
  visits : Bool := false
  /-- The reporter that is used, made, put in force, or destroyed. -/
  whom : Option Nat := none
deriving DecidableEq, Repr

structure State where
  /-- The pointer; `none` if the static variable is not initialised yet. -/
  slot : Option Nat := none
  /-- How many reporters have been constructed. -/
  count : Nat := 0
  /-- The reporters that have been destroyed. -/
  dead : List Nat := []
  /-- Where the threads are. -/
  threads : Nat → Where := fun _ => .idle

/-- The thread goes on to another place. -/
def State.go (s : State) (t : Nat) (l : Where) : State :=
  { s with threads := fun u => if u = t then l else s.threads u }

/-- `get_reporter`, Reporter.hpp 534-544: what the pointer is then, the reporter made by the initialisation, and the memory written by
it. -/
def State.get (s : State) : Nat × Option Nat × List Mem × State :=
  match s.slot with
  | some k => (k, none, [], s)
  | none => (s.count, some s.count, [.pointer, .reporter s.count], { s with slot := some s.count, count := s.count + 1 })

/-- What a step of a thread leads to. -/
inductive Result where
  /-- The thread cannot do this where it is. -/
  | never
  /-- A reporter is used that has been destroyed: undefined behaviour. -/
  | undefined
  | next (l : Log) (s : State)

/-- One step of a thread: Reporter.hpp 547-621 (`enter`, `deliver`) and 633-640 (`make`, `assign`, `destroy`). -/
def State.step (s : State) (t : Nat) : Act → Result
  | .enter =>
    match s.threads t with
    | .idle =>
      match s.get with
      | (k, new, ws, s') => .next { reads := [.pointer], writes := ws, inits := new, visits := true } (s'.go t (.reporting k))
    | _ => .never
  | .deliver =>
    match s.threads t with
    | .reporting k =>
      if k ∈ s.dead then .undefined else .next { reads := [.reporter k], whom := some k } (s.go t .idle)
    | _ => .never
  | .make =>
    match s.threads t with
    | .idle => .next { writes := [.reporter s.count], whom := some s.count } ({ s with count := s.count + 1 }.go t (.made s.count))
    | _ => .never
  | .assign =>
    match s.threads t with
    | .made k =>
      match s.get with
      | (old, new, ws, s') =>
        .next { reads := [.pointer], writes := .pointer :: ws, inits := new, visits := true, whom := some k }
          ({ s' with slot := some k }.go t (.replaced old))
    | _ => .never
  | .destroy =>
    match s.threads t with
    | .replaced old =>
      if old ∈ s.dead then .undefined
      else .next { writes := [.reporter old], whom := some old } ({ s with dead := old :: s.dead }.go t .idle)
    | _ => .never
  | .release _ => if s.threads t = .idle then .next {} s else .never
  | .acquire _ => if s.threads t = .idle then .next {} s else .never

/-- One entry of the history: who did what, and what was observed. -/
structure Entry where
  thread : Nat
  act : Act
  log : Log
deriving DecidableEq, Repr

/-- What the threads did, oldest first. -/
abbrev Schedule := List Entry

/-- A schedule, carried out from the start of the program, leads to a state. -/
inductive Leads : Schedule → State → Prop where
  | start : Leads [] {}
  | step {tr : Schedule} {s s' : State} {t : Nat} {a : Act} {l : Log} :
    Leads tr s → s.step t a = .next l s' → Leads (tr ++ [⟨t, a, l⟩]) s'

/-- The same as a function, for examples. -/
def perform : List (Nat × Act) → State → Schedule → Option (Schedule × State)
  | [], s, tr => some (tr, s)
  | (t, a) :: rest, s, tr =>
    match s.step t a with
    | .next l s' => perform rest s' (tr ++ [⟨t, a, l⟩])
    | _ => none

end Mimic.Shared
