import Verif.Model.Reach

/-!
# Printers that call mocks

Models `ExpectationCollection::handle_call` (`/repo/include/mimic++/Expectation.hpp` 300-352) together with `make_match_report`
(27-46) for arguments whose printers (`mimicpp::print`, Printer.hpp; called by `make_call_report`, Reports.hpp 242-263) are programs
of their own. An argument may be a mocked object, or contain one, and its printer or formatter then calls that object's functions,
for example `name()`.

* If a policy of an expectation throws, the arguments are printed for the report about the exception (39-42). That happens inside the
  loop, while the storage's mutex `m_ExpectationsMx` is held (307-331): a call of the same mock from there locks a `std::mutex` twice,
  which is undefined behaviour.
* After the loop the arguments are printed once more for the report about the call (336, 345, 350), when it has already been decided
  which expectation resolves the call (334) but before that expectation is consumed (338). The mutex is not held then.

Simplifications: what a mock returns is represented by the expectation that resolved the call (or that none did, in which case the
call ended with an exception, which the printer catches; printers that throw are the subject of `Model/Fragile.lean`); the reports
about exceptions of matchers are listed together with the other report of their call, though calls made by printers come in between;
printers neither create nor withdraw expectations; policies are pure functions here (`Model/Nested.lean` is about others).
-/

set_option autoImplicit false

namespace Mimic.Display

variable {α : Type}

/-- What printing the arguments of a call does: the calls it makes, depending on how they end. -/
inductive Show (α : Type) where
  | done
  | call (m : Nat) (a : α) (next : Option Nat → Show α)

/-- How calls are carried out: the new world, all calls that have ended meanwhile, oldest first and this one last, and the expectation
that resolved this one. -/
abbrev Rec (α : Type) := World α → Nat → α → M (World α × Trace α × Option Nat)

/-- Reports.hpp 242-263: `make_call_report`, as far as printing the arguments is concerned. -/
def print (rec : Rec α) (w : World α) : Show α → M (World α × Trace α)
  | .done => .ok (w, [])
  | .call m a next =>
    match rec w m a with
    | .error x => .error x
    | .ok (w', tr, r) =>
      match print rec w' (next r) with
      | .error x => .error x
      | .ok (w'', tr') => .ok (w'', tr ++ tr')

/-- Expectation.hpp 307-331: the matching loop; `p` prints the arguments `a` (39-43, only if a policy threw). -/
def scan (rec : Rec α) (p : Show α) (a : α) (w : World α) : List Nat → M (World α × Trace α × Scan)
  | [] => .ok (w, [], { full := [], inapplicable := [], none := [], thrown := [] })
  | e :: rest =>
    match w.deref e with
    | .error x => .error x
    | .ok x =>
      match x.matchReport e w.seqs a with
      | .error x => .error x
      | .ok none =>
        match print rec w p with
        | .error x => .error x
        | .ok (w', tr) =>
          match scan rec p a w' rest with
          | .error x => .error x
          | .ok (w'', tr', r) => .ok (w'', tr ++ tr', { r with thrown := e :: r.thrown })
      | .ok (some rep) =>
        match scan rec p a w rest with
        | .error x => .error x
        | .ok (w', tr, r) =>
          match evaluateMatchReport rep with
          | .none => .ok (w', tr, { r with none := rep :: r.none })
          | .inapplicable => .ok (w', tr, { r with inapplicable := rep :: r.inapplicable })
          | .full => .ok (w', tr, { r with full := rep :: r.full })

/-- The model gives up on calls that are nested too deeply. -/
def tooDeep : Stop := .client "nested too deeply"

/-- Expectation.hpp 300-352: `handle_call`, up to and including the control policy's `consume`. `shows m a` is what printing the
arguments `a` of a call of mock `m` does; `held` are the mocks whose mutex is locked by this thread. -/
def call (shows : Nat → α → Show α) : Nat → List Nat → Rec α
  | 0, _ => fun _ _ _ => .error tooDeep
  | fuel + 1, held => fun w m a =>
    match w.colls[m]? with
    | none => .error (.client "call on a non-existing mock")
    | some es =>
      if held.contains m then .error (.ub "a std::mutex is locked twice by one thread")
      else
        match scan (call shows fuel (m :: held)) (shows m a) a w es.reverse with
        | .error x => .error x
        | .ok (w', tr, r) =>
          let unhandled := r.thrown.map Event.unhandled
          if !r.full.isEmpty then
            match pickBestMatch r.full with
            | .error x => .error x
            | .ok best =>
              match print (call shows fuel held) w' (shows m a) with
              | .error x => .error x
              | .ok (w'', tr') =>
                match w''.consume best.exp with
                | .error x => .error x
                | .ok w₃ => .ok (w₃, tr ++ tr' ++ [(.call m a, unhandled ++ [.fullMatch best.exp])], some best.exp)
          else
            match print (call shows fuel held) w' (shows m a) with
            | .error x => .error x
            | .ok (w'', tr') =>
              if !r.inapplicable.isEmpty then
                .ok (w'', tr ++ tr' ++ [(.call m a, unhandled ++ [.inapplicable (r.inapplicable.map (·.exp))])], none)
              else
                .ok (w'', tr ++ tr' ++ [(.call m a, unhandled ++ [.noMatch (r.none.map (·.exp))])], none)

/-- One client operation; calls may be nested up to `fuel` deep. -/
def step (shows : Nat → α → Show α) (fuel : Nat) (w : World α) : Op α → M (World α × Trace α)
  | .call m a =>
    match call shows fuel [] w m a with
    | .error x => .error x
    | .ok (w', tr, _) => .ok (w', tr)
  | op =>
    match w.step op with
    | .error x => .error x
    | .ok (w', ev) => .ok (w', [(op, ev)])

/-- Client operations performed so far, each with the operations of the library that it consisted of, oldest first. -/
abbrev DTrace (α : Type) := List (Op α × Trace α)

/-- Histories. -/
inductive DReach (shows : Nat → α → Show α) : DTrace α → World α → Prop where
  | init : DReach shows [] World.init
  | step {dh : DTrace α} {w w' : World α} {op : Op α} {tr : Trace α} {fuel : Nat} :
    DReach shows dh w → step shows fuel w op = .ok (w', tr) → DReach shows (dh ++ [(op, tr)]) w'

end Mimic.Display
