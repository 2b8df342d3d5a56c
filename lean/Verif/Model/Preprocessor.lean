import Verif.Model.Macros

/-!
# Macro replacement

How a preprocessor replaces macros: [cpp.replace] of the C++ standard, in the way common preprocessors do it. While the
replacement of a macro is being scanned, the name of that macro is not replaced, and stays so for ever ("painted"). Arguments are
replaced on their own before they are inserted, except next to `##`.

Simplifications: `#` and nested `##` do not occur in these macros; ill-formed input yields no result. When the argument list of
a macro reaches beyond the end of the replacement that the macro name came from, that replacement is over (the standard leaves
this open; GCC and Clang do it so).
-/

set_option autoImplicit false

namespace Mimic.Pp

/-- What is still to be scanned: tokens and the places at which the replacement of a macro ends. -/
inductive Item where
  | tok (t : Tok)
  | stop (m : Macro)
deriving DecidableEq, Repr

/-- The macros whose replacement is being scanned. -/
abbrev Active := Macro → Bool

/-- [cpp.rescan] The replacement of `m` ends later in what is to be scanned. -/
def stops (r : List Item) (m : Macro) : Bool := r.contains (.stop m)

/-- The macro that the token names. -/
def Tok.macro : Tok → Option Macro
  | .id s false => lookup s
  | _ => none

/-- [cpp.rescan]/3 -/
def Tok.paint : Tok → Tok
  | .id s _ => .id s true
  | t => t

/-- [cpp.replace]/11 Whether the next token is `(`. -/
def openParen : List Item → Option (List Item)
  | .stop _ :: r => openParen r
  | .tok .lp :: r => some r
  | _ => none

/-- [cpp.replace]/11 The tokens up to the matching `)`. -/
def takeArgs : Nat → List Item → Option (List Tok × List Item)
  | _, [] => none
  | d, .stop _ :: r => takeArgs d r
  | d, .tok t :: r =>
    match t, d with
    | .rp, 0 => some ([], r)
    | .rp, d + 1 => (takeArgs d r).map (fun x => (t :: x.1, x.2))
    | .lp, d => (takeArgs (d + 1) r).map (fun x => (t :: x.1, x.2))
    | _, d => (takeArgs d r).map (fun x => (t :: x.1, x.2))

/-- Puts a token in front of the first argument. -/
def consArg (t : Tok) : List (List Tok) → List (List Tok)
  | [] => [[t]]
  | a :: as => (t :: a) :: as

/-- [cpp.replace]/11 The arguments are separated by the commas outside of inner parentheses. -/
def splitArgs : Nat → List Tok → List (List Tok)
  | _, [] => [[]]
  | d, t :: ts =>
    match t, d with
    | .comma, 0 => [] :: splitArgs 0 ts
    | .lp, d => consArg t (splitArgs (d + 1) ts)
    | .rp, d => consArg t (splitArgs (d - 1) ts)
    | _, d => consArg t (splitArgs d ts)

/-- Arguments with commas in between. -/
def joinArgs : List (List Tok) → List Tok
  | [] => []
  | [a] => a
  | a :: as => a ++ Tok.comma :: joinArgs as

/-- [cpp.replace]/4, 15 The arguments for `n` named parameters, and the remaining ones for the ellipsis. -/
def bindArgs (n : Nat) (variadic : Bool) (as : List (List Tok)) : Option (List (List Tok)) :=
  if variadic then
    if n ≤ as.length then some (as.take n ++ [joinArgs (as.drop n)]) else none
  else if n = 0 then
    if as = [[]] then some [] else none
  else
    if as.length = n then some as else none

/-- The argument at this place. -/
def argAt (args : List (List Tok)) (i : Nat) : List Tok := args[i]?.getD []

/-- [cpp.concat] The tokens at both sides of `##`, as they were written. -/
def Operand.raw (args : List (List Tok)) : Operand → List Tok
  | .lit s => [.id s false]
  | .arg i => argAt args i

/-- [cpp.concat]/3 -/
def glue (l r : List Tok) : Option (List Tok) :=
  match l.reverse, r with
  | [], r => some r
  | _, [] => some l
  | .id s _ :: l', .id s' _ :: r' => some (l'.reverse ++ Tok.id (s ++ s') false :: r')
  | _, _ => none

/-- [cpp.subst]/1 `ex`: the complete replacement of an argument. -/
def Part.subst (ex : List Tok → Option (List Tok)) (args : List (List Tok)) : Part → Option (List Tok)
  | .tok t => some [t]
  | .arg i => ex (argAt args i)
  | .cat l r => glue (l.raw args) (r.raw args)

/-- The same for a list. -/
def substParts (ex : List Tok → Option (List Tok)) (args : List (List Tok)) : List Part → Option (List Tok)
  | [] => some []
  | p :: ps =>
    match p.subst ex args with
    | none => none
    | some x =>
      match substParts ex args ps with
      | none => none
      | some xs => some (x ++ xs)

/-- [cpp.subst]/3 `__VA_OPT__` is replaced by its content iff the variable arguments are not empty. -/
def substElems (ex : List Tok → Option (List Tok)) (args : List (List Tok)) : List Elem → Option (List Tok)
  | [] => some []
  | .one p :: es =>
    match p.subst ex args with
    | none => none
    | some x =>
      match substElems ex args es with
      | none => none
      | some xs => some (x ++ xs)
  | .opt ps :: es =>
    match ex (argAt args (args.length - 1)) with
    | none => none
    | some [] => substElems ex args es
    | some (_ :: _) =>
      match substParts ex args ps with
      | none => none
      | some x =>
        match substElems ex args es with
        | none => none
        | some xs => some (x ++ xs)

/-- [cpp.rescan] Scans what is given. The first argument bounds the number of steps; `act` are macros whose replacement is being
scanned further outside. -/
def expand : Nat → Active → List Item → Option (List Tok)
  | 0, _, _ => none
  | _ + 1, _, [] => some []
  | f + 1, act, .stop _ :: r => expand f act r
  | f + 1, act, .tok t :: r =>
    match t.macro with
    | none => (expand f act r).map (t :: ·)
    | some m =>
      if act m || stops r m then (expand f act r).map (t.paint :: ·)
      else
        match m.define.params with
        | none =>
          match substElems (fun _ => none) [] m.define.body with
          | none => none
          | some ts => expand f act (ts.map .tok ++ .stop m :: r)
        | some (n, variadic) =>
          match openParen r with
          | none => (expand f act r).map (t :: ·)
          | some r1 =>
            match takeArgs 0 r1 with
            | none => none
            | some (raw, r2) =>
              match bindArgs n variadic (splitArgs 0 raw) with
              | none => none
              | some args =>
                match substElems (fun x => expand f (fun k => act k || stops r2 k) (x.map .tok)) args m.define.body with
                | none => none
                | some ts => expand f act (ts.map .tok ++ .stop m :: r2)

/-- Replaces all macros in the text. -/
def preprocess (fuel : Nat) (ts : List Tok) : Option (List Tok) := expand fuel (fun _ => false) (ts.map .tok)

end Mimic.Pp
