import Verif.Proofs.Select
import Verif.Props.Mocks
import Verif.Props.Overloads

/-!
# C56, C57: which overload calls, expectations and generated methods mean
-/

set_option autoImplicit false

namespace Mimic.Select

variable {τ γ δ β : Type}

/-! ## C56: expectations and calls -/

/-- C56: an expectation is made for the overload that accepts all arguments and can be called on the object, if it suits the
object better than all other ones of this kind, no matter how well the arguments suit; there is none exactly if no overload
is acceptable, and otherwise the expression is ambiguous. -/
theorem C56_expectation (req : δ → τ → Bool) (sigs : List (Sig τ)) (o : Object) (args : List δ) :
    (∀ i, expectChoice req sigs o args = .overload i ↔ Best (Acceptable req o args) (closer o · · = true) sigs i) ∧
    (expectChoice req sigs o args = .none ↔ ∀ f ∈ sigs, ¬ Acceptable req o args f) ∧
    (expectChoice req sigs o args = .ambiguous ↔
      (∃ f ∈ sigs, Acceptable req o args f) ∧ ∀ i, ¬ Best (Acceptable req o args) (closer o · · = true) sigs i) := by
  refine ⟨fun i => expectChoice_overload, expectChoice_none, ?_⟩
  have h1 := fun i => expectChoice_overload (req := req) (sigs := sigs) (o := o) (args := args) (i := i)
  have h2 := expectChoice_none (req := req) (sigs := sigs) (o := o) (args := args)
  cases hc : expectChoice req sigs o args with
  | none =>
    simp only [reduceCtorEq, false_iff]
    rintro ⟨⟨f, hf, ha⟩, -⟩
    exact h2.mp hc f hf ha
  | ambiguous =>
    simp only [true_iff]
    refine ⟨?_, fun i hi => by rw [← h1 i, hc] at hi; cases hi⟩
    refine Classical.byContradiction (fun hn => ?_)
    have := h2.mpr (fun f hf ha => hn ⟨f, hf, ha⟩)
    rw [hc] at this
    cases this
  | overload i =>
    simp only [reduceCtorEq, false_iff]
    rintro ⟨-, hn⟩
    exact hn i ((h1 i).mp hc)

/-- C56: a call means the overload that the language's rule selects: better than all others with respect to the object and
all arguments. -/
theorem C56_call (C : Conv τ γ) (loc : τ) (sigs : List (Sig τ)) (o : Object) (args : List γ) :
    (∀ i, callChoice C loc sigs o args = .overload i ↔ Best (Callable C loc o args) (Better C loc o args) sigs i) ∧
    (callChoice C loc sigs o args = .none ↔ ∀ f ∈ sigs, ¬ Callable C loc o args f) :=
  ⟨fun _ => callChoice_overload, callChoice_none⟩

/-- C56, partial: if an expectation and a call on the same kind of object both compile, and each of the two overloads would be
possible for the other expression too, then the expectation is made for the overload that is called. -/
theorem C56_agree_partial {req : δ → τ → Bool} {C : Conv τ γ} {loc : τ} {sigs : List (Sig τ)} {o : Object} {as : List δ}
    {bs : List γ} {i j : Nat} {f g : Sig τ} (he : expectChoice req sigs o as = .overload i)
    (hc : callChoice C loc sigs o bs = .overload j) (hf : sigs[i]? = some f) (hg : sigs[j]? = some g)
    (h1 : Callable C loc o bs f) (h2 : Acceptable req o as g) : i = j := by
  obtain ⟨f', hf', _, bf⟩ := expectChoice_overload.mp he
  obtain ⟨g', hg', _, bg⟩ := callChoice_overload.mp hc
  rw [hf] at hf'
  cases hf'
  rw [hg] at hg'
  cases hg'
  by_cases h : i = j
  · exact h
  · have h3 : closer o f g = true := bf j g hg h2 (fun e => h e.symm)
    have h4 := (bg i f hf h1 h).1
    rw [h3] at h4
    cases h4

/-- C56: in a set of overloads in which those that accept the arguments differ in their qualifiers only, every expectation
that some overload accepts compiles, and it is made for the overload that is preferred for this kind of object. -/
theorem C56_preferred [DecidableEq τ] {req : δ → τ → Bool} {sigs : List (Sig τ)} {o : Object} {args : List δ}
    (hset : isOverloadSet sigs = some true) (hv : ∀ f ∈ sigs, f.variadic = false)
    (hp : ∀ f ∈ sigs, ∀ g ∈ sigs, Suits req args f → Suits req args g → f.params = g.params) :
    expectChoice req sigs o args ≠ .ambiguous ∧
    ∀ i, expectChoice req sigs o args = .overload i ↔ Preferred o (Acceptable req o args) sigs i := by
  have hne : sigs ≠ [] := by rintro rfl; simp [isOverloadSet] at hset
  have hov := ((C21_set sigs hne hv).1).mp hset
  have hb : ∀ f ∈ sigs, Acceptable req o args f → binds o f = true := fun _ _ h => h.1
  have hp' : ∀ f ∈ sigs, ∀ g ∈ sigs, Acceptable req o args f → Acceptable req o args g → f.params = g.params :=
    fun f hf g hg h1 h2 => hp f hf g hg h1.2 h2.2
  have h1 := fun i => best_preferred (i := i) hov hb hp'
  refine ⟨fun ha => ?_, fun i => expectChoice_overload.trans (h1 i)⟩
  obtain ⟨hex, hn⟩ := ((C56_expectation req sigs o args).2.2).mp ha
  obtain ⟨i, hi⟩ := exists_preferred hb hex
  exact hn i ((h1 i).mpr hi)

/-- C56: the same for a call; so an expectation that is made on an object is for calls on this kind of object. -/
theorem C56_preferred_call [DecidableEq τ] {C : Conv τ γ} {loc : τ} {sigs : List (Sig τ)} {o : Object} {args : List γ}
    (hC : C.Strict) (hset : isOverloadSet sigs = some true) (hv : ∀ f ∈ sigs, f.variadic = false)
    (hp : ∀ f ∈ sigs, ∀ g ∈ sigs, SuitsCall C loc args f → SuitsCall C loc args g → f.params = g.params) :
    callChoice C loc sigs o args ≠ .ambiguous ∧
    ∀ i, callChoice C loc sigs o args = .overload i ↔ Preferred o (Callable C loc o args) sigs i := by
  have hne : sigs ≠ [] := by rintro rfl; simp [isOverloadSet] at hset
  have hov := ((C21_set sigs hne hv).1).mp hset
  have hb : ∀ f ∈ sigs, Callable C loc o args f → binds o f = true := fun _ _ h => h.1
  have hp' : ∀ f ∈ sigs, ∀ g ∈ sigs, Callable C loc o args f → Callable C loc o args g → f.params = g.params :=
    fun f hf g hg h1 h2 => hp f hf g hg h1.2 h2.2
  have heq : ∀ i, Best (Callable C loc o args) (Better C loc o args) sigs i ↔
      Best (Callable C loc o args) (closer o · · = true) sigs i := by
    intro i
    constructor
    · rintro ⟨f, hf, pf, bf⟩
      exact ⟨f, hf, pf, fun j g hg pg hne => (better_closer hC
        (hp' f (List.mem_of_getElem? hf) g (List.mem_of_getElem? hg) pf pg)).mp (bf j g hg pg hne)⟩
    · rintro ⟨f, hf, pf, bf⟩
      exact ⟨f, hf, pf, fun j g hg pg hne => (better_closer hC
        (hp' f (List.mem_of_getElem? hf) g (List.mem_of_getElem? hg) pf pg)).mpr (bf j g hg pg hne)⟩
  have h1 := fun i => best_preferred (i := i) hov hb hp'
  have h2 : ∀ i, callChoice C loc sigs o args = .overload i ↔ Preferred o (Callable C loc o args) sigs i :=
    fun i => callChoice_overload.trans ((heq i).trans (h1 i))
  refine ⟨fun ha => ?_, h2⟩
  have hex : ∃ f ∈ sigs, Callable C loc o args f := by
    refine Classical.byContradiction (fun hn => ?_)
    have := callChoice_none.mpr (fun f hf h => hn ⟨f, hf, h⟩)
    rw [ha] at this
    cases this
  obtain ⟨i, hi⟩ := exists_preferred hb hex
  rw [(h2 i).mpr hi] at ha
  cases ha

/-- C56: without differing qualifiers, an expectation that two overloads accept is ambiguous, however different the
arguments suit (for example a wildcard, or a number for `void(int)` and `void(double)`), and one that exactly one overload
accepts is made for this one. -/
theorem C56_ambiguous {req : δ → τ → Bool} {sigs : List (Sig τ)} {o : Object} {args : List δ}
    (hq : ∀ f ∈ sigs, ∀ g ∈ sigs, f.isConst = g.isConst ∧ f.ref = g.ref) :
    (expectChoice req sigs o args = .ambiguous ↔ ∃ (i j : Nat) (f g : Sig τ), i ≠ j ∧ sigs[i]? = some f ∧ sigs[j]? = some g ∧
      Acceptable req o args f ∧ Acceptable req o args g) ∧
    ∀ i, expectChoice req sigs o args = .overload i ↔
      ∃ f, sigs[i]? = some f ∧ Acceptable req o args f ∧
        ∀ (j : Nat) g, sigs[j]? = some g → Acceptable req o args g → j = i := by
  have hcl : ∀ f ∈ sigs, ∀ g ∈ sigs, closer o f g = false := fun f hf g hg => closer_same (hq f hf g hg)
  have hbest : ∀ i, Best (Acceptable req o args) (closer o · · = true) sigs i ↔
      ∃ f, sigs[i]? = some f ∧ Acceptable req o args f ∧
        ∀ (j : Nat) g, sigs[j]? = some g → Acceptable req o args g → j = i := by
    intro i
    constructor
    · rintro ⟨f, hf, pf, bf⟩
      refine ⟨f, hf, pf, fun j g hg pg => ?_⟩
      by_cases h : j = i
      · exact h
      · have : closer o f g = true := bf j g hg pg h
        rw [hcl f (List.mem_of_getElem? hf) g (List.mem_of_getElem? hg)] at this
        cases this
    · rintro ⟨f, hf, pf, bf⟩
      exact ⟨f, hf, pf, fun j g hg pg h => (h (bf j g hg pg)).elim⟩
  refine ⟨?_, fun i => expectChoice_overload.trans (hbest i)⟩
  rw [(C56_expectation req sigs o args).2.2]
  constructor
  · rintro ⟨⟨f, hf, pf⟩, hn⟩
    obtain ⟨i, hi⟩ := List.getElem?_of_mem hf
    refine Classical.byContradiction (fun hno => hn i ((hbest i).mpr ⟨f, hi, pf, fun j g hg pg => ?_⟩))
    by_cases h : j = i
    · exact h
    · exact (hno ⟨i, j, f, g, fun e => h e.symm, hi, hg, pf, pg⟩).elim
  · rintro ⟨i, j, f, g, hne, hf, hg, pf, pg⟩
    refine ⟨⟨f, List.mem_of_getElem? hf, pf⟩, fun k hk => ?_⟩
    obtain ⟨_, _, _, hu⟩ := (hbest k).mp hk
    exact hne ((hu i f hf pf).trans (hu j g hg pg).symm)

/-- C56: an overload with an additional source location as its last parameter can never be called if there is one without it
and with the same qualifiers: that one accepts the location too. -/
theorem C56_location {C : Conv τ γ} {loc : τ} {sigs : List (Sig τ)} {o : Object} {args : List γ} {i j : Nat} {f g : Sig τ}
    (hC : C.Strict) (hf : sigs[i]? = some f) (hg : sigs[j]? = some g) (hp : g.params = f.params ++ [loc])
    (hq : f.isConst = g.isConst ∧ f.ref = g.ref) (hn : args.length = g.params.length) :
    callChoice C loc sigs o args ≠ .overload j := by
  have hirr : ∀ a t, C.better a t t = false := by
    intro a t
    cases h : C.better a t t
    · rfl
    · rw [hC a t t h] at h; cases h
  have hij : i ≠ j := by
    rintro rfl
    rw [hf] at hg
    cases hg
    have := congrArg List.length hp
    simp at this
  have hlen : args.length = f.params.length + 1 := by rw [hn, hp]; simp
  have hsame : ∀ n, n < args.length → (g.params ++ [loc])[n]? = (f.params ++ [loc])[n]? := by
    intro n hlt
    rw [hp, List.getElem?_append_left (by simp; omega)]
  intro hc
  obtain ⟨g', hg', pg, bg⟩ := callChoice_overload.mp hc
  rw [hg] at hg'
  cases hg'
  have pf : Callable C loc o args f := by
    refine ⟨?_, Or.inr hlen, fun n a t ha ht => ?_⟩
    · have := pg.1
      simpa [binds, hq.1, hq.2] using this
    · have hlt := (List.getElem?_eq_some_iff.mp ha).1
      exact pg.2.2 n a t ha (by rw [hsame n hlt]; exact ht)
  obtain ⟨_, _, h | ⟨n, a, t, u, ha, ht, hu, hb⟩⟩ := bg i f hf pf hij
  · rw [closer_same ⟨hq.1.symm, hq.2.symm⟩] at h
    cases h
  · rw [hsame n (List.getElem?_eq_some_iff.mp ha).1, hu] at ht
    cases ht
    rw [hirr] at hb
    cases hb

/-- C56: in every history, an expectation is matched only by calls that mean the same overload as the expression that created it. -/
theorem C56_history [DecidableEq τ] {req : δ → τ → Bool} {C : Conv τ γ} {loc : τ} {sigs : List (Sig τ)} {o o' : Object}
    {as : List δ} {bs : List γ} {tr : MTrace τ β} {mw mw' : MWorld τ β} (h : MReach tr mw) {m k i j e : Nat} {a : β}
    {ev : List Event} (ho : tr.origin e = some (k, i)) (hi : expectChoice req sigs o as = .overload i)
    (hj : callChoice C loc sigs o' bs = .overload j) (hs : mw.step (.call m j a) = .ok (mw', ev))
    (he : Event.fullMatch e ∈ ev) : expectChoice req sigs o as = callChoice C loc sigs o' bs := by
  obtain ⟨k', _, h2⟩ := C22_isolated h hs he
  rw [ho] at h2
  cases h2
  rw [hi, hj]

/-! ## C57: the methods of interface mocks -/

/-- C57, partial: a generated method that is not meant for rvalues only calls its own overload of the mock, if the program
compiles. Missing: methods with `&&` (C57_rvalue). -/
theorem C57_routed_partial {C : Conv τ γ} {loc : τ} {forward : τ → γ} {sigs : List (Sig τ)} {f : Sig τ} {i j : Nat}
    (hF : Forwards C forward) (hf : sigs[i]? = some f) (hr : f.ref ≠ .rvalue)
    (h : methodChoice C loc forward sigs f = .overload j) : j = i := by
  obtain ⟨g, hg, pg, bg⟩ := callChoice_overload.mp h
  by_cases hji : j = i
  · exact hji
  · have pf : Callable C loc { isConst := f.isConst, rvalue := false } (f.params.map forward) f := by
      refine ⟨?_, Or.inl (by simp), fun n a t ha ht => ?_⟩
      · cases hc : f.isConst <;> cases hrf : f.ref <;> simp_all [binds]
      · have hlt : n < f.params.length := by simpa using (List.getElem?_eq_some_iff.mp ha).1
        rw [List.getElem?_append_left hlt] at ht
        simp only [List.getElem?_map, ht, Option.map_some, Option.some.injEq] at ha
        subst ha
        exact (hF t).1
    obtain ⟨_, _, hcl | ⟨n, a, t, u, ha, ht, hu, hb⟩⟩ := bg i f hf pf (fun e => hji e.symm)
    · have hbg : binds (τ := τ) { isConst := f.isConst, rvalue := false } g = true := pg.1
      cases hc : f.isConst <;> cases hgc : g.isConst <;> simp_all [closer, binds]
    · have hlt : n < f.params.length := by simpa using (List.getElem?_eq_some_iff.mp ha).1
      rw [List.getElem?_append_left hlt] at hu
      simp only [List.getElem?_map, hu, Option.map_some, Option.some.injEq] at ha
      subst ha
      rw [(hF u).2 t] at hb
      cases hb

/-- C57: if the overloads that the forwarded parameters suit differ in their qualifiers only, then the generated method
compiles and calls its own overload. -/
theorem C57_compiles [DecidableEq τ] {C : Conv τ γ} {loc : τ} {forward : τ → γ} {sigs : List (Sig τ)} {f : Sig τ} {i : Nat}
    (hC : C.Strict) (hF : Forwards C forward) (hset : isOverloadSet sigs = some true) (hv : ∀ f ∈ sigs, f.variadic = false)
    (hf : sigs[i]? = some f) (hr : f.ref ≠ .rvalue)
    (hp : ∀ g ∈ sigs, SuitsCall C loc (f.params.map forward) g → g.params = f.params) :
    methodChoice C loc forward sigs f = .overload i := by
  have hfm := List.mem_of_getElem? hf
  have hamb := (C56_preferred_call (o := { isConst := f.isConst, rvalue := false }) (args := f.params.map forward) (loc := loc)
    hC hset hv (fun g hg g' hg' h1 h2 => (hp g hg h1).trans (hp g' hg' h2).symm)).1
  have hsuit : SuitsCall C loc (f.params.map forward) f := by
    refine ⟨Or.inl (by simp), fun n a t ha ht => ?_⟩
    have hlt : n < f.params.length := by simpa using (List.getElem?_eq_some_iff.mp ha).1
    rw [List.getElem?_append_left hlt] at ht
    simp only [List.getElem?_map, ht, Option.map_some, Option.some.injEq] at ha
    subst ha
    exact (hF t).1
  have hno : methodChoice C loc forward sigs f ≠ .none := by
    intro hn
    refine callChoice_none.mp hn f hfm ⟨?_, hsuit⟩
    cases hc : f.isConst <;> cases hrf : f.ref <;> simp_all [binds]
  cases hm : methodChoice C loc forward sigs f with
  | none => exact (hno hm).elim
  | ambiguous => exact (hamb hm).elim
  | overload j => rw [C57_routed_partial hF hf hr hm]

/-- C57 is violated: a generated method with `&&` never calls its own overload, since the mock is named in it; if there is no
other overload that can be called, then it does not compile. -/
theorem C57_rvalue {C : Conv τ γ} {loc : τ} {forward : τ → γ} {sigs : List (Sig τ)} {f : Sig τ} {i : Nat}
    (hf : sigs[i]? = some f) (hr : f.ref = .rvalue) :
    methodChoice C loc forward sigs f ≠ .overload i ∧
    ((∀ g ∈ sigs, g.ref = .rvalue) → methodChoice C loc forward sigs f = .none) := by
  have key : ∀ g : Sig τ, g.ref = .rvalue →
      ¬ Callable C loc { isConst := f.isConst, rvalue := false } (f.params.map forward) g := by
    intro g hg h
    have := h.1
    simp [binds, hg] at this
  refine ⟨fun h => ?_, fun hall => callChoice_none.mpr (fun g hg => key g (hall g hg))⟩
  obtain ⟨g, hg, pg, -⟩ := callChoice_overload.mp h
  rw [hf] at hg
  cases hg
  exact key f hr pg

/-- C57 is violated: so in no history an expectation for an `&&` method is matched by a call of this method. -/
theorem C57_unmet [DecidableEq τ] {C : Conv τ γ} {loc : τ} {forward : τ → γ} {sigs : List (Sig τ)} {f : Sig τ} {m k i j e : Nat}
    (hf : sigs[i]? = some f) (hr : f.ref = .rvalue) (hm : methodChoice C loc forward sigs f = .overload j)
    {tr : MTrace τ β} {mw mw' : MWorld τ β} (h : MReach tr mw) (ho : tr.origin e = some (k, i)) {a : β} {ev : List Event}
    (hs : mw.step (.call m j a) = .ok (mw', ev)) : Event.fullMatch e ∉ ev := by
  intro he
  obtain ⟨k', _, h2⟩ := C22_isolated h hs he
  rw [ho] at h2
  cases h2
  exact (C57_rvalue (C := C) (loc := loc) (forward := forward) hf hr).1 hm

/-! ## Examples, with a few types -/

namespace Example

inductive Base where
  | int
  | double
  | string
  | stringView
  | location
deriving DecidableEq, Repr

/-- `T`, `T&`, `const T&`, `T&&` -/
inductive Form where
  | value
  | lref
  | cref
  | rref
deriving DecidableEq, Repr

abbrev Ty := Base × Form

/-- An argument expression: its type, whether it is `const` and whether it is an rvalue. -/
structure Arg where
  base : Base
  isConst : Bool
  rvalue : Bool

def becomes : Base → Base → Bool
  | .int, .double => true
  | .double, .int => true
  | .string, .stringView => true
  | a, b => a = b

def conv : Conv Ty Arg where
  converts a t :=
    match t.2 with
    | .value => becomes a.base t.1
    | .cref => becomes a.base t.1
    | .lref => a.base = t.1 && !a.rvalue && !a.isConst
    | .rref => if a.base = t.1 then a.rvalue && !a.isConst else becomes a.base t.1
  better a t u :=
    (a.base = t.1 && a.base ≠ u.1) ||
    (a.base = t.1 && a.base = u.1 && u.2 = .cref && ((a.rvalue && t.2 = .rref) || (!a.isConst && !a.rvalue && t.2 = .lref)))

def forward : Ty → Arg
  | (b, .value) => ⟨b, false, true⟩
  | (b, .lref) => ⟨b, false, false⟩
  | (b, .cref) => ⟨b, true, false⟩
  | (b, .rref) => ⟨b, false, true⟩

def loc : Ty := (.location, .cref)

/-- `none`: the wildcard; `some b`: a value of this type, which is compared. -/
def req : Option Base → Ty → Bool
  | none, _ => true
  | some .int, (b, _) => b = .int || b = .double
  | some .double, (b, _) => b = .int || b = .double
  | some .string, (b, _) => b = .string || b = .stringView
  | some .stringView, (b, _) => b = .string || b = .stringView
  | some .location, _ => false

/-- `void(ps...)` with qualifiers. -/
def sig (ps : List Ty) (isConst : Bool) (ref : RefQual) : Sig Ty := ⟨(.int, .value), ps, false, isConst, ref, false⟩

def int : Ty := (.int, .value)
def named : Object := ⟨false, false⟩
def const : Object := ⟨true, false⟩
def temporary : Object := ⟨false, true⟩

/-- The hypotheses about conversions can be met. -/
theorem conv_strict : conv.Strict := by
  rintro ⟨b, c, r⟩ ⟨t, tf⟩ ⟨u, uf⟩
  cases b <;> cases t <;> cases u <;> cases tf <;> cases uf <;> cases c <;> cases r <;> decide

theorem conv_forwards : Forwards conv forward := by
  rintro ⟨t, tf⟩
  refine ⟨by cases t <;> cases tf <;> decide, ?_⟩
  rintro ⟨u, uf⟩
  cases t <;> cases u <;> cases tf <;> cases uf <;> decide

/-- `void(int)`, `void(double)`: the call is clear, the expectation is not. -/
example : callChoice conv loc [sig [int] false .none, sig [(.double, .value)] false .none] named [⟨.int, false, true⟩] = .overload 0 ∧
    expectChoice req [sig [int] false .none, sig [(.double, .value)] false .none] named [some .int] = .ambiguous := by decide

/-- `void(int) &`, `void(int) const &`, `void(int) &&`, `void(int) const &&` (C56_preferred, C56_preferred_call). -/
def four : List (Sig Ty) := [sig [int] false .lvalue, sig [int] true .lvalue, sig [int] false .rvalue, sig [int] true .rvalue]

example : isOverloadSet four = some true ∧
    [named, const, temporary, ⟨true, true⟩].map (fun o => expectChoice req four o [some .int]) =
      [.overload 0, .overload 1, .overload 2, .overload 3] ∧
    [named, const, temporary, ⟨true, true⟩].map (fun o => callChoice conv loc four o [⟨.int, false, true⟩]) =
      [.overload 0, .overload 1, .overload 2, .overload 3] := by decide

/-- Without the third overload a temporary uses the fourth, without that the second. -/
example : expectChoice req [sig [int] false .lvalue, sig [int] true .lvalue, sig [int] true .rvalue] temporary [none] = .overload 2 ∧
    expectChoice req [sig [int] false .lvalue, sig [int] true .lvalue] temporary [none] = .overload 1 := by decide

/-- C56_location: `void(int)` and `void(int, const std::source_location&)`. -/
example : callChoice conv loc [sig [int] false .none, sig [int, loc] false .none] named
    [⟨.int, false, true⟩, ⟨.location, true, false⟩] = .ambiguous := by decide

/-- `void(std::string)`, `void(std::string_view) const` -/
def strings : List (Sig Ty) := [sig [(.string, .value)] false .none, sig [(.stringView, .value)] true .none]

end Example

open Example in
/-- C56 is not true in general: a mock with `void(std::string)` and `void(std::string_view) const`: the expression
`mock.expect_call(view)` makes an expectation for the first one, `mock(view)` calls the second one. -/
theorem C56_counterexample :
    isOverloadSet strings = some true ∧ expectChoice req strings named [some .stringView] = .overload 0 ∧
    callChoice conv loc strings named [⟨.stringView, false, false⟩] = .overload 1 := by decide

open Example in
/-- ... so that the call does not match the expectation. -/
example : (MWorld.final (β := Nat) [.newMock strings, .expect 0 0 1 1 [] [] [], .call 0 1 5]).2.map (·.2) =
    [[.mockCreated 0, .mockCreated 1], [.created 0], [.noMatch []]] := by decide

open Example in
/-- C57 is not true in general: with methods `void f(int) &` and `void f(int) &&`, a call on a temporary object is a call of the
overload for lvalues. -/
theorem C57_counterexample :
    isOverloadSet four = some true ∧ Forwards conv forward ∧ conv.Strict ∧
    four.map (methodChoice conv loc forward four) = [.overload 0, .overload 1, .overload 0, .overload 1] :=
  ⟨by decide, conv_forwards, conv_strict, by decide⟩

open Example in
/-- Non-vacuity of C57_routed_partial and C57_compiles: `void f(int)`, `void f(int) const`, `void f(std::string&)`. -/
example : isOverloadSet [sig [int] false .none, sig [int] true .none, sig [(.string, .lref)] false .none] = some true ∧
    [sig [int] false .none, sig [int] true .none, sig [(.string, .lref)] false .none].map
      (methodChoice conv loc forward [sig [int] false .none, sig [int] true .none, sig [(.string, .lref)] false .none]) =
    [.overload 0, .overload 1, .overload 2] := by decide

open Example in
/-- A single `&&` method does not compile (C57_rvalue). -/
example : methodChoice conv loc forward [sig [int] false .rvalue] (sig [int] false .rvalue) = .none := by decide

end Mimic.Select
