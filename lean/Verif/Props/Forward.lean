import Verif.Proofs.Forward

/-!
# C62: what `finally::returns_arg` hands out
-/

set_option autoImplicit false

namespace Mimic.Forward

open Mimic.Capture (Kind Cell Obj Fault)

variable {V : Type}

theorem castable_iff (p : Pass) (ret : Ret) : castable (projected p) ret = allowed p ret := by
  cases p <;> cases ret <;> rfl

/-- Where the parameter that is returned is, and what it holds after the side effects. -/
theorem returned {objs objs' : List (Obj V)} {ps : List (Param V)} {es : List (Effect V)} {i : Nat} {ret : Ret} {r : Result V}
    (h : call objs ps es i ret = .ok (objs', r)) {p : Param V} (hp : ps[i]? = some p) :
    ∃ objs₂ objs₃ l, finalize objs₂ p l ret = .ok (objs₃, r) ∧ objs' = bury objs.length objs₃ ∧ objs.length ≤ objs₃.length ∧
      (p.isNew = true → objs.length ≤ l) ∧ (p.isNew = false → p.arg.mentions = some l ∧ l < objs.length) ∧
      (Alone ps i → ∀ v, p.arg.Is objs p.kind v → Holds objs₂ l p.kind (after p.kind i es v)) := by
  obtain ⟨hn, objs₁, ls, objs₂, objs₃, p', l, h1, h2, h3, h4, h5, h6⟩ := call_ok h
  rw [hp] at h3
  cases h3
  obtain ⟨a1, a2, _⟩ := bindAll_objs h1
  obtain ⟨b1, _, b3⟩ := runEffects_ok h2
  obtain ⟨_, c2, _⟩ := finalize_ok h5
  obtain ⟨l', e1, _, e2, e3⟩ := bindAll_places hn h1 (Nat.le_refl _) i p hp
  rw [h4] at e1
  cases e1
  refine ⟨objs₂, objs₃, l, h5, h6, by omega, fun hb => (e2 hb).1, e3, ?_⟩
  intro ha v hv
  obtain ⟨_, w, d1, d2, _⟩ := bindAll_holds hn h1 (Nat.le_refl _) i p l hp h4 ha
  rw [hv.unique d1]
  exact b3 i l p.kind w h4 (places_alone hn h1 (Nat.le_refl _) hp h4 ha) d2

/-- C62, partial: the variable that is initialised with the result has the value of the argument as the side effects left it, whether the
mock returns an object or a reference; unless it returns a reference although the parameter is a new object, see C62_dangles. -/
theorem C62_returns_partial {objs objs' : List (Obj V)} {ps : List (Param V)} {es : List (Effect V)} {i : Nat} {ret : Ret} {r : Result V}
    (h : call objs ps es i ret = .ok (objs', r)) {p : Param V} (hp : ps[i]? = some p) (ha : Alone ps i) {v : Option V}
    (hv : p.arg.Is objs p.kind v) (hr : ret = .object ∨ p.isNew = false) :
    ∃ objs'', receive objs' ret r = .ok (objs'', after p.kind i es v) ∧ objs''.length = objs'.length + 1 ∧
      Holds objs'' objs'.length p.kind (after p.kind i es v) := by
  obtain ⟨objs₂, objs₃, l, h1, h2, h3, h4, h5, h6⟩ := returned h hp
  have hl := h6 ha v hv
  obtain ⟨_, c2, c3, c4, c5⟩ := finalize_ok h1
  by_cases hret : ret = .object
  · obtain ⟨rfl, _, _⟩ := c5 hret _ _ hl
    refine ⟨_, rfl, by simp, ?_⟩
    cases after p.kind i es v <;> simp [Holds]
  · have hb : p.isNew = false := by rcases hr with hr | hr; exact absurd hr hret; exact hr
    obtain ⟨rfl, rfl⟩ := c4 hret
    obtain ⟨_, hlt⟩ := h5 hb
    have hl' : Holds objs' l p.kind (after p.kind i es v) := hl.congr (by rw [h2]; exact bury_old hlt h3)
    obtain ⟨x, d1, d2, d3, d4⟩ := look_of hl'
    refine ⟨(if ret = .rref then objs'.set l ⟨x.kind, x.cell.left x.kind⟩ else objs') ++ [x], ?_, ?_, ?_⟩
    · simp [receive, bind, Except.bind, pure, Except.pure, d1]
    · split <;> simp
    · refine hl'.congr (o := l) ?_
      rw [d3]
      split <;> simp [List.getElem?_append_right]

/-- C62: a mock that returns a reference hands out the argument itself: an object of the caller, which is still there after the call. -/
theorem C62_itself {objs objs' : List (Obj V)} {ps : List (Param V)} {es : List (Effect V)} {i : Nat} {ret : Ret} {r : Result V}
    (h : call objs ps es i ret = .ok (objs', r)) {p : Param V} (hp : ps[i]? = some p) (hr : ret ≠ .object) (hb : p.isNew = false) :
    ∃ o, p.arg.mentions = some o ∧ o < objs.length ∧ r = .ref o := by
  obtain ⟨objs₂, objs₃, l, h1, h2, h3, h4, h5, h6⟩ := returned h hp
  obtain ⟨_, c2, c3, c4, c5⟩ := finalize_ok h1
  exact ⟨l, (h5 hb).1, (h5 hb).2, (c4 hr).1⟩

/-- C62, what is wrong: a mock that returns a reference compiles with `finally::returns_arg` even if the parameter is passed by value
or bound to a temporary. The reference that the caller gets refers to an object that is gone. -/
theorem C62_dangles {objs objs' : List (Obj V)} {ps : List (Param V)} {es : List (Effect V)} {i : Nat} {ret : Ret} {r : Result V}
    (h : call objs ps es i ret = .ok (objs', r)) {p : Param V} (hp : ps[i]? = some p) (hr : ret ≠ .object) (hb : p.isNew = true) :
    receive objs' ret r = .error .dangling := by
  obtain ⟨objs₂, objs₃, l, h1, h2, h3, h4, h5, h6⟩ := returned h hp
  obtain ⟨_, c2, c3, c4, c5⟩ := finalize_ok h1
  obtain ⟨rfl, rfl⟩ := c4 hr
  simp [receive, bind, Except.bind, h2, look_buried (h4 hb)]

/-- C62: a call that compiles has arguments that fit the parameters. -/
theorem C62_fits {objs objs' : List (Obj V)} {ps : List (Param V)} {es : List (Effect V)} {i : Nat} {ret : Ret} {r : Result V}
    (h : call objs ps es i ret = .ok (objs', r)) : ∀ p ∈ ps, fits p.pass p.arg := by
  obtain ⟨_, objs₁, ls, objs₂, objs₃, p', l, h1, _⟩ := call_ok h
  exact bindAll_fits h1

/-- C62: which mocks can be used with `finally::returns_arg<i>()`: there must be a parameter `i`, and its type must fit the return type. A
call with arguments that exist and fit is then never a mistake. -/
theorem C62_compiles {objs : List (Obj V)} {ps : List (Param V)} {es : List (Effect V)} (i : Nat) (ret : Ret)
    (hv : Valid objs ps) (he : Polite ps es) :
    (∃ objs' r, call objs ps es i ret = .ok (objs', r)) ↔ ∃ p, ps[i]? = some p ∧ allowed p.pass ret = true := by
  constructor
  · rintro ⟨objs', r, h⟩
    obtain ⟨hn, objs₁, ls, objs₂, objs₃, p', l, h1, h2, h3, h4, h5, h6⟩ := call_ok h
    exact ⟨p', h3, by rw [← castable_iff]; exact (finalize_ok h5).1⟩
  · rintro ⟨p, hp, hc⟩
    have hn : (ps.any (fun p => p.arg.mentions.any (fun o => decide (objs.length ≤ o)))) = false := by
      rw [Bool.eq_false_iff]
      simp only [ne_eq, List.any_eq_true, not_exists, not_and]
      intro q hq hm
      obtain ⟨_, v, hqv⟩ := hv q hq
      cases hqm : q.arg.mentions with
      | none => rw [hqm] at hm; simp at hm
      | some o => rw [hqm] at hm; simp at hm; have := hqv.lt hqm; omega
    obtain ⟨objs₁, ls, h1, _, h2⟩ := bindAll_total hv
    obtain ⟨objs₂, h3, h4⟩ := runEffects_total he h2
    obtain ⟨l, v, h5, h6⟩ := h2 i p hp
    obtain ⟨v', h7⟩ := h4 _ _ _ h6
    obtain ⟨x, h8, _⟩ := look_of h7
    rw [← castable_iff] at hc
    unfold call
    simp only [hn, bind, Except.bind, pure, Except.pure, h1, h3, hp, h5, Bool.false_eq_true, if_false]
    unfold finalize
    simp only [hc, if_true, bind, Except.bind, pure, Except.pure, h8]
    by_cases hret : ret = .object
    · simp only [hret, if_true]
      by_cases hq : projected p.pass = .rref
      · simp only [hq, if_true]
        exact ⟨_, _, rfl⟩
      · simp only [hq, if_false]
        exact ⟨_, _, rfl⟩
    · simp only [hret, if_false]
      exact ⟨_, _, rfl⟩

/-- C62: the call does nothing to an object of the caller that no argument mentions, and to one that a single argument mentions what
`fate` says. -/
theorem C62_caller {objs objs' : List (Obj V)} {ps : List (Param V)} {es : List (Effect V)} {i : Nat} {ret : Ret} {r : Result V}
    (h : call objs ps es i ret = .ok (objs', r)) (o : Nat) (ho : o < objs.length) :
    ((∀ p ∈ ps, p.arg.mentions ≠ some o) → objs'[o]? = objs[o]?) ∧
    (∀ (j : Nat) (p : Param V) (v : Option V), ps[j]? = some p → p.arg.mentions = some o → Alone ps j → Holds objs o p.kind v →
      Holds objs' o p.kind (fate p j es i ret v)) := by
  obtain ⟨hn, objs₁, ls, objs₂, objs₃, q, l, h1, h2, h3, h4, h5, h6⟩ := call_ok h
  obtain ⟨a1, a2, a3⟩ := bindAll_objs h1
  obtain ⟨b1, b2, b3⟩ := runEffects_ok h2
  obtain ⟨_, c2, c3, c4, c5⟩ := finalize_ok h5
  have hlast : objs'[o]? = objs₃[o]? := by rw [h6]; exact bury_old ho (by omega)
  constructor
  · intro hm
    have hu := untouched hn h1 (Nat.le_refl _) ho (fun q hq _ => hm q hq)
    rw [hlast, c3 o (fun e => hu i (e ▸ h4)), b2 o hu, a3 o ho]
    intro p hp _ e
    exact hm p hp (by rw [e]; rfl)
  · intro j p v hj hm ha hv
    have hjl : j < ls.length := by rw [a1]; exact (List.getElem?_eq_some_iff.1 hj).1
    obtain ⟨_, w, d1, d2, d3⟩ := bindAll_holds hn h1 (Nat.le_refl _) j p ls[j] hj (List.getElem?_eq_getElem hjl) ha
    have hw : v = w := by
      refine Arg.Is.unique (a := p.arg) (objs := objs) (k := p.kind) ?_ d1
      cases hpa : p.arg <;> rw [hpa] at hm <;> simp [Arg.mentions] at hm <;> rw [hm] <;> exact hv
    subst hw
    obtain ⟨l', e1, e2, e3, e4⟩ := bindAll_places hn h1 (Nat.le_refl _) j p hj
    rw [List.getElem?_eq_getElem hjl] at e1
    cases e1
    refine Holds.congr (objs := objs₃) (o := o) ?_ hlast
    by_cases hpv : p.pass = .value
    · -- a new object: nothing happens to `o` after binding
      have hu : ∀ m : Nat, ls[m]? ≠ some o := by
        apply untouched hn h1 (Nat.le_refl _) ho
        intro q' hq' hb' hm'
        obtain ⟨m, hml⟩ := List.getElem?_of_mem hq'
        by_cases hmj : m = j
        · subst hmj
          rw [hj] at hml
          cases hml
          simp [Param.isNew, hpv] at hb'
        · rcases ha m p q' hmj hj hml with h' | h'
          · rw [hm] at h'; simp at h'
          · exact h' (by rw [hm', hm])
      have hrest : objs₃[o]? = objs₁[o]? := by rw [c3 o (fun e => hu i (e ▸ h4)), b2 o hu]
      refine Holds.congr (objs := objs₁) (o := o) ?_ hrest
      cases hpa : p.arg with
      | temp t => rw [hpa] at hm; simp [Arg.mentions] at hm
      | moved o' =>
        rw [hpa] at hm
        simp only [Arg.mentions, Option.some.injEq] at hm
        subst hm
        simp only [fate, hpv, hpa]
        exact d3 o' hpv hpa
      | named o' =>
        rw [hpa] at hm
        simp only [Arg.mentions, Option.some.injEq] at hm
        subst hm
        simp only [fate, hpv, hpa]
        refine hv.congr (a3 o' ho ?_)
        intro p' hp' hpv' hpa'
        obtain ⟨m, hml⟩ := List.getElem?_of_mem hp'
        by_cases hmj : m = j
        · subst hmj
          rw [hj] at hml
          cases hml
          rw [hpa] at hpa'
          cases hpa'
        · rcases ha m p p' hmj hj hml with h' | h'
          · rw [hpa] at h'; simp [Arg.mentions] at h'
          · exact h' (by rw [hpa', hpa]; rfl)
    · have hb : p.isNew = false := by simp [Param.isNew, hpv, hm]
      have hlo : ls[j] = o := by have := (e4 hb).1; rw [hm] at this; exact (Option.some.inj this).symm
      have hls : ls[j]? = some o := by rw [List.getElem?_eq_getElem hjl, hlo]
      rw [hlo] at d2
      have halone := places_alone hn h1 (Nat.le_refl _) hj hls ha
      have heff := b3 j o p.kind v hls halone d2
      by_cases hji : j = i
      · subst hji
        rw [h3] at hj
        cases hj
        rw [h4] at hls
        cases hls
        by_cases hret : ret = .object
        · obtain ⟨_, f1, f2⟩ := c5 hret _ _ heff
          cases hpp : q.pass
          · exact absurd hpp hpv
          · simp only [fate, hpp]; rw [f2 (by simp [projected, hpp])]; exact heff
          · simp only [fate, hpp]; rw [f2 (by simp [projected, hpp])]; exact heff
          · simp only [fate, hpp, hret, and_self, if_true]; exact f1 (by simp [projected, hpp])
          · simp only [fate, hpp]; rw [f2 (by simp [projected, hpp])]; exact heff
        · obtain ⟨_, rfl⟩ := c4 hret
          cases hpp : q.pass
          · exact absurd hpp hpv
          all_goals simp only [fate, hpp, hret, and_false, if_false]; exact heff
      · have hol : o ≠ l := by
          intro e
          subst e
          exact halone i (Ne.symm hji) h4
        have := heff.congr (c3 o hol)
        cases hpp : p.pass
        · exact absurd hpp hpv
        all_goals simp only [fate, hpp, hji, false_and, if_false]; exact this

/-- C62: an object of the caller that is passed by reference to `const` only is the same after the call, whatever the side effects are. -/
theorem C62_const {objs objs' : List (Obj V)} {ps : List (Param V)} {es : List (Effect V)} {i : Nat} {ret : Ret} {r : Result V}
    (h : call objs ps es i ret = .ok (objs', r)) (o : Nat) (ho : o < objs.length)
    (hc : ∀ p ∈ ps, p.arg.mentions = some o → p.pass = .constLref ∨ p.pass = .constRref) : objs'[o]? = objs[o]? := by
  obtain ⟨hn, objs₁, ls, objs₂, objs₃, q, l, h1, h2, h3, h4, h5, h6⟩ := call_ok h
  obtain ⟨a1, a2, a3⟩ := bindAll_objs h1
  obtain ⟨b1, _, _⟩ := runEffects_ok h2
  obtain ⟨_, c2, c3, c4, c5⟩ := finalize_ok h5
  have hlast : objs'[o]? = objs₃[o]? := by rw [h6]; exact bury_old ho (by omega)
  have hplace : ∀ (j : Nat) (p : Param V), ls[j]? = some o → ps[j]? = some p → p.pass = .constLref ∨ p.pass = .constRref := by
    intro j p hj hp
    obtain ⟨l', e1, _, e2, e3⟩ := bindAll_places hn h1 (Nat.le_refl _) j p hp
    rw [hj] at e1
    cases e1
    cases hb : p.isNew with
    | true => have := (e2 hb).1; omega
    | false => exact hc p (List.mem_of_getElem? hp) (e3 hb).1
  have h12 := runEffects_const hplace h2
  have h01 : objs₁[o]? = objs[o]? := by
    refine a3 o ho fun p hp hv hm => ?_
    rcases hc p hp (by rw [hm]; rfl) with h' | h' <;> rw [hv] at h' <;> cases h'
  rw [hlast, ← h01, ← h12]
  by_cases hol : o = l
  · subst hol
    have hq := hplace i q h4 h3
    by_cases hret : ret = .object
    · have hx : ∃ x, look objs₂ o = .ok x := by
        unfold finalize at h5
        simp only [hret, if_true, bind, Except.bind, pure, Except.pure] at h5
        split at h5 <;> try contradiction
        split at h5 <;> try contradiction
        exact ⟨_, by assumption⟩
      obtain ⟨⟨x, v⟩, hx⟩ := hx
      rw [(c5 hret _ _ (look_ok hx).1).2.2 (by rcases hq with h' | h' <;> rw [h'] <;> simp [projected])]
    · rw [(c4 hret).2]
  · exact c3 o hol

/-- C62: what initialising a variable with the result does to the objects: from `T&&` the object that was handed out is moved from, even
if the caller passed it as an lvalue; nothing else changes. -/
theorem C62_received {objs objs' objs'' : List (Obj V)} {ps : List (Param V)} {es : List (Effect V)} {i : Nat} {ret : Ret} {r : Result V}
    {v : Option V} (h : call objs ps es i ret = .ok (objs', r)) (hr : receive objs' ret r = .ok (objs'', v)) (o : Nat) (ho : o < objs.length) :
    (∀ k w, r = .ref o → Holds objs' o k w → Holds objs'' o k (if ret = .rref then remains k w else w)) ∧
    (r ≠ .ref o → objs''[o]? = objs'[o]?) := by
  obtain ⟨hn, objs₁, ls, objs₂, objs₃, q, l, h1, h2, h3, h4, h5, h6⟩ := call_ok h
  obtain ⟨a1, a2, a3⟩ := bindAll_objs h1
  obtain ⟨b1, b2, b3⟩ := runEffects_ok h2
  obtain ⟨_, c2, c3, c4, c5⟩ := finalize_ok h5
  have hlen : o < objs'.length := by rw [h6, bury_length]; omega
  cases r with
  | object k w =>
    simp only [receive, Except.ok.injEq, Prod.mk.injEq] at hr
    obtain ⟨rfl, rfl⟩ := hr
    exact ⟨by simp, fun _ => List.getElem?_append_left hlen⟩
  | ref l' =>
    simp only [receive, bind, Except.bind, pure, Except.pure] at hr
    split at hr <;> try contradiction
    rename_i xw hx
    obtain ⟨x, w⟩ := xw
    simp only [Except.ok.injEq, Prod.mk.injEq] at hr
    obtain ⟨rfl, rfl⟩ := hr
    obtain ⟨f1, f2⟩ := look_ok hx
    constructor
    · intro k w' e hw
      cases e
      obtain ⟨rfl, rfl⟩ := f1.unique hw
      by_cases hret : ret = .rref
      · simp only [hret, if_true]
        exact (holds_left f1 f2).congr (List.getElem?_append_left (by simpa using hlen))
      · simp only [hret, if_false]
        exact f1.congr (List.getElem?_append_left hlen)
    · intro hne
      have hne' : l' ≠ o := fun e => hne (by rw [e])
      split
      · rw [List.getElem?_append_left (by simpa using hlen), getElem?_set_other hne']
      · exact List.getElem?_append_left hlen

/-! ## Examples -/

namespace Example

/-- Two strings and a number. -/
def world : List (Obj Nat) := [⟨.owning, .holds 10⟩, ⟨.owning, .holds 20⟩, ⟨.plain, .holds 7⟩]

/-- `mock(x, std::move(y), 7)` for `Mock<…(std::string&, std::string&&, int)>`. -/
def params : List (Param Nat) := [⟨.owning, .lref, .named 0⟩, ⟨.owning, .rref, .moved 1⟩, ⟨.plain, .value, .named 2⟩]

/-- `then::apply_arg<0>([](auto& x) { x = 11; })`, `then::apply_arg<2>([](auto& n) { ++n; })`. -/
def effects : List (Effect Nat) := [⟨0, fun _ => .assign 11⟩, ⟨2, fun v => match v with | some v => .assign (v + 1) | none => .keep⟩]

/-- Summary of a call and an initialisation: what the variable holds, and what the objects of the caller hold afterwards. -/
def outcome (i : Nat) (ret : Ret) : Except Fault (Option Nat × List (Option Nat)) := do
  let (objs, r) ← call world params effects i ret
  let (objs, v) ← receive objs ret r
  return (v, (objs.take 3).map fun x => match x.cell with | .holds v => some v | _ => none)

example : outcome 0 .object = .ok (some 11, [some 11, some 20, some 7]) := rfl
example : outcome 0 .lref = .ok (some 11, [some 11, some 20, some 7]) := rfl
/- the caller passed `x` as an lvalue and finds it moved from -/
example : outcome 0 .rref = .ok (some 11, [none, some 20, some 7]) := rfl
example : outcome 1 .object = .ok (some 20, [some 11, none, some 7]) := rfl
example : outcome 1 .constLref = .ok (some 20, [some 11, some 20, some 7]) := rfl
example : outcome 1 .lref = .error .illFormed := rfl
/- the side effect on the copy is seen in the result, not in the object of the caller -/
example : outcome 2 .object = .ok (some 8, [some 11, some 20, some 7]) := rfl
example : outcome 2 .constLref = .error .dangling := rfl
example : outcome 3 .object = .error .illFormed := rfl

/-- The hypotheses of the theorems are met. -/
theorem alone (i : Nat) : Alone params i := by
  intro j p q hj hp hq
  match i, j with
  | 0, 0 => exact absurd rfl hj
  | 0, 1 => cases hp; cases hq; exact .inr (by decide)
  | 0, 2 => cases hp; cases hq; exact .inr (by decide)
  | 1, 0 => cases hp; cases hq; exact .inr (by decide)
  | 1, 1 => exact absurd rfl hj
  | 1, 2 => cases hp; cases hq; exact .inr (by decide)
  | 2, 0 => cases hp; cases hq; exact .inr (by decide)
  | 2, 1 => cases hp; cases hq; exact .inr (by decide)
  | 2, 2 => exact absurd rfl hj
  | _ + 3, _ => simp [params] at hp
  | 0, _ + 3 => simp [params] at hq
  | 1, _ + 3 => simp [params] at hq
  | 2, _ + 3 => simp [params] at hq

theorem valid : Valid world params := by
  intro p hp
  simp only [params, List.mem_cons, List.not_mem_nil, or_false] at hp
  rcases hp with rfl | rfl | rfl
  · exact ⟨by simp [fits], some 10, rfl⟩
  · exact ⟨by simp [fits], some 20, rfl⟩
  · exact ⟨by simp [fits], some 7, rfl⟩

theorem polite : Polite params effects := by
  intro e he
  simp only [effects, List.mem_cons, List.not_mem_nil, or_false] at he
  rcases he with rfl | rfl
  · exact ⟨_, rfl, by simp⟩
  · exact ⟨_, rfl, by simp⟩

/- C62_compiles -/
example : ∃ objs' r, call world params effects 1 .constLref = .ok (objs', r) :=
  (C62_compiles 1 .constLref valid polite).2 ⟨_, rfl, rfl⟩
/- C62_returns_partial -/
example : ∃ objs' r objs'', call world params effects 0 .lref = .ok (objs', r) ∧ receive objs' .lref r = .ok (objs'', some 11) :=
  have h : call world params effects 0 .lref = .ok (_, _) := rfl
  ⟨_, _, _, h, (C62_returns_partial h rfl (alone 0) (v := some 10) rfl (.inr rfl)).choose_spec.1⟩
/- C62_itself -/
example : ∃ objs' r, call world params effects 0 .lref = .ok (objs', r) ∧ ∃ o, params[0].arg.mentions = some o ∧ o < 3 ∧ r = .ref o :=
  have h : call world params effects 0 .lref = .ok (_, _) := rfl
  ⟨_, _, h, C62_itself h rfl (by decide) rfl⟩
/- C62_dangles -/
example : ∃ objs' r, call world params effects 2 .constLref = .ok (objs', r) ∧ receive objs' .constLref r = .error .dangling :=
  have h : call world params effects 2 .constLref = .ok (_, _) := rfl
  ⟨_, _, h, C62_dangles h rfl (by decide) rfl⟩
/- C62_caller: the moved object is taken by the result -/
example : ∃ objs' r, call world params effects 1 .object = .ok (objs', r) ∧ Holds objs' 1 .owning none :=
  have h : call world params effects 1 .object = .ok (_, _) := rfl
  ⟨_, _, h, (C62_caller h 1 (by decide)).2 1 _ (some 20) rfl rfl (alone 1) rfl⟩
/- C62_const: an action that would change the object does not compile -/
example : ∃ objs' r, call world [⟨.owning, .constLref, .named 0⟩] [⟨0, fun _ => .keep⟩] 0 .object = .ok (objs', r) ∧
    objs'[0]? = world[0]? :=
  have h : call world [⟨.owning, .constLref, .named 0⟩] [⟨0, fun _ => .keep⟩] 0 .object = .ok (_, _) := rfl
  ⟨_, _, h, C62_const h 0 (by decide) (by simp)⟩
example : call world [⟨.owning, .constRref, .moved 0⟩] [⟨0, fun _ => .take⟩] 0 .object = .error .illFormed := rfl
/- C62_received: the lvalue is moved from -/
example : ∃ objs' r objs'' v, call world params effects 0 .rref = .ok (objs', r) ∧ receive objs' .rref r = .ok (objs'', v) ∧
    Holds objs'' 0 .owning none :=
  have h : call world params effects 0 .rref = .ok (_, _) := rfl
  have h' : receive _ .rref (.ref 0) = .ok (_, _) := rfl
  ⟨_, _, _, _, h, h', (C62_received h h' 0 (by decide)).1 .owning (some 11) rfl rfl⟩

end Example

end Mimic.Forward
