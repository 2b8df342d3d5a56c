import Verif.Spec.Own
import Verif.Proofs.NestedRuns
import Verif.Proofs.Scoped

/-!
# Lemmas about policies and finalizers of the user's own
-/

set_option autoImplicit false

namespace Mimic.Own

open Mimic.Nested (Seen asked plain_static expect_static)

variable {σ α ρ : Type}

theorem askAll_true (ps : List (Policy σ α)) (a : α) : askAll ps a = some true ↔ Accept ps a := by
  induction ps with
  | nil => simp [askAll, Accept]
  | cons p ps ih =>
    simp only [askAll, Accept, List.forall_mem_cons] at ih ⊢
    cases h : p.accepts p.state a with
    | none => simp
    | some b =>
      cases h2 : askAll ps a with
      | none => rw [h2] at ih; cases b <;> simp_all
      | some c => rw [h2] at ih; cases b <;> cases c <;> simp_all

theorem askAll_none (ps : List (Policy σ α)) (a : α) : askAll ps a = none ↔ Throw ps a := by
  induction ps with
  | nil => simp [askAll, Throw]
  | cons p ps ih =>
    simp only [askAll, Throw] at ih ⊢
    cases h : p.accepts p.state a with
    | none => simp [h]
    | some b => simp [ih, h]

theorem consumeAll_passed {ps ps' : List (Policy σ α)} {a left : α} :
    consumeAll ps a = some (ps', left) ↔ Passed ps a ps' left := by
  constructor
  · intro h
    induction ps generalizing a ps' with
    | nil =>
      simp only [consumeAll, Option.some.injEq, Prod.mk.injEq] at h
      obtain ⟨rfl, rfl⟩ := h
      exact .nil
    | cons p ps ih =>
      simp only [consumeAll] at h
      split at h
      · simp at h
      · rename_i hc
        split at h
        · simp at h
        · rename_i hr
          simp only [Option.some.injEq, Prod.mk.injEq] at h
          obtain ⟨rfl, rfl⟩ := h
          exact .cons hc (ih hr)
  · intro h
    induction h with
    | nil => rfl
    | cons hc _ ih => simp only [consumeAll, hc, ih]

theorem consumeAll_none {ps : List (Policy σ α)} {a : α} : consumeAll ps a = none ↔ ¬ ∃ ps' left, Passed ps a ps' left := by
  cases h : consumeAll ps a with
  | none =>
    simp only [true_iff]
    rintro ⟨ps', left, hp⟩
    rw [consumeAll_passed.mpr hp] at h
    simp at h
  | some r =>
    simp only [reduceCtorEq, false_iff, Classical.not_not]
    exact ⟨r.1, r.2, consumeAll_passed.mp h⟩

theorem Passed.unique {ps qs rs : List (Policy σ α)} {a l r : α} (h : Passed ps a qs l) (h' : Passed ps a rs r) : qs = rs ∧ l = r := by
  have h1 := consumeAll_passed.mpr h
  rw [consumeAll_passed.mpr h'] at h1
  simp only [Option.some.injEq, Prod.mk.injEq] at h1
  exact ⟨h1.1.symm, h1.2.symm⟩

theorem Used.unique {i j k : Inner σ α ρ} {as : List α} (h : Used i as j) (h' : Used i as k) : j = k := by
  induction h generalizing k with
  | fresh =>
    generalize hl : ([] : List α) = l at h'
    cases h' with
    | fresh => rfl
    | took => simp at hl
  | @took as j a left ps hu hp ih =>
    generalize hl : as ++ [a] = l at h'
    cases h' with
    | fresh => simp at hl
    | @took as' j' a' left' ps' hu' hp' =>
      obtain ⟨rfl, h2⟩ := List.append_inj' hl rfl
      simp only [List.cons.injEq, and_true] at h2
      subst h2
      obtain rfl := ih hu'
      obtain ⟨rfl, rfl⟩ := hp.unique hp'
      rfl

/-- Which expectation resolved the call. -/
theorem handleCall_result {w w' : World α} {m : Nat} {a : α} {ev : List Event} {r : Option Nat}
    (h : w.handleCall m a = .ok (w', ev, r)) :
    ∃ us : List Nat, match r with
      | some e => ev = us.map Event.unhandled ++ [.fullMatch e] ∧ e < w.exps.length
      | none => ∃ last, ev = us.map Event.unhandled ++ [last] ∧ ∀ e, last ≠ .fullMatch e := by
  unfold World.handleCall at h
  split at h
  · simp at h
  · simp only [bind, Except.bind, pure, Except.pure] at h
    split at h
    · simp at h
    · rename_i sc _
      refine ⟨sc.thrown, ?_⟩
      split at h
      · split at h
        · simp at h
        · rename_i best _
          split at h
          · simp at h
          · rename_i w₂ hc
            simp only [Except.ok.injEq, Prod.mk.injEq] at h
            obtain ⟨_, rfl, rfl⟩ := h
            refine ⟨rfl, ?_⟩
            unfold World.consume World.deref at hc
            cases hx : w.exps[best.exp]? with
            | none => simp [hx, bind, Except.bind] at hc
            | some x => exact (List.getElem?_eq_some_iff.mp hx).1
      · split at h
        · simp only [Except.ok.injEq, Prod.mk.injEq] at h
          obtain ⟨_, rfl, rfl⟩ := h
          exact ⟨_, rfl, by simp⟩
        · simp only [Except.ok.injEq, Prod.mk.injEq] at h
          obtain ⟨_, rfl, rfl⟩ := h
          exact ⟨_, rfl, by simp⟩

theorem handleCall_full {w w' : World α} {m : Nat} {a : α} {ev : List Event} {r : Option Nat}
    (h : w.handleCall m a = .ok (w', ev, r)) (e : Nat) : (Event.fullMatch e ∈ ev ↔ r = some e) ∧
    ev.count (.fullMatch e) = if r = some e then 1 else 0 := by
  have hz : ∀ us : List Nat, (us.map Event.unhandled).count (.fullMatch e) = 0 := by
    intro us
    rw [List.count_eq_zero]
    simp
  obtain ⟨us, hr⟩ := handleCall_result h
  cases r with
  | none =>
    obtain ⟨last, rfl, hl⟩ := hr
    have := hl e
    rw [List.count_append, hz]
    simp [this, eq_comm]
  | some e' =>
    obtain ⟨rfl, _⟩ := hr
    rw [List.count_append, hz]
    by_cases he : e = e' <;> simp [he, eq_comm]

/-- What is kept. -/
structure Good (tr : Trace (Seen α)) (s : Store σ α ρ) : Prop where
  reach : Reach tr s.w
  len : s.inner.length = s.w.exps.length
  decl : ∀ e d, tr.decl e = some d → d.policies = [asked e]

/-- What an operation declares. -/
def madeStep (e : Nat) (st : OOp σ α ρ × Came α ρ) : Option (Inner σ α ρ) :=
  match st with
  | (.expect _ _ _ _ inner, c) => if Event.created e ∈ c.events then some inner else none
  | _ => none

def minStep (e : Nat) (st : OOp σ α ρ × Came α ρ) : Option Int :=
  match st with
  | (.expect _ min _ _ _, c) => if Event.created e ∈ c.events then some min else none
  | _ => none

def tookStep (e : Nat) (st : OOp σ α ρ × Came α ρ) : Option α :=
  match st with
  | (.call _ a, c) => if Event.fullMatch e ∈ c.events then some a else none
  | _ => none

theorem made_snoc (th : OTrace σ α ρ) (st : OOp σ α ρ × Came α ρ) (e : Nat) :
    OTrace.made (th ++ [st]) e = (th.made e).or (madeStep e st) := by
  unfold OTrace.made
  rw [List.findSome?_append]
  congr 1
  obtain ⟨op, c⟩ := st
  cases op <;> simp only [List.findSome?, madeStep]
  split <;> simp_all

theorem min_snoc (th : OTrace σ α ρ) (st : OOp σ α ρ × Came α ρ) (e : Nat) :
    OTrace.min (th ++ [st]) e = (th.min e).or (minStep e st) := by
  unfold OTrace.min
  rw [List.findSome?_append]
  congr 1
  obtain ⟨op, c⟩ := st
  cases op <;> simp only [List.findSome?, minStep]
  split <;> simp_all

theorem took_snoc (th : OTrace σ α ρ) (st : OOp σ α ρ × Came α ρ) (e : Nat) :
    OTrace.took (th ++ [st]) e = th.took e ++ (tookStep e st).toList := by
  unfold OTrace.took
  rw [List.filterMap_append]
  congr 1

theorem flat_snoc' (th : OTrace σ α ρ) (op : OOp σ α ρ) (c : Came α ρ) :
    OTrace.flat (th ++ [(op, c)]) = th.flat ++ c.base.toList := by
  unfold OTrace.flat
  rw [List.filterMap_append]
  congr 1

/-- Everything there is to know about the inner objects. -/
structure Kept (th : OTrace σ α ρ) (s : Store σ α ρ) : Prop where
  good : Good th.flat s
  made : ∀ e, th.made e = none ↔ s.inner[e]? = none
  now : ∀ (e : Nat) (i' : Inner σ α ρ), s.inner[e]? = some i' → th.now e i'
  min : ∀ e, th.min e = (th.flat.decl e).map (·.min)
  fresh : ∀ e, s.inner[e]? = none → th.took e = []
  count : ∀ e, (th.took e).length = th.flat.matched e

theorem tookStep_none {e : Nat} {op : OOp σ α ρ} (h : ∀ m a, op ≠ .call m a) (c : Came α ρ) : tookStep e (op, c) = none := by
  cases op with
  | call m a => exact absurd rfl (h m a)
  | _ => rfl

theorem madeStep_none {e : Nat} {op : OOp σ α ρ} (h : ∀ m min max tags i, op ≠ .expect m min max tags i) (c : Came α ρ) :
    madeStep e (op, c) = none ∧ minStep e (op, c) = none := by
  cases op with
  | expect m min max tags i => exact absurd rfl (h m min max tags i)
  | _ => exact ⟨rfl, rfl⟩

theorem Kept.plain {th : OTrace σ α ρ} {s : Store σ α ρ} (k : Kept th s) {op : OOp σ α ρ} {p : Op (Seen α)} {ev : List Event}
    {c : Came α ρ} {w' : World (Seen α)} (h1 : ∀ m a, op ≠ .call m a) (h2 : ∀ m min max tags i, op ≠ .expect m min max tags i)
    (p1 : ∀ m a, p ≠ .call m a) (p2 : ∀ m min max tags ps, p ≠ .expect m min max tags ps) (hc : c.base = some (p, ev))
    (hs : s.w.step p = .ok (w', ev)) : Kept (th ++ [(op, c)]) { s with w := w' } := by
  have hflat : OTrace.flat (th ++ [(op, c)]) = th.flat ++ [(p, ev)] := by rw [flat_snoc', hc]; rfl
  obtain ⟨q1, q2⟩ := plain_static k.good.reach p2 hs
  have hm : ∀ e, OTrace.made (th ++ [(op, c)]) e = th.made e := fun e => by
    rw [made_snoc, (madeStep_none h2 c).1, Option.or_none]
  have ht : ∀ e, OTrace.took (th ++ [(op, c)]) e = th.took e := fun e => by
    rw [took_snoc, tookStep_none h1]; simp
  refine ⟨⟨?_, ?_, ?_⟩, ?_, ?_, ?_, ?_, ?_⟩
  · rw [hflat]; exact k.good.reach.step hs
  · rw [k.good.len]; exact q1.symm
  · intro e d hd
    rw [hflat, q2 e] at hd
    exact k.good.decl e d hd
  · intro e; rw [hm]; exact k.made e
  · intro e i hi
    obtain ⟨j, hj, hu⟩ := k.now e i hi
    exact ⟨j, by rw [hm]; exact hj, by rw [ht]; exact hu⟩
  · intro e
    rw [min_snoc, (madeStep_none h2 c).2, Option.or_none, hflat, q2 e]
    exact k.min e
  · intro e he; rw [ht]; exact k.fresh e he
  · intro e
    rw [ht, hflat, matched_snoc, k.count e]
    have : ev.count (.fullMatch e) = 0 := by
      rw [List.count_eq_zero]
      intro hm
      obtain ⟨m, a, hp, _⟩ := fullMatch_source k.good.reach hs hm
      exact p1 m a hp
    omega

theorem Kept.call {th : OTrace σ α ρ} {s s' : Store σ α ρ} (k : Kept th s) {m : Nat} {a : α} {c : Came α ρ}
    (hs : s.call m a = .ok (s', c)) : Kept (th ++ [(.call m a, c)]) s' := by
  unfold Store.call at hs
  simp only at hs
  have hm : ∀ e (c : Came α ρ), OTrace.made (th ++ [(.call m a, c)]) e = th.made e := fun e c => by
    rw [made_snoc]; simp [madeStep]
  have hmin : ∀ e (c : Came α ρ), OTrace.min (th ++ [(.call m a, c)]) e = th.min e := fun e c => by
    rw [min_snoc]; simp [minStep]
  split at hs
  · simp at hs
  · rename_i w' ev hw
    simp only [Except.ok.injEq, Prod.mk.injEq] at hs
    obtain ⟨rfl, rfl⟩ := hs
    have hstep : s.w.step (.call m (a, fun e => askAll (s.policies e) a)) = .ok (w', ev) := by
      simp [World.step, hw, bind, Except.bind, pure, Except.pure]
    obtain ⟨q1, q2⟩ := plain_static k.good.reach (by simp) hstep
    have hf := handleCall_full hw
    have ht : ∀ e (c : Came α ρ), c.events = ev → OTrace.took (th ++ [(.call m a, c)]) e = th.took e := fun e c hc => by
      rw [took_snoc]; simp [tookStep, hc, (hf e).1]
    refine ⟨⟨?_, ?_, ?_⟩, ?_, ?_, ?_, ?_, ?_⟩
    · rw [flat_snoc']; exact k.good.reach.step hstep
    · rw [k.good.len]; exact q1.symm
    · intro e d hd
      rw [flat_snoc'] at hd
      exact k.good.decl e d (q2 e ▸ hd)
    · intro e; rw [hm]; exact k.made e
    · intro e i hi
      obtain ⟨j, hj, hu⟩ := k.now e i hi
      exact ⟨j, by rw [hm]; exact hj, by rw [ht e _ rfl]; exact hu⟩
    · intro e
      rw [hmin, flat_snoc']
      exact (k.min e).trans (congrArg _ (q2 e).symm)
    · intro e he; rw [ht e _ rfl]; exact k.fresh e he
    · intro e
      rw [ht e _ rfl, flat_snoc', k.count e]
      have := matched_snoc th.flat (.call m (a, fun e => askAll (s.policies e) a)) ev e
      have h0 := (hf e).2
      simp only [reduceCtorEq, if_false] at h0
      simp only [Option.toList]
      omega
  · rename_i w' ev e₀ hw
    have hstep : s.w.step (.call m (a, fun e => askAll (s.policies e) a)) = .ok (w', ev) := by
      simp [World.step, hw, bind, Except.bind, pure, Except.pure]
    split at hs
    · simp at hs
    · rename_i i hi
      split at hs
      · simp at hs
      · rename_i ps left hp
        simp only [Except.ok.injEq, Prod.mk.injEq] at hs
        obtain ⟨rfl, rfl⟩ := hs
        obtain ⟨q1, q2⟩ := plain_static k.good.reach (by simp) hstep
        have hf := handleCall_full hw
        have hlt : e₀ < s.inner.length := (List.getElem?_eq_some_iff.mp hi).1
        have ht : ∀ e (c : Came α ρ), c.events = ev →
            OTrace.took (th ++ [(.call m a, c)]) e = th.took e ++ (if e = e₀ then [a] else []) := fun e c hc => by
          rw [took_snoc]
          simp only [tookStep, hc, (hf e).1, Option.some.injEq]
          by_cases he : e = e₀
          · simp [he]
          · simp [he, Ne.symm he]
        refine ⟨⟨?_, ?_, ?_⟩, ?_, ?_, ?_, ?_, ?_⟩
        · rw [flat_snoc']; exact k.good.reach.step hstep
        · rw [List.length_set, k.good.len]; exact q1.symm
        · intro e d hd
          rw [flat_snoc'] at hd
          exact k.good.decl e d (q2 e ▸ hd)
        · intro e
          rw [hm, k.made e]
          simp
        · intro e j hj
          simp only [List.getElem?_set] at hj
          by_cases he : e₀ = e
          · subst he
            simp only [if_true, hlt, Option.some.injEq] at hj
            obtain ⟨i₀, hi₀, hu⟩ := k.now _ i hi
            refine ⟨i₀, by rw [hm]; exact hi₀, ?_⟩
            rw [ht _ _ rfl, if_pos rfl, ← hj]
            exact .took hu (consumeAll_passed.mp hp)
          · simp only [he, if_false] at hj
            obtain ⟨i₀, hi₀, hu⟩ := k.now e j hj
            refine ⟨i₀, by rw [hm]; exact hi₀, ?_⟩
            rw [ht _ _ rfl, if_neg (Ne.symm he), List.append_nil]
            exact hu
        · intro e
          rw [hmin, flat_snoc']
          exact (k.min e).trans (congrArg _ (q2 e).symm)
        · intro e he
          simp only [List.getElem?_set] at he
          by_cases hee : e₀ = e
          · subst hee; simp [hlt] at he
          · simp only [hee, if_false] at he
            rw [ht _ _ rfl, if_neg (Ne.symm hee), List.append_nil]
            exact k.fresh e he
        · intro e
          rw [ht e _ rfl, flat_snoc']
          have h1 := matched_snoc th.flat (.call m (a, fun e => askAll (s.policies e) a)) ev e
          have h0 := (hf e).2
          have hk := k.count e
          simp only [Option.some.injEq] at h0
          simp only [Option.toList, List.length_append]
          by_cases he : e = e₀
          · subst he
            simp only [if_true, List.length_singleton] at h0 ⊢
            omega
          · rw [if_neg (Ne.symm he)] at h0
            simp only [he, if_false, List.length_nil]
            omega

theorem reach_kept {th : OTrace σ α ρ} {s : Store σ α ρ} (h : OReach th s) : Kept th s := by
  induction h with
  | init =>
    refine ⟨⟨.init, rfl, ?_⟩, ?_, ?_, ?_, ?_, ?_⟩ <;>
      simp [OTrace.flat, Trace.decl, OTrace.made, OTrace.min, OTrace.took, Store.init, Trace.matched, Trace.events]
  | @step th s s' op c hr hs k =>
    have plain : ∀ {p : Op (Seen α)}, (∀ m a, op ≠ .call m a) → (∀ m min max tags i, op ≠ .expect m min max tags i) →
        (∀ m a, p ≠ .call m a) → (∀ m min max tags ps, p ≠ .expect m min max tags ps) → s.plain p = .ok (s', c) →
        Kept (th ++ [(op, c)]) s' := by
      intro p h1 h2 p1 p2 hs
      unfold Store.plain at hs
      split at hs
      · simp at hs
      · rename_i w' ev hw
        simp only [Except.ok.injEq, Prod.mk.injEq] at hs
        obtain ⟨rfl, rfl⟩ := hs
        exact k.plain h1 h2 p1 p2 rfl hw
    cases op with
    | newSequence st => exact plain (p := .newSequence st) (by simp) (by simp) (by simp) (by simp) hs
    | dropSequence q => exact plain (p := .dropSequence q) (by simp) (by simp) (by simp) (by simp) hs
    | newMock => exact plain (p := .newMock) (by simp) (by simp) (by simp) (by simp) hs
    | destroy e =>
      simp only [Store.step, Store.destroy] at hs
      split at hs
      · simp at hs
      · rename_i w' ev hw
        simp only [Except.ok.injEq, Prod.mk.injEq] at hs
        obtain ⟨rfl, rfl⟩ := hs
        exact k.plain (p := .destroy e) (by simp) (by simp) (by simp) (by simp) rfl hw
    | ask e =>
      simp only [Store.step] at hs
      split at hs
      · simp at hs
      · split at hs
        · simp only [Except.ok.injEq, Prod.mk.injEq] at hs
          obtain ⟨rfl, rfl⟩ := hs
          have hf : ∀ b, OTrace.flat (th ++ [(OOp.ask e, ({ base := none, events := [], answer := b } : Came α ρ))]) = th.flat := by
            intro b; rw [flat_snoc']; simp
          have hm : ∀ e' (c : Came α ρ), OTrace.made (th ++ [(.ask e, c)]) e' = th.made e' := fun e' c => by
            rw [made_snoc]; simp [madeStep]
          have ht : ∀ e' (c : Came α ρ), OTrace.took (th ++ [(.ask e, c)]) e' = th.took e' := fun e' c => by
            rw [took_snoc]; simp [tookStep]
          refine ⟨hf _ ▸ k.good, ?_, ?_, ?_, ?_, ?_⟩
          · intro e'; rw [hm]; exact k.made e'
          · intro e' i hi
            obtain ⟨j, hj, hu⟩ := k.now e' i hi
            exact ⟨j, by rw [hm]; exact hj, by rw [ht]; exact hu⟩
          · intro e'; rw [min_snoc, hf]; simp [minStep, k.min e']
          · intro e' he; rw [ht]; exact k.fresh e' he
          · intro e'; rw [ht, hf]; exact k.count e'
        · simp at hs
    | call m a => exact k.call hs
    | expect m min max tags i =>
      simp only [Store.step] at hs
      split at hs
      · simp at hs
      · rename_i w' ev hw
        simp only [Except.ok.injEq, Prod.mk.injEq] at hs
        obtain ⟨rfl, rfl⟩ := hs
        have hr' := k.good.reach.step hw
        have ht : ∀ e' (c : Came α ρ), OTrace.took (th ++ [(.expect m min max tags i, c)]) e' = th.took e' := fun e' c => by
          rw [took_snoc]; simp [tookStep]
        have hc0 : ∀ e, ev.count (.fullMatch e) = 0 := by
          intro e
          rw [List.count_eq_zero]
          intro hm
          obtain ⟨m, a, hp, _⟩ := fullMatch_source k.good.reach hw hm
          simp at hp
        have hcount : ∀ e, (th.took e).length = Trace.matched (th.flat ++ [(.expect m min max tags [asked s.w.exps.length], ev)]) e := by
          intro e
          rw [matched_snoc, k.count e, hc0 e]
          rfl
        have hmin : ∀ e (c : Came α ρ), c.events = ev → OTrace.min (th ++ [(.expect m min max tags i, c)]) e =
            (Trace.decl (th.flat ++ [(.expect m min max tags [asked s.w.exps.length], ev)]) e).map (·.min) := by
          intro e c hc
          rw [min_snoc, decl_snoc, k.min e]
          simp only [minStep, declStep, hc]
          cases th.flat.decl e <;> simp
        have hdecl : ∀ e d, Trace.decl (th.flat ++ [(.expect m min max tags [asked s.w.exps.length], ev)]) e = some d →
            d.policies = [asked e] := by
          intro e d hd
          rw [decl_snoc] at hd
          cases hde : th.flat.decl e with
          | some d' =>
            simp only [hde, Option.some_or, Option.some.injEq] at hd
            rw [← hd]
            exact k.good.decl e d' hde
          | none =>
            simp only [hde, Option.none_or, declStep] at hd
            split at hd
            · rename_i hc
              rcases expect_static k.good.reach hw with ⟨q1, _⟩ | ⟨q1, _⟩
              · rw [q1] at hc
                simp only [List.mem_singleton, Event.created.injEq] at hc
                simp only [Option.some.injEq] at hd
                rw [← hd, hc]
              · simp [q1] at hc
            · simp at hd
        rcases expect_static k.good.reach hw with ⟨q1, q2⟩ | ⟨q1, q2⟩
        · simp only [q1, if_true]
          have hget : ∀ e : Nat, (s.inner ++ [i])[e]? = if e = s.w.exps.length then some i else s.inner[e]? := by
            intro e
            rw [List.getElem?_append, k.good.len]
            by_cases h1 : e < s.w.exps.length
            · have h2 : e ≠ s.w.exps.length := by omega
              simp [h1, h2]
            · by_cases h2 : e = s.w.exps.length
              · simp [h2]
              · have h3 : s.inner[e]? = none := List.getElem?_eq_none (by rw [k.good.len]; omega)
                have : e - s.w.exps.length ≠ 0 := by omega
                simp only [h1, if_false, h2, h3]
                cases hk : e - s.w.exps.length with
                | zero => omega
                | succ n => rfl
          have hnone : s.inner[s.w.exps.length]? = none := List.getElem?_eq_none (by rw [k.good.len]; omega)
          have hm : ∀ e (c : Came α ρ), c.events = ev → OTrace.made (th ++ [(.expect m min max tags i, c)]) e =
              if e = s.w.exps.length then some i else th.made e := fun e c hc => by
            rw [made_snoc]
            simp only [madeStep, hc, q1, List.mem_singleton, Event.created.injEq]
            by_cases he : e = s.w.exps.length
            · subst he
              rw [(k.made _).mpr hnone]
              simp
            · simp [he]
          subst q1
          refine ⟨⟨?_, ?_, ?_⟩, ?_, ?_, ?_, ?_, ?_⟩
          · rw [flat_snoc']; exact hr'
          · simp [k.good.len, q2]
          · intro e d hd; rw [flat_snoc'] at hd; exact hdecl e d hd
          · intro e
            rw [hm e _ rfl, hget]
            split
            · simp
            · exact k.made e
          · intro e j hj
            rw [hget] at hj
            split at hj
            · rename_i he
              simp only [Option.some.injEq] at hj
              subst hj
              refine ⟨i, by rw [hm e _ rfl, if_pos he], ?_⟩
              rw [ht, he, k.fresh _ hnone]
              exact .fresh
            · rename_i he
              obtain ⟨i₀, hi₀, hu⟩ := k.now e j hj
              exact ⟨i₀, by rw [hm e _ rfl, if_neg he]; exact hi₀, by rw [ht]; exact hu⟩
          · intro e; rw [flat_snoc']; exact hmin e _ rfl
          · intro e he
            rw [hget] at he
            split at he
            · simp at he
            · rw [ht]; exact k.fresh e he
          · intro e; rw [ht, flat_snoc']; exact hcount e
        · have hne : ¬ ([Event.rejected] = [.created s.w.exps.length]) := by simp
          subst q1
          simp only [hne, if_false]
          have hm : ∀ e (c : Came α ρ), c.events = [.rejected] → OTrace.made (th ++ [(.expect m min max tags i, c)]) e = th.made e :=
            fun e c hc => by rw [made_snoc]; simp [madeStep, hc]
          refine ⟨⟨?_, ?_, ?_⟩, ?_, ?_, ?_, ?_, ?_⟩
          · rw [flat_snoc']; exact hr'
          · rw [k.good.len]; exact q2.symm
          · intro e d hd; rw [flat_snoc'] at hd; exact hdecl e d hd
          · intro e; rw [hm e _ rfl]; exact k.made e
          · intro e j hj
            obtain ⟨i₀, hi₀, hu⟩ := k.now e j hj
            exact ⟨i₀, by rw [hm e _ rfl]; exact hi₀, by rw [ht]; exact hu⟩
          · intro e; rw [flat_snoc']; exact hmin e _ rfl
          · intro e he; rw [ht]; exact k.fresh e he
          · intro e; rw [ht, flat_snoc']; exact hcount e

theorem OReach.split {pre post : OTrace σ α ρ} {op : OOp σ α ρ} {c : Came α ρ} {s : Store σ α ρ}
    (h : OReach (pre ++ (op, c) :: post) s) : ∃ s₀ s₁, OReach pre s₀ ∧ s₀.step op = .ok (s₁, c) := by
  generalize hl : pre ++ (op, c) :: post = l at h
  induction h generalizing post with
  | init => simp at hl
  | @step th s s' op' c' hr hs ih =>
    rcases List.eq_nil_or_concat post with rfl | ⟨post', last, rfl⟩
    · obtain ⟨h1, h2⟩ := List.append_inj' hl rfl
      simp only [List.cons.injEq, Prod.mk.injEq, and_true] at h2
      obtain ⟨rfl, rfl⟩ := h2
      subst h1
      exact ⟨s, s', hr, hs⟩
    · rw [List.concat_eq_append, ← List.cons_append, ← List.append_assoc] at hl
      exact ih (List.append_inj' hl rfl).1

/-- The inner objects of an expectation that exists. -/
theorem Kept.exists {th : OTrace σ α ρ} {s : Store σ α ρ} (k : Kept th s) {e : Nat} {d : Decl (Seen α)} (hd : th.flat.decl e = some d) :
    ∃ i, s.inner[e]? = some i ∧ th.now e i ∧ ∀ j, th.now e j → j = i := by
  have hlt := decl_lt k.good.reach hd
  rw [← k.good.len] at hlt
  refine ⟨s.inner[e], List.getElem?_eq_getElem hlt, k.now e _ (List.getElem?_eq_getElem hlt), ?_⟩
  rintro j ⟨i₀, h1, h2⟩
  obtain ⟨i₁, h3, h4⟩ := k.now e _ (List.getElem?_eq_getElem hlt)
  rw [h1] at h3
  simp only [Option.some.injEq] at h3
  subst h3
  exact h2.unique h4

theorem Kept.policies {th : OTrace σ α ρ} {s : Store σ α ρ} (k : Kept th s) {e : Nat} {d : Decl (Seen α)} (hd : th.flat.decl e = some d)
    {i : Inner σ α ρ} (hi : th.now e i) : s.inner[e]? = some i ∧ s.policies e = i.policies := by
  obtain ⟨j, h1, _, h3⟩ := k.exists hd
  rw [h3 i hi]
  exact ⟨h1, by simp [Store.policies, h1]⟩

/-- Who could resolve a call, in terms of the policies. -/
theorem Kept.candidate {th : OTrace σ α ρ} {s : Store σ α ρ} (k : Kept th s) (m : Nat) (a : α) (e : Nat) :
    th.flat.candidate m (a, fun e => askAll (s.policies e) a) e ↔ th.candidate m a e := by
  unfold Trace.candidate Trace.accepts OTrace.candidate OTrace.of
  constructor
  · rintro ⟨⟨h1, d, hd, hm, hp⟩, h2⟩
    obtain ⟨i, hi, hn, _⟩ := k.exists hd
    refine ⟨⟨h1, d, hd, hm⟩, ⟨i, hn, ?_⟩, h2⟩
    rw [← askAll_true, ← (k.policies hd hn).2]
    exact hp (asked e) (by rw [k.good.decl e d hd]; simp)
  · rintro ⟨⟨h1, d, hd, hm⟩, ⟨i, hn, ha⟩, h2⟩
    refine ⟨⟨h1, d, hd, hm, ?_⟩, h2⟩
    rw [k.good.decl e d hd]
    intro p hp
    simp only [List.mem_singleton] at hp
    subst hp
    rw [← askAll_true, ← (k.policies hd hn).2] at ha
    exact ha

/-- What a call of a history came to. -/
theorem call_cases {pre post : OTrace σ α ρ} {s : Store σ α ρ} {m : Nat} {a : α} {c : Came α ρ}
    (h : OReach (pre ++ (.call m a, c) :: post) s) :
    ∃ s₀ w', Kept pre s₀ ∧ s₀.w.step (.call m (a, fun e => askAll (s₀.policies e) a)) = .ok (w', c.events) ∧
      ((∃ e i ps left, s₀.inner[e]? = some i ∧ pre.now e i ∧ Passed i.policies a ps left ∧ (∀ e', Event.fullMatch e' ∈ c.events ↔ e' = e) ∧
          c.left = some left ∧ c.result = some (i.fin.finalize i.fin.state left).2) ∨
        ((∀ e', Event.fullMatch e' ∉ c.events) ∧ c.left = some a ∧ c.result = none)) := by
  obtain ⟨s₀, s₁, h0, h1⟩ := h.split
  have k := reach_kept h0
  simp only [Store.step, Store.call] at h1
  split at h1
  · simp at h1
  · rename_i w' ev hw
    simp only [Except.ok.injEq, Prod.mk.injEq] at h1
    obtain ⟨_, rfl⟩ := h1
    refine ⟨s₀, w', k, by simp [World.step, hw, bind, Except.bind, pure, Except.pure], Or.inr ⟨fun e' => ?_, rfl, rfl⟩⟩
    have := (handleCall_full hw e').1
    simpa using this
  · rename_i w' ev e hw
    split at h1
    · simp at h1
    · rename_i i hi
      split at h1
      · simp at h1
      · rename_i ps left hp
        simp only [Except.ok.injEq, Prod.mk.injEq] at h1
        obtain ⟨_, rfl⟩ := h1
        refine ⟨s₀, w', k, by simp [World.step, hw, bind, Except.bind, pure, Except.pure],
          Or.inl ⟨e, i, ps, left, hi, k.now e i hi, consumeAll_passed.mp hp, fun e' => ?_, rfl, rfl⟩⟩
        have := (handleCall_full hw e').1
        rw [this]
        simp [eq_comm]

theorem Kept.satisfied {th : OTrace σ α ρ} {s : Store σ α ρ} (k : Kept th s) {e : Nat} {d : Decl (Seen α)} (hd : th.flat.decl e = some d) :
    th.satisfied e ↔ ¬ th.flat.unmet e ∧ allSatisfied (s.policies e) = true := by
  obtain ⟨i, hi, hn, hu⟩ := k.exists hd
  have hmin : th.min e = some d.min := by rw [k.min e, hd]; rfl
  have hp := (k.policies hd hn).2
  have hno : ¬ ∃ p ∈ d.policies, p.isSatisfied = false := by
    rw [k.good.decl e d hd]
    simp [asked]
  unfold OTrace.satisfied Trace.unmet allSatisfied
  rw [hmin, hd, k.count e, hp]
  simp only [Option.some.injEq, List.all_eq_true]
  constructor
  · rintro ⟨⟨min, rfl, h1⟩, j, hj, h2⟩
    rw [hu j hj] at h2
    refine ⟨?_, h2⟩
    rintro ⟨d', rfl, h3 | h3⟩
    · omega
    · exact hno h3
  · rintro ⟨h1, h2⟩
    refine ⟨⟨d.min, rfl, ?_⟩, i, hn, h2⟩
    apply Classical.byContradiction
    intro hlt
    exact h1 ⟨d, rfl, Or.inl (by omega)⟩

theorem Used.plain {i j : Inner σ α ρ} {as : List α} (h : Used i as j) (hp : ∀ p ∈ i.policies, Plain p) : j.policies = i.policies := by
  have key : ∀ {ps qs : List (Policy σ α)} {a left : α}, Passed ps a qs left → (∀ p ∈ ps, Plain p) → qs = ps := by
    intro ps qs a left h
    induction h with
    | nil => intro _; rfl
    | @cons p ps qs t a a' left hc _ ih =>
      intro hp
      have := (hp p (by simp)).1 _ _ _ _ hc
      rw [ih (fun q hq => hp q (by simp [hq])), this]
  induction h with
  | fresh => rfl
  | took _ hpass ih =>
    rw [← ih]
    exact key hpass (fun p hm => hp p (ih ▸ hm))

/-- Runs a program and records the history. -/
def Store.record (s : Store σ α ρ) : List (OOp σ α ρ) → M (Store σ α ρ × OTrace σ α ρ)
  | [] => .ok (s, [])
  | op :: ops =>
    match s.step op with
    | .error x => .error x
    | .ok (s', c) =>
      match s'.record ops with
      | .error x => .error x
      | .ok (s'', th) => .ok (s'', (op, c) :: th)

theorem record_oreach (ops : List (OOp σ α ρ)) : ∀ {th th' : OTrace σ α ρ} {s s' : Store σ α ρ}, OReach th s →
    s.record ops = .ok (s', th') → OReach (th ++ th') s' := by
  induction ops with
  | nil =>
    intro th th' s s' h hr
    simp only [Store.record, Except.ok.injEq, Prod.mk.injEq] at hr
    obtain ⟨rfl, rfl⟩ := hr
    simpa using h
  | cons op ops ih =>
    intro th th' s s' h hr
    simp only [Store.record] at hr
    split at hr
    · simp at hr
    · rename_i hs
      split at hr
      · simp at hr
      · rename_i hk
        simp only [Except.ok.injEq, Prod.mk.injEq] at hr
        obtain ⟨rfl, rfl⟩ := hr
        have := ih (h.step hs) hk
        simpa using this

/-- The state and the history a program ends with (the fresh state if it does not survive). -/
def Store.final (ops : List (OOp σ α ρ)) : Store σ α ρ × OTrace σ α ρ :=
  match Store.init.record ops with
  | .ok r => r
  | .error _ => (Store.init, [])

theorem oreach_final (ops : List (OOp σ α ρ)) : OReach (Store.final ops).2 (Store.final ops).1 := by
  unfold Store.final
  cases h : (Store.init : Store σ α ρ).record ops with
  | error x => exact .init
  | ok r =>
    have := record_oreach ops .init h
    simpa using this

end Mimic.Own
