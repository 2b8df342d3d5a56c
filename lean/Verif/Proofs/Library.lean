import Verif.Spec.Library
import Verif.Proofs.Alike
import Verif.Proofs.Own
import Verif.Proofs.Touch
import Verif.Proofs.NestedReturns
import Verif.Proofs.WatcherLife
import Verif.Props.Nested

/-!
# Lemmas about special kinds of requirements and the plain ones
-/

set_option autoImplicit false

namespace Mimic.Own

open Mimic.Nested (Seen asked)

variable {σ α ρ : Type}

theorem says_asked (e : Nat) (c : Seen α) : Policy.says [asked e] c = c.2 e := by
  have : Policy.says [asked e] c = match c.2 e with | none => none | some b => (some true).map (b && ·) := says_cons (asked e) [] c rfl
  rw [this]
  cases c.2 e with
  | none => rfl
  | some b => simp

theorem says_lower (ps : List (Policy σ α)) (a : α) : Policy.says (ps.map Policy.lower) a = askAll ps a := by
  induction ps with
  | nil => rfl
  | cons p ps ih =>
    exact says_cons p.lower (ps.map Policy.lower) a ih

theorem content_lower (ps : List (Policy σ α)) : Policy.content (ps.map Policy.lower) = true := by
  simp [Policy.content, Policy.lower]

theorem lower_snoc (th : OTrace σ α ρ) (op : OOp σ α ρ) (c : Came α ρ) :
    OTrace.lower (th ++ [(op, c)]) = th.lower ++ (op.lower.map (fun op => (op, c.events))).toList := by
  unfold OTrace.lower
  rw [List.filterMap_append]
  congr 1

theorem lower_decl (th : OTrace σ α ρ) (e : Nat) :
    (th.lower.decl e).map (·.policies) = (th.made e).map (fun i => i.policies.map Policy.lower) := by
  induction th using snocInd with
  | nil => rfl
  | snoc th st ih =>
    obtain ⟨op, c⟩ := st
    rw [lower_snoc, made_snoc]
    cases op with
    | ask q => simpa [OOp.lower, madeStep] using ih
    | expect m min max tags inner =>
      simp only [OOp.lower, Option.map_some, Option.toList, decl_snoc, madeStep, declStep]
      cases h1 : Trace.decl (OTrace.lower th) e with
      | some d =>
        cases h2 : OTrace.made th e with
        | some i => simpa [h1, h2] using ih
        | none => simp [h1, h2] at ih
      | none =>
        cases h2 : OTrace.made th e with
        | some i => simp [h1, h2] at ih
        | none =>
          simp only [Option.none_or]
          split <;> simp
    | _ =>
      simp only [OOp.lower, Option.map_some, Option.toList, madeStep, Option.or_none]
      rw [decl_snoc_none rfl]
      exact ih

theorem made_mem {th : OTrace σ α ρ} {e : Nat} {i : Inner σ α ρ} (h : th.made e = some i) :
    ∃ m min max tags c, (OOp.expect m min max tags i, c) ∈ th := by
  unfold OTrace.made at h
  obtain ⟨st, hst, h1⟩ := List.exists_of_findSome?_eq_some h
  obtain ⟨op, c⟩ := st
  cases op with
  | expect m min max tags inner =>
    simp only at h1
    split at h1
    · simp only [Option.some.injEq] at h1
      subst h1
      exact ⟨m, min, max, tags, c, hst⟩
    · simp at h1
  | _ => simp at h1

/-- A history with plain policies is like the one of `Model/World.lean`. -/
theorem plain_alike {th : OTrace σ α ρ} {s : Store σ α ρ} (h : OReach th s) (hp : th.plain) : Alike th.flat th.lower := by
  induction h with
  | init => exact .init
  | @step th s s' op c hr hs ih =>
    have hp0 : th.plain := fun m min max tags inner c hm => hp m min max tags inner c (by simp [hm])
    have ih := ih hp0
    have k := reach_kept hr
    rw [lower_snoc, flat_snoc']
    have plain : ∀ {p : Op (Seen α)} {p' : Op α}, op.lower = some p' → OpAlike th.flat th.lower p p' → s.plain p = .ok (s', c) →
        Alike (th.flat ++ c.base.toList) (th.lower ++ (op.lower.map (fun op => (op, c.events))).toList) := by
      intro p p' h1 h2 hs
      unfold Store.plain at hs
      split at hs
      · simp at hs
      · simp only [Except.ok.injEq, Prod.mk.injEq] at hs
        obtain ⟨_, rfl⟩ := hs
        simp only [h1, Option.map_some, Option.toList]
        exact .step _ ih h2
    have hsay : ∀ (e : Nat) (d : Decl (Seen α)) (d' : Decl α), th.flat.decl e = some d → th.lower.decl e = some d' →
        d.policies = [asked e] ∧ ∃ i, th.made e = some i ∧ d'.policies = i.policies.map Policy.lower ∧ s.policies e = i.policies ∧
          ∀ p ∈ i.policies, Plain p := by
      intro e d d' hd hd'
      refine ⟨k.good.decl e d hd, ?_⟩
      have h1 := lower_decl th e
      rw [hd'] at h1
      cases hm : th.made e with
      | none => simp [hm] at h1
      | some i =>
        simp only [hm, Option.map_some, Option.some.injEq] at h1
        obtain ⟨m, min, max, tags, c, hmem⟩ := made_mem hm
        have hpl := hp0 m min max tags i c hmem
        obtain ⟨j, hj, ⟨i', hi', hu⟩, _⟩ := k.exists hd
        rw [hm] at hi'
        simp only [Option.some.injEq] at hi'
        subst hi'
        refine ⟨i, rfl, h1, ?_, hpl⟩
        simp only [Store.policies, hj]
        exact hu.plain hpl
    cases op with
    | newSequence st => exact plain (p := .newSequence st) rfl (.newSequence st) hs
    | dropSequence q => exact plain (p := .dropSequence q) rfl (.dropSequence q) hs
    | newMock => exact plain (p := .newMock) rfl .newMock hs
    | expect m min max tags inner =>
      simp only [Store.step] at hs
      split at hs
      · simp at hs
      · simp only [Except.ok.injEq, Prod.mk.injEq] at hs
        obtain ⟨_, rfl⟩ := hs
        exact .step _ ih (.expect m min max tags _ _ (by rw [content_lower]; rfl))
    | call m a =>
      have hop : OpAlike th.flat th.lower (.call m (a, fun e => askAll (s.policies e) a)) (.call m a) := by
        refine .call m _ a ?_
        intro e d d' _ hd hd' _
        obtain ⟨h1, i, _, h2, h3, _⟩ := hsay e d d' hd hd'
        rw [h1, h2, says_asked, says_lower]
        simp only [h3]
      simp only [Store.step, Store.call] at hs
      split at hs
      · simp at hs
      · simp only [Except.ok.injEq, Prod.mk.injEq] at hs
        obtain ⟨_, rfl⟩ := hs
        exact .step _ ih hop
      · split at hs
        · simp at hs
        · split at hs
          · simp at hs
          · simp only [Except.ok.injEq, Prod.mk.injEq] at hs
            obtain ⟨_, rfl⟩ := hs
            exact .step _ ih hop
    | ask e =>
      simp only [Store.step] at hs
      split at hs
      · simp at hs
      · split at hs
        · simp only [Except.ok.injEq, Prod.mk.injEq] at hs
          obtain ⟨_, rfl⟩ := hs
          simpa [OOp.lower] using ih
        · simp at hs
    | destroy e =>
      simp only [Store.step, Store.destroy] at hs
      split at hs
      · simp at hs
      · rename_i w' ev hw
        simp only [Except.ok.injEq, Prod.mk.injEq] at hs
        obtain ⟨_, rfl⟩ := hs
        have hsat : allSatisfied (s.policies e) = true := by
          cases hd : th.flat.decl e with
          | none =>
            have : s.inner[e]? = none := by
              apply List.getElem?_eq_none
              rw [k.good.len]
              rcases Nat.lt_or_ge e s.w.exps.length with hlt | hge
              · have := k.good.reach.view.2.decl_lt (e := e)
                rw [hd] at this
                simp only [reduceCtorEq, exists_false, false_iff] at this
                simp only [abs, List.length_mapIdx] at this
                omega
              · exact hge
            simp [Store.policies, this, allSatisfied]
          | some d =>
            obtain ⟨j, hj, ⟨i, hi, hu⟩, _⟩ := k.exists hd
            obtain ⟨m, min, max, tags, c, hmem⟩ := made_mem hi
            have hpl := hp0 m min max tags i c hmem
            simp only [Store.policies, hj, allSatisfied, hu.plain hpl, List.all_eq_true]
            exact fun p hp => (hpl p hp).2 _
        simp only [hsat, Bool.true_or, if_true]
        exact .step _ ih (.destroy e)

end Mimic.Own

namespace Mimic.Touch

open Mimic.Nested (Seen asked)

variable {α : Type}

theorem says_lower (ps : List (Matcher α)) (a : α) : Policy.says (ps.map Matcher.lower) a = verdict ps a := by
  simp only [Policy.says, verdict, List.any_map, List.all_map]
  rfl

theorem lower_snoc (th : TTrace α) (op : TOp α) (c : Came α) : TTrace.lower (th ++ [(op, c)]) = th.lower ++ [(op.lower, c.events)] := by
  simp [TTrace.lower]

theorem lower_decl (th : TTrace α) (e : Nat) :
    (th.lower.decl e).map (·.policies) = (th.findSome? (asksStep e)).map (fun ps => ps.map Matcher.lower) := by
  induction th using snocInd with
  | nil => rfl
  | snoc th st ih =>
    obtain ⟨op, c⟩ := st
    rw [lower_snoc, List.findSome?_append]
    cases op with
    | expect m min max tags asks =>
      simp only [TOp.lower, decl_snoc, declStep]
      cases h1 : Trace.decl (TTrace.lower th) e with
      | some d =>
        cases h2 : th.findSome? (asksStep e) with
        | some i => simpa [h1, h2] using ih
        | none => simp [h1, h2] at ih
      | none =>
        cases h2 : th.findSome? (asksStep e) with
        | some i => simp [h1, h2] at ih
        | none =>
          simp only [Option.none_or, List.findSome?, asksStep]
          split <;> simp_all
    | _ =>
      simp only [TOp.lower]
      rw [decl_snoc_none rfl]
      simpa [List.findSome?, asksStep] using ih

theorem asks_mem {th : TTrace α} {e : Nat} {ps : List (Matcher α)} (h : th.findSome? (asksStep e) = some ps) :
    ∃ m min max tags c, (TOp.expect m min max tags ps, c) ∈ th := by
  obtain ⟨st, hst, h1⟩ := List.exists_of_findSome?_eq_some h
  obtain ⟨op, c⟩ := st
  cases op with
  | expect m min max tags asks =>
    simp only [asksStep] at h1
    split at h1
    · simp only [Option.some.injEq] at h1
      subst h1
      exact ⟨m, min, max, tags, c, hst⟩
    · simp at h1
  | _ => simp [asksStep] at h1

theorem gentle_alike {th : TTrace α} {s : Store α} (h : TReach th s) (hg : th.gentle) : Alike th.flat th.lower := by
  induction h with
  | init => exact .init
  | @step th s s' op c hr hs ih =>
    have hg0 : th.gentle := fun m min max tags asks c hm => hg m min max tags asks c (by simp [hm])
    have ih := ih hg0
    have g := (reach_good hr).1
    have hfl : TTrace.flat (th ++ [(op, c)]) = th.flat ++ [(c.op, c.events)] := by simp [TTrace.flat]
    rw [lower_snoc, hfl]
    refine .step _ ih ?_
    have hmat : ∀ e, ∀ p ∈ th.matchers e, Gentle p := by
      intro e p hp
      rw [matchers_eq] at hp
      cases hf : th.findSome? (asksStep e) with
      | none => simp [hf] at hp
      | some ps =>
        obtain ⟨m, min, max, tags, c, hm⟩ := asks_mem hf
        rw [hf] at hp
        exact hg0 m min max tags ps c hm p hp
    have plain : ∀ {p : Op (Seen α)}, s.plain p = .ok (s', c) → c.op = p := by
      intro p hs
      unfold Store.plain at hs
      split at hs
      · simp at hs
      · simp only [Except.ok.injEq, Prod.mk.injEq] at hs
        rw [← hs.2]
    cases op with
    | newSequence st => rw [plain (p := .newSequence st) hs]; exact .newSequence st
    | dropSequence q => rw [plain (p := .dropSequence q) hs]; exact .dropSequence q
    | newMock => rw [plain (p := .newMock) hs]; exact .newMock
    | destroy e => rw [plain (p := .destroy e) hs]; exact .destroy e
    | expect m min max tags asks =>
      simp only [Store.step] at hs
      split at hs
      · simp at hs
      · simp only [Except.ok.injEq, Prod.mk.injEq] at hs
        obtain ⟨_, rfl⟩ := hs
        exact .expect m min max tags _ _ (by simp [Policy.content, asked, Matcher.lower])
    | call m a =>
      have hr' : TReach (th ++ (.call m a, c) :: []) s' := .step hr hs
      obtain ⟨es, f, left, shown, h1, h2, h3, _⟩ := call_came hr'
      obtain ⟨rfl, _, k3⟩ := h2.gentle (fun e _ => hmat e)
      rw [h3]
      refine .call m _ _ ?_
      intro e d d' hl hd hd' hm
      have hpol : d'.policies = (th.matchers e).map Matcher.lower := by
        have h4 := lower_decl th e
        rw [hd', matchers_eq] at *
        cases hf : th.findSome? (asksStep e) with
        | none => simp [hf] at h4
        | some ps => simpa [hf] using h4
      rw [g.decl e d hd, hpol, says_lower, Own.says_asked]
      exact k3 e ((h1.2 e).mpr ⟨hl, d, hd, hm⟩)

end Mimic.Touch

namespace Mimic.Nested

variable {α : Type}

theorem quiet_layered {nh : NTrace α} (h : nh.quiet) : nh.layered (fun _ => 0) (fun _ => 0) := by
  intro st hst
  obtain ⟨op, tr⟩ := st
  cases op with
  | expect m min max tags asks =>
    refine ⟨fun _ _ => rfl, fun p hp a => ?_⟩
    cases hpa : p a with
    | answer b => exact .answer
    | throws => exact .throws
    | call k a' next => exact absurd hpa (h m min max tags asks tr hst p hp a k a' next)
  | _ => trivial

/-- What quiet matchers say together. -/
theorem SayAll.quiet {M : Nat → List (α → Ask α)} {pre tr : Trace (Seen α)} {a : α} {ps : List (α → Ask α)} {b : Option Bool}
    (h : SayAll M pre a ps tr b) (hq : ∀ p ∈ ps, Quiet p) : tr = [] ∧ b = Policy.says (ps.map Nested.lower) a := by
  have one : ∀ {pre tr : Trace (Seen α)} {p : α → Ask α} {b : Option Bool}, Says M pre (p a) tr b → Quiet p → tr = [] ∧ b = (p a).said := by
    intro pre tr p b hs hq
    have := hq a
    cases hpa : p a with
    | answer c => rw [hpa] at hs; cases hs; exact ⟨rfl, rfl⟩
    | throws => rw [hpa] at hs; cases hs; exact ⟨rfl, rfl⟩
    | call k a' next => exact absurd hpa (this k a' next)
  induction ps generalizing pre tr b with
  | nil => cases h; exact ⟨rfl, rfl⟩
  | cons p ps ih =>
    have hp := hq p (by simp)
    cases h with
    | thrown hs =>
      obtain ⟨rfl, h2⟩ := one hs hp
      refine ⟨rfl, ?_⟩
      simp [Policy.says, Nested.lower, ← h2]
    | @cons _ t1 t2 _ _ _ c r hs hr =>
      obtain ⟨rfl, h2⟩ := one hs hp
      obtain ⟨rfl, h4⟩ := ih hr (fun p hp => hq p (by simp [hp]))
      refine ⟨rfl, ?_⟩
      subst h4
      rw [List.map_cons, says_cons (Nested.lower p) (ps.map Nested.lower) a rfl]
      have hl : (Nested.lower p).accepts a = some c := h2.symm
      rw [hl]

theorem Asked.quiet {M : Nat → List (α → Ask α)} {pre tr : Trace (Seen α)} {a : α} {f : Nat → Option Bool} {es : List Nat}
    (h : Asked M pre a f es tr) (hq : ∀ e ∈ es, ∀ p ∈ M e, Quiet p) :
    tr = [] ∧ ∀ e ∈ es, f e = Policy.says ((M e).map Nested.lower) a := by
  induction es generalizing pre tr with
  | nil => cases h; simp
  | cons e es ih =>
    cases h with
    | cons h1 h2 =>
      obtain ⟨rfl, k1⟩ := h1.quiet (hq e (by simp))
      obtain ⟨rfl, k2⟩ := ih h2 (fun e he => hq e (by simp [he]))
      refine ⟨rfl, ?_⟩
      intro e' he'
      rcases List.mem_cons.mp he' with rfl | he'
      · exact k1
      · exact k2 e' he'

theorem lower_snoc (nh : NTrace α) (op : NOp α) (tr : Trace (Seen α)) :
    NTrace.lower (nh ++ [(op, tr)]) = nh.lower ++ [(op.lower, tr.events)] := by
  simp [NTrace.lower]

theorem lower_decl (nh : NTrace α) (e : Nat) :
    (nh.lower.decl e).map (·.policies) = (nh.findSome? (asksStep e)).map (fun ps => ps.map Nested.lower) := by
  induction nh using snocInd with
  | nil => rfl
  | snoc nh st ih =>
    obtain ⟨op, c⟩ := st
    rw [lower_snoc, List.findSome?_append]
    cases op with
    | expect m min max tags asks =>
      simp only [NOp.lower, decl_snoc, declStep]
      cases h1 : Trace.decl (NTrace.lower nh) e with
      | some d =>
        cases h2 : nh.findSome? (asksStep e) with
        | some i => simpa [h1, h2] using ih
        | none => simp [h1, h2] at ih
      | none =>
        cases h2 : nh.findSome? (asksStep e) with
        | some i => simp [h1, h2] at ih
        | none =>
          simp only [Option.none_or, List.findSome?, asksStep]
          split <;> simp_all
    | _ =>
      simp only [NOp.lower]
      rw [decl_snoc_none rfl]
      simpa [List.findSome?, asksStep] using ih

theorem quiet_alike {nh : NTrace α} {s : Store α} (h : NReach nh s) (hq : nh.quiet) : Alike nh.flat nh.lower := by
  induction h with
  | init => exact .init
  | @step nh s s' op tr hr hs ih =>
    have hq0 : nh.quiet := fun m min max tags asks c hm => hq m min max tags asks c (by simp [hm])
    have ih := ih hq0
    have g := (reach_good hr (quiet_layered hq0)).1
    have hfl : NTrace.flat (nh ++ [(op, tr)]) = nh.flat ++ tr := by simp [NTrace.flat]
    rw [lower_snoc, hfl]
    have one : ∀ {p : Op (Seen α)} {ev : List Event}, tr = [(p, ev)] → OpAlike nh.flat nh.lower p op.lower →
        Alike (nh.flat ++ tr) (nh.lower ++ [(op.lower, tr.events)]) := by
      intro p ev h1 h2
      subst h1
      have : Trace.events [(p, ev)] = ev := by simp [Trace.events]
      rw [this]
      exact .step _ ih h2
    have plain : ∀ {p : Op (Seen α)}, s.plain p = .ok (s', tr) → ∃ ev, tr = [(p, ev)] := by
      intro p hs
      unfold Store.plain at hs
      split at hs
      · simp at hs
      · simp only [Except.ok.injEq, Prod.mk.injEq] at hs
        exact ⟨_, hs.2.symm⟩
    cases op with
    | newSequence st => obtain ⟨ev, h1⟩ := plain (p := .newSequence st) hs; exact one h1 (.newSequence st)
    | dropSequence q => obtain ⟨ev, h1⟩ := plain (p := .dropSequence q) hs; exact one h1 (.dropSequence q)
    | newMock => obtain ⟨ev, h1⟩ := plain (p := .newMock) hs; exact one h1 .newMock
    | destroy e => obtain ⟨ev, h1⟩ := plain (p := .destroy e) hs; exact one h1 (.destroy e)
    | expect m min max tags asks =>
      simp only [Store.step] at hs
      split at hs
      · simp at hs
      · simp only [Except.ok.injEq, Prod.mk.injEq] at hs
        exact one hs.2.symm (.expect m min max tags _ _ (by simp [Policy.content, asked, Nested.lower]))
    | call m a =>
      have hr' : NReach (nh ++ (.call m a, tr) :: []) s' := .step hr hs
      obtain ⟨r, hm⟩ := C60_explained hr' (quiet_layered hq)
      have hmat : ∀ e, ∀ p ∈ nh.matchers e, Quiet p := by
        intro e p hp
        obtain ⟨m, min, max, tags, asks, tr, h1, h2⟩ := matchers_source hp
        exact hq0 m min max tags asks tr h1 p h2
      cases hm with
      | @call _ tr' _ _ f es ev h1 h2 =>
        obtain ⟨rfl, h3⟩ := h2.quiet (fun e _ => hmat e)
        refine one (p := .call m (a, f)) (ev := ev) rfl ?_
        refine .call m _ _ ?_
        intro e d d' hl hd hd' hm
        have hpol : d'.policies = (nh.matchers e).map Nested.lower := by
          have h4 := lower_decl nh e
          rw [hd', matchers_eq] at *
          cases hf : nh.findSome? (asksStep e) with
          | none => simp [hf] at h4
          | some ps => simpa [hf] using h4
        rw [(g.decl e d hd).1, hpol, Own.says_asked]
        exact h3 e ((h1.2 e).mpr ⟨hl, d, hd, hm⟩)

end Mimic.Nested
