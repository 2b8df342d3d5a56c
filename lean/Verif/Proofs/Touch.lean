import Verif.Spec.Touch
import Verif.Proofs.NestedRuns

/-!
# Lemmas about matchers that change what they look at
-/

set_option autoImplicit false

namespace Mimic.Touch

open Mimic.Nested (Seen asked look look_spec plain_static expect_static)

variable {α : Type}

theorem askAll_says (ps : List (Matcher α)) (a : α) : SayAll ps a (askAll ps a).1 (askAll ps a).2 := by
  induction ps generalizing a with
  | nil => exact .nil
  | cons p ps ih =>
    simp only [askAll]
    cases h : p a with
    | mk a' b =>
      cases b with
      | none => exact .thrown h
      | some b => exact .cons h (ih a')

theorem SayAll.gentle {ps : List (Matcher α)} {a left : α} {b : Option Bool} (h : SayAll ps a left b) (hg : ∀ p ∈ ps, Gentle p) :
    left = a ∧ b = verdict ps a := by
  induction h with
  | nil => exact ⟨rfl, rfl⟩
  | @thrown p ps a a' hp =>
    have := hg p (by simp) a
    rw [hp] at this
    exact ⟨this, by simp [verdict, hp]⟩
  | @cons p ps a a' left b r hp _ ih =>
    have h1 := hg p (by simp) a
    rw [hp] at h1
    have h1 : a' = a := h1
    subst h1
    obtain ⟨h2, h3⟩ := ih (fun q hq => hg q (by simp [hq]))
    refine ⟨h2, ?_⟩
    rw [h3]
    simp only [verdict, List.any_cons, List.all_cons, hp]
    split
    · simp_all
    · cases b <;> simp_all

theorem Asked.gentle {M : Nat → List (Matcher α)} {f : Nat → Option Bool} {es : List Nat} {a left : α} {shown : List α}
    (h : Asked M f es a left shown) (hg : ∀ e ∈ es, ∀ p ∈ M e, Gentle p) :
    left = a ∧ (∀ x ∈ shown, x = a) ∧ ∀ e ∈ es, f e = verdict (M e) a := by
  induction h with
  | nil => simp
  | said hs hf _ ih =>
    obtain ⟨h1, h2⟩ := hs.gentle (hg _ (by simp))
    subst h1
    obtain ⟨h3, h4, h5⟩ := ih (fun e he => hg e (by simp [he]))
    refine ⟨h3, h4, fun e he => ?_⟩
    simp only [List.mem_cons] at he
    rcases he with rfl | he
    · rw [hf, h2]
    · exact h5 e he
  | thrown hs hf _ ih =>
    obtain ⟨h1, h2⟩ := hs.gentle (hg _ (by simp))
    subst h1
    obtain ⟨h3, h4, h5⟩ := ih (fun e he => hg e (by simp [he]))
    refine ⟨h3, by simpa using h4, fun e he => ?_⟩
    simp only [List.mem_cons] at he
    rcases he with rfl | he
    · rw [hf, h2]
    · exact h5 e he

/-- If all that are asked before `e` leave the arguments alone, then `e` judges what was passed. -/
theorem Asked.gentle_before {M : Nat → List (Matcher α)} {f : Nat → Option Bool} {es : List Nat} {a left : α} {shown : List α}
    (h : Asked M f es a left shown) {before after : List Nat} {e : Nat} (he : es = before ++ e :: after)
    (hg : ∀ e ∈ before, ∀ p ∈ M e, Gentle p) : ∃ a', SayAll (M e) a a' (f e) := by
  induction h generalizing before with
  | nil => simp at he
  | said hs hf _ ih =>
    cases before with
    | nil =>
      simp only [List.nil_append, List.cons.injEq] at he
      obtain ⟨rfl, rfl⟩ := he
      exact ⟨_, hf ▸ hs⟩
    | cons b before =>
      simp only [List.cons_append, List.cons.injEq] at he
      obtain ⟨rfl, he⟩ := he
      obtain ⟨h1, -⟩ := hs.gentle (hg _ (by simp))
      subst h1
      exact ih he (fun e he => hg e (by simp [he]))
  | thrown hs hf _ ih =>
    cases before with
    | nil =>
      simp only [List.nil_append, List.cons.injEq] at he
      obtain ⟨rfl, rfl⟩ := he
      exact ⟨_, hf ▸ hs⟩
    | cons b before =>
      simp only [List.cons_append, List.cons.injEq] at he
      obtain ⟨rfl, he⟩ := he
      obtain ⟨h1, -⟩ := hs.gentle (hg _ (by simp))
      subst h1
      exact ih he (fun e he => hg e (by simp [he]))

/-- What is kept. -/
structure Good (tr : Trace (Seen α)) (s : Store α) : Prop where
  reach : Reach tr s.w
  len : s.asks.length = s.w.exps.length
  decl : ∀ e d, tr.decl e = some d → d.policies = [asked e]

theorem Good.policies {tr : Trace (Seen α)} {s : Store α} (h : Good tr s) {e : Nat} {x : Exp (Seen α)}
    (hx : s.w.exps[e]? = some x) : x.policies = [asked e] := by
  obtain ⟨d, hd, hxd⟩ := h.reach.view.2.get (abs_mem hx)
  have e3 : x.policies = d.policies := congrArg Spec.Exp.policies hxd
  rw [e3, h.decl e d hd]

/-- The matching loop comes to what it does in the base model. -/
theorem scan_ok {tr : Trace (Seen α)} {s : Store α} (h : Good tr s) {es : List Nat}
    (hes : ∀ e ∈ es, ∃ x, s.w.exps[e]? = some x ∧ x.alive = true) (a : α) :
    ∃ l, scan s es a = .ok l ∧ l.ans.map (·.1) = es ∧ l.thrownAt.length = l.scan.thrown.length ∧
      ∀ f : Nat → Option Bool, (∀ p ∈ l.ans, f p.1 = p.2) →
        (∀ a', Mimic.scan s.w (a', f) es = .ok l.scan) ∧ Asked s.matchers f es a l.left l.thrownAt := by
  induction es generalizing a with
  | nil => exact ⟨_, rfl, rfl, rfl, fun f _ => ⟨fun _ => rfl, .nil⟩⟩
  | cons e es ih =>
    obtain ⟨x, hx, hxa⟩ := hes e (by simp)
    have hder : s.w.deref e = .ok x := by simp [World.deref, hx, hxa]
    obtain ⟨st, hst, _⟩ := h.reach.view.1.state hx hxa
    have hsay := askAll_says (s.matchers e) a
    obtain ⟨l, hl, h1, h2, h3⟩ := ih (fun e' he' => hes e' (by simp [he'])) (askAll (s.matchers e) a).1
    have hev : ∀ (f : Nat → Option Bool) (a' : α), evalPolicies (a', f) x.policies = (f e).map (fun b => [(b, none)]) := by
      intro f a'
      rw [h.policies hx]
      simp only [evalPolicies, asked]
      cases f e <;> rfl
    simp only [scan, hder, hst]
    cases hb : askAll (s.matchers e) a with
    | mk a₁ b =>
      rw [hb] at hsay hl h3
      simp only at hsay hl h3
      simp only [hl]
      have base : ∀ (f : Nat → Option Bool), f e = b → (∀ p ∈ l.ans, f p.1 = p.2) → ∀ a', Mimic.scan s.w (a', f) (e :: es) =
          (match b with
           | none => .ok { l.scan with thrown := e :: l.scan.thrown }
           | some b =>
             match evaluateMatchReport { exp := e, control := st, results := [(b, none)] } with
             | .none => .ok { l.scan with none := { exp := e, control := st, results := [(b, none)] } :: l.scan.none }
             | .inapplicable => .ok { l.scan with inapplicable := { exp := e, control := st, results := [(b, none)] } :: l.scan.inapplicable }
             | .full => .ok { l.scan with full := { exp := e, control := st, results := [(b, none)] } :: l.scan.full }) := by
        intro f hfe hfa a'
        simp only [Mimic.scan, hder, Exp.matchReport, hst, hev, hfe, (h3 f hfa).1 a', bind, Except.bind, pure, Except.pure]
        cases b <;> simp only [Option.map_none, Option.map_some]
        split <;> simp_all
      cases b with
      | none =>
        refine ⟨_, rfl, by simp [h1], by simp [h2], fun f hfa => ?_⟩
        have p1 := hfa (e, none) (by simp)
        have p2 : ∀ p ∈ l.ans, f p.1 = p.2 := fun p hp => hfa p (by simp [hp])
        exact ⟨base f p1 p2, .thrown hsay p1 (h3 f p2).2⟩
      | some b =>
        simp only
        cases hm : evaluateMatchReport { exp := e, control := st, results := [(b, none)] } <;>
        · refine ⟨_, rfl, by simp [h1], by simpa using h2, fun f hfa => ?_⟩
          have p1 := hfa (e, some b) (by simp)
          have p2 : ∀ p ∈ l.ans, f p.1 = p.2 := fun p hp => hfa p (by simp [hp])
          have := base f p1 p2
          simp only [hm] at this
          exact ⟨this, .said hsay p1 (h3 f p2).2⟩

/-- The storage of a mock. -/
theorem Good.storage {tr : Trace (Seen α)} {s : Store α} (h : Good tr s) {m : Nat} {es : List Nat}
    (hes : s.w.colls[m]? = some es) :
    (∀ e ∈ es.reverse, ∃ x, s.w.exps[e]? = some x ∧ x.alive = true) ∧
    YoungestFirst (fun e => tr.live e ∧ ∃ d, tr.decl e = some d ∧ d.mock = m) es.reverse := by
  have hv := h.reach.view
  have hc : es.reverse = ((abs s.w).candidates m).map (·.id) := by
    rw [hv.1.colls m es hes]
    simp [Spec.State.candidates, List.map_reverse]
  constructor
  · intro e he
    rw [hc, List.mem_map] at he
    obtain ⟨y, hy, rfl⟩ := he
    obtain ⟨h1, h2, _⟩ := candidates_mem.mp hy
    obtain ⟨x, hx, hxy⟩ := (abs_mem_iff _ _).mp h1
    exact ⟨x, hx, by rw [hxy] at h2; exact h2⟩
  · rw [hc]
    exact youngestFirst_map (hv.2.candidates_sorted m) (hv.2.candidates_iff m)

/-- A call of a mock that exists. -/
theorem call_ok {tr : Trace (Seen α)} {s : Store α} (h : Good tr s) {m : Nat} {es : List Nat} (hes : s.w.colls[m]? = some es) (a : α) :
    ∃ w' d f shown, call s m a = .ok ({ s with w := w' }, d) ∧ s.w.step d.op = .ok (w', d.events) ∧
      d.op = .call m (d.left, f) ∧ d.shown = shown ++ [d.left] ∧ d.shown.length = d.events.length ∧
      YoungestFirst (fun e => tr.live e ∧ ∃ d, tr.decl e = some d ∧ d.mock = m) es.reverse ∧
      Asked s.matchers f es.reverse a d.left shown := by
  obtain ⟨t1, t2⟩ := h.storage hes
  obtain ⟨l, hl, h1, h2, h3⟩ := scan_ok h t1 a
  have hnd : (l.ans.map (·.1)).Nodup := by
    rw [h1]
    exact t2.1.imp (fun h => by omega)
  obtain ⟨p1, p2⟩ := h3 (look l.ans) (look_spec hnd)
  have hlt : m < s.w.colls.length := (List.getElem?_eq_some_iff.mp hes).1
  obtain ⟨w', hw', _, _⟩ := h.reach.view.1.handleCall hlt (l.left, look l.ans)
  have hw : s.w.handleCall m (l.left, look l.ans) = .ok (w', ((abs s.w).call m (l.left, look l.ans)).2) := hw'
  revert hw
  generalize ((abs s.w).call m (l.left, look l.ans)).2 = out
  obtain ⟨ev, res⟩ := out
  intro hw
  have hstep : s.w.step (.call m (l.left, look l.ans)) = .ok (w', ev) := by
    simp [World.step, hw, bind, Except.bind, pure, Except.pure]
  simp only [World.handleCall, hes, p1, bind, Except.bind, pure, Except.pure] at hw
  simp only [call, hes, hl]
  by_cases hfull : l.scan.full.isEmpty
  · simp only [hfull, Bool.not_true, Bool.false_eq_true, if_false] at hw ⊢
    by_cases hin : l.scan.inapplicable.isEmpty
    · simp only [hin, Bool.not_true, Bool.false_eq_true, if_false, Except.ok.injEq, Prod.mk.injEq] at hw ⊢
      obtain ⟨rfl, rfl, rfl⟩ := hw
      exact ⟨_, _, _, _, ⟨rfl, rfl⟩, hstep, rfl, rfl, by simp [h2], t2, p2⟩
    · simp only [hin, Bool.not_false, if_true, Except.ok.injEq, Prod.mk.injEq] at hw ⊢
      obtain ⟨rfl, rfl, rfl⟩ := hw
      exact ⟨_, _, _, _, ⟨rfl, rfl⟩, hstep, rfl, rfl, by simp [h2], t2, p2⟩
  · simp only [hfull, Bool.not_false, if_true] at hw ⊢
    cases hb : pickBestMatch l.scan.full with
    | error y => simp [hb] at hw
    | ok best =>
      simp only [hb] at hw ⊢
      cases hcs : s.w.consume best.exp with
      | error y => simp [hcs] at hw
      | ok w₂ =>
        simp only [hcs, Except.ok.injEq, Prod.mk.injEq] at hw ⊢
        obtain ⟨rfl, rfl, rfl⟩ := hw
        exact ⟨_, _, _, _, ⟨rfl, rfl⟩, hstep, rfl, rfl, by simp [h2], t2, p2⟩

/-! ## Histories -/

theorem TReach.split {pre post : TTrace α} {op : TOp α} {c : Came α} {s : Store α}
    (h : TReach (pre ++ (op, c) :: post) s) : ∃ s₀ s₁, TReach pre s₀ ∧ s₀.step op = .ok (s₁, c) := by
  generalize hl : pre ++ (op, c) :: post = l at h
  induction h generalizing post with
  | init => simp at hl
  | @step th s s' op' c' hr hs ih =>
    rcases List.eq_nil_or_concat post with rfl | ⟨post', last, rfl⟩
    · obtain ⟨h1, h2⟩ := List.append_inj' hl rfl
      simp only [List.cons.injEq, Prod.mk.injEq, and_true] at h2
      obtain ⟨rfl, rfl⟩ := h2
      subst h1
      exact ⟨s, s', hr, hs⟩
    · rw [List.concat_eq_append, ← List.cons_append, ← List.append_assoc] at hl
      exact ih (List.append_inj' hl rfl).1

/-- What an operation declares. -/
def asksStep (e : Nat) (st : TOp α × Came α) : Option (List (Matcher α)) :=
  match st with
  | (.expect _ _ _ _ asks, c) => if Event.created e ∈ c.events then some asks else none
  | _ => none

theorem matchers_eq (th : TTrace α) (e : Nat) : th.matchers e = (th.findSome? (asksStep e)).getD [] := by
  unfold TTrace.matchers
  congr 2

theorem reach_good {th : TTrace α} {s : Store α} (h : TReach th s) :
    Good th.flat s ∧ ∀ e : Nat, s.asks[e]? = th.findSome? (asksStep e) := by
  induction h with
  | init =>
    refine ⟨⟨.init, rfl, ?_⟩, by simp [Store.init]⟩
    intro e d hd
    simp [TTrace.flat, Trace.decl] at hd
  | @step th s s' op c hr hs ih =>
    obtain ⟨g, ga⟩ := ih
    have hflat : TTrace.flat (th ++ [(op, c)]) = th.flat ++ [(c.op, c.events)] := by simp [TTrace.flat]
    rw [hflat]
    have plain : ∀ {p : Op (Seen α)}, (∀ m min max tags ps, p ≠ .expect m min max tags ps) →
        (∀ m min max tags asks, op ≠ .expect m min max tags asks) → s.plain p = .ok (s', c) →
        Good (th.flat ++ [(c.op, c.events)]) s' ∧ ∀ e : Nat, s'.asks[e]? = (th ++ [(op, c)]).findSome? (asksStep e) := by
      intro p hp hop' hs
      unfold Store.plain at hs
      split at hs
      · simp at hs
      · rename_i w' ev hw
        simp only [Except.ok.injEq, Prod.mk.injEq] at hs
        obtain ⟨rfl, rfl⟩ := hs
        obtain ⟨q1, q2⟩ := plain_static g.reach hp hw
        refine ⟨⟨g.reach.step hw, by rw [g.len]; exact q1.symm, fun e d hd => g.decl e d (q2 e ▸ hd)⟩, fun e => ?_⟩
        have : ∀ c, asksStep e (op, c) = none := by
          intro c
          cases op with
          | expect m min max tags asks => exact absurd rfl (hop' m min max tags asks)
          | _ => rfl
        rw [List.findSome?_append, ← ga e]
        simp [this]
    cases op with
    | newSequence st => exact plain (p := (.newSequence st)) (by simp) (by simp) hs
    | dropSequence q => exact plain (p := (.dropSequence q)) (by simp) (by simp) hs
    | newMock => exact plain (p := .newMock) (by simp) (by simp) hs
    | destroy e => exact plain (p := (.destroy e)) (by simp) (by simp) hs
    | call m a =>
      simp only [Store.step] at hs
      cases hes : s.w.colls[m]? with
      | none => simp [call, hes] at hs
      | some es =>
        obtain ⟨w', d, f, shown, k1, k2, k3, _⟩ := call_ok g hes a
        simp only [k1, Except.ok.injEq, Prod.mk.injEq] at hs
        obtain ⟨rfl, rfl⟩ := hs
        obtain ⟨q1, q2⟩ := plain_static g.reach (by rw [k3]; simp) k2
        refine ⟨⟨g.reach.step k2, by rw [g.len]; exact q1.symm, fun e d' hd => g.decl e d' (q2 e ▸ hd)⟩, fun e => ?_⟩
        rw [List.findSome?_append, ← ga e]
        simp [asksStep]
    | expect m min max tags asks =>
      simp only [Store.step] at hs
      split at hs
      · simp at hs
      · rename_i w' ev hw
        simp only [Except.ok.injEq, Prod.mk.injEq] at hs
        obtain ⟨rfl, rfl⟩ := hs
        have hr' := g.reach.step hw
        have key : ∀ e d, Trace.decl (th.flat ++ [(.expect m min max tags [asked s.w.exps.length], ev)]) e = some d →
            (e < s.w.exps.length ∧ th.flat.decl e = some d) ∨
            (ev = [.created s.w.exps.length] ∧ e = s.w.exps.length ∧ d = ⟨m, min, max, tags, [asked e]⟩) := by
          intro e d hd
          rw [decl_snoc] at hd
          cases hde : th.flat.decl e with
          | some d' =>
            simp only [hde, Option.some_or, Option.some.injEq] at hd
            exact Or.inl ⟨decl_lt g.reach hde, by rw [hd]⟩
          | none =>
            simp only [hde, Option.none_or, declStep] at hd
            split at hd
            · rename_i hc
              rcases expect_static g.reach hw with ⟨q1, _⟩ | ⟨q1, _⟩
              · rw [q1] at hc
                simp only [List.mem_singleton, Event.created.injEq] at hc
                simp only [Option.some.injEq] at hd
                subst hc
                exact Or.inr ⟨q1, rfl, hd.symm⟩
              · simp [q1] at hc
            · simp at hd
        have hdecl : ∀ e d, Trace.decl (th.flat ++ [(.expect m min max tags [asked s.w.exps.length], ev)]) e = some d →
            d.policies = [asked e] := by
          intro e d hd
          rcases key e d hd with ⟨_, hd'⟩ | ⟨_, rfl, rfl⟩
          · exact g.decl e d hd'
          · rfl
        rcases expect_static g.reach hw with ⟨q1, q2⟩ | ⟨q1, q2⟩
        · refine ⟨⟨hr', by simp [q1, q2, g.len], hdecl⟩, fun e => ?_⟩
          rw [List.findSome?_append, ← ga e]
          simp only [q1, if_true, List.getElem?_append, g.len]
          by_cases he : e < s.w.exps.length
          · simp only [he, if_true]
            have : ∃ y, s.asks[e]? = some y := ⟨_, List.getElem?_eq_getElem (by rw [g.len]; exact he)⟩
            obtain ⟨y, hy⟩ := this
            simp [hy]
          · have hn : s.asks[e]? = none := List.getElem?_eq_none (by rw [g.len]; omega)
            simp only [he, if_false, hn, Option.none_or]
            by_cases he' : e = s.w.exps.length
            · subst he'
              simp [asksStep]
            · have h2 : ¬ e = s.w.exps.length := he'
              cases hk : e - s.w.exps.length with
              | zero => omega
              | succ k => simp [asksStep, h2]
        · refine ⟨⟨hr', by simp [q1, q2, g.len], hdecl⟩, fun e => ?_⟩
          rw [List.findSome?_append, ← ga e]
          simp [q1, asksStep]

theorem reach_matchers {th : TTrace α} {s : Store α} (h : TReach th s) : s.matchers = th.matchers := by
  funext e
  rw [matchers_eq, ← (reach_good h).2 e]
  rfl

/-- What a call came to. -/
theorem call_came {pre post : TTrace α} {s : Store α} {m : Nat} {a : α} {c : Came α}
    (h : TReach (pre ++ (.call m a, c) :: post) s) :
    ∃ es f left shown, YoungestFirst (pre.of m) es ∧ Asked pre.matchers f es a left shown ∧ c.op = .call m (left, f) ∧
      c.left = some left ∧ c.shown = shown ++ [left] ∧ c.shown.length = c.events.length := by
  obtain ⟨s₀, s₁, h0, h1⟩ := h.split
  have g := (reach_good h0).1
  simp only [Store.step] at h1
  cases hes : s₀.w.colls[m]? with
  | none => simp [call, hes] at h1
  | some es =>
    obtain ⟨w', d, f, shown, k1, k2, k3, k4, k5, k6, k7⟩ := call_ok g hes a
    simp only [k1, Except.ok.injEq, Prod.mk.injEq] at h1
    obtain ⟨rfl, rfl⟩ := h1
    exact ⟨es.reverse, f, d.left, shown, k6, reach_matchers h0 ▸ k7, k3, rfl, k4, k5⟩

end Mimic.Touch
