import Verif.Proofs.Nested

/-!
# Lemmas about histories with matchers that call mocks
-/

set_option autoImplicit false

namespace Mimic.Nested

variable {α : Type} {rank srank : Nat → Nat}

theorem NTrace.flat_snoc (nh : NTrace α) (op : NOp α) (tr : Trace (Seen α)) : NTrace.flat (nh ++ [(op, tr)]) = nh.flat ++ tr := by
  simp [NTrace.flat]

theorem NReach.snoc_inv {nh : NTrace α} {st : NOp α × Trace (Seen α)} {s : Store α} (h : NReach (nh ++ [st]) s) :
    ∃ s₀, NReach nh s₀ ∧ s₀.step st.1 = .ok (s, st.2) := by
  generalize hh : nh ++ [st] = l at h
  cases h with
  | init => simp at hh
  | step hr hs =>
    obtain ⟨h1, h2⟩ := List.append_inj' hh rfl
    simp only [List.cons.injEq, and_true] at h2
    subst h1
    rw [h2]
    exact ⟨_, hr, hs⟩

theorem NReach.split {pre post : NTrace α} {op : NOp α} {tr : Trace (Seen α)} {s : Store α}
    (h : NReach (pre ++ (op, tr) :: post) s) : ∃ s₀ s₁, NReach pre s₀ ∧ s₀.step op = .ok (s₁, tr) := by
  generalize hl : pre ++ (op, tr) :: post = l at h
  induction h generalizing post with
  | init => simp at hl
  | @step nh s s' op' tr' hr hs ih =>
    rcases List.eq_nil_or_concat post with rfl | ⟨post', last, rfl⟩
    · obtain ⟨h1, h2⟩ := List.append_inj' hl rfl
      simp only [List.cons.injEq, Prod.mk.injEq, and_true] at h2
      obtain ⟨rfl, rfl⟩ := h2
      subst h1
      exact ⟨s, s', hr, hs⟩
    · rw [List.concat_eq_append, ← List.cons_append, ← List.append_assoc] at hl
      exact ih (List.append_inj' hl rfl).1

/-- What an operation declares. -/
def asksStep (e : Nat) (st : NOp α × Trace (Seen α)) : Option (List (α → Ask α)) :=
  match st with
  | (.expect _ _ _ _ asks, tr) => if Event.created e ∈ tr.events then some asks else none
  | _ => none

theorem matchers_eq (nh : NTrace α) (e : Nat) : nh.matchers e = (nh.findSome? (asksStep e)).getD [] := by
  unfold NTrace.matchers
  congr 2

/-- Operations without matchers neither declare nor remove expectations from the table. -/
theorem plain_static {tr : Trace (Seen α)} {w w' : World (Seen α)} (h : Reach tr w) {op : Op (Seen α)} {ev : List Event}
    (hop : ∀ m min max tags ps, op ≠ .expect m min max tags ps) (hs : w.step op = .ok (w', ev)) :
    w'.exps.length = w.exps.length ∧ ∀ e, Trace.decl (tr ++ [(op, ev)]) e = tr.decl e := by
  constructor
  · rw [← abs_exps_length, ← abs_exps_length]
    have hsp := h.spec_step hs
    cases op with
    | expect m min max tags ps => exact absurd rfl (hop m min max tags ps)
    | newSequence =>
      simp only [Spec.State.step, Option.some.injEq, Prod.mk.injEq] at hsp
      rw [← hsp.1]
    | newMock =>
      simp only [Spec.State.step, Option.some.injEq, Prod.mk.injEq] at hsp
      rw [← hsp.1]
    | dropSequence =>
      simp only [Spec.State.step] at hsp
      split at hsp
      · simp only [Option.some.injEq, Prod.mk.injEq] at hsp
        rw [← hsp.1]
      · simp at hsp
    | destroy =>
      simp only [Spec.State.step] at hsp
      split at hsp
      · simp at hsp
      · simp only [Option.some.injEq, Prod.mk.injEq] at hsp
        rw [← hsp.1]
        simp [Spec.State.withdraw]
    | call m a =>
      simp only [Spec.State.step] at hsp
      split at hsp
      · simp only [Option.some.injEq, Prod.mk.injEq] at hsp
        rw [← hsp.1]
        unfold Spec.State.call
        dsimp only
        split
        · simp [Spec.State.countMatch]
        · split <;> rfl
      · simp at hsp
  · intro e
    refine decl_snoc_none ?_
    cases op with
    | expect m min max tags ps => exact absurd rfl (hop m min max tags ps)
    | _ => rfl

theorem expect_static {tr : Trace (Seen α)} {w w' : World (Seen α)} (h : Reach tr w) {m : Nat} {min max : Int} {tags : List Nat}
    {ps : List (Policy (Seen α))} {ev : List Event} (hs : w.step (.expect m min max tags ps) = .ok (w', ev)) :
    (ev = [.created w.exps.length] ∧ w'.exps.length = w.exps.length + 1) ∨ (ev = [.rejected] ∧ w'.exps.length = w.exps.length) := by
  rw [← abs_exps_length, ← abs_exps_length]
  have hsp := h.spec_step hs
  simp only [Spec.State.step] at hsp
  split at hsp
  · split at hsp
    · simp only [Option.some.injEq, Prod.mk.injEq] at hsp
      left
      rw [← hsp.1, ← hsp.2]
      simp
    · simp only [Option.some.injEq, Prod.mk.injEq] at hsp
      right
      rw [← hsp.1, ← hsp.2]
      simp
  · simp at hsp

/-- Histories of layered programs. -/
theorem reach_good {nh : NTrace α} {s : Store α} (h : NReach nh s) (hl : nh.layered rank srank) :
    Good rank srank nh.flat s ∧ ∀ e : Nat, s.asks[e]? = nh.findSome? (asksStep e) := by
  induction h with
  | init =>
    refine ⟨⟨.init, rfl, ?_⟩, by simp [Store.init]⟩
    intro e d hd
    simp [NTrace.flat, Trace.decl] at hd
  | @step nh s s' op tr hr hs ih =>
    obtain ⟨g, ga⟩ := ih (fun st hst => hl st (by simp [hst]))
    have hop := hl (op, tr) (by simp)
    rw [NTrace.flat_snoc]
    have plain : ∀ {p : Op (Seen α)}, (∀ m min max tags ps, p ≠ .expect m min max tags ps) →
        (∀ m min max tags asks, op ≠ .expect m min max tags asks) → s.plain p = .ok (s', tr) →
        Good rank srank (nh.flat ++ tr) s' ∧ ∀ e : Nat, s'.asks[e]? = (nh ++ [(op, tr)]).findSome? (asksStep e) := by
      intro p hp hop' hs
      unfold Store.plain at hs
      split at hs
      · simp at hs
      · rename_i w' ev hw
        simp only [Except.ok.injEq, Prod.mk.injEq] at hs
        obtain ⟨rfl, rfl⟩ := hs
        obtain ⟨q1, q2⟩ := plain_static g.reach hp hw
        refine ⟨⟨g.reach.step hw, by rw [g.len]; exact q1.symm, fun e d hd => g.decl e d (q2 e ▸ hd)⟩, fun e => ?_⟩
        have : asksStep e (op, [(p, ev)]) = none := by
          cases op with
          | expect m min max tags asks => exact absurd rfl (hop' m min max tags asks)
          | _ => rfl
        rw [List.findSome?_append, ← ga e]
        simp [this]
    cases op with
    | newSequence st => exact plain (p := (.newSequence st)) (by simp) (by simp) hs
    | dropSequence q => exact plain (p := (.dropSequence q)) (by simp) (by simp) hs
    | newMock => exact plain (p := .newMock) (by simp) (by simp) hs
    | destroy e => exact plain (p := (.destroy e)) (by simp) (by simp) hs
    | call m a =>
      simp only [Store.step] at hs
      split at hs
      · simp at hs
      · rename_i r hc
        simp only [Except.ok.injEq, Prod.mk.injEq] at hs
        obtain ⟨rfl, rfl⟩ := hs
        obtain ⟨q1, q2, _⟩ := (call_ok (rank := rank) (srank := srank) _ [] (rank m + 1) (by simp) nh.flat s m a g
          (Nat.lt_succ_self _)).2 _ _ _ hc
        refine ⟨q1, fun e => ?_⟩
        rw [List.findSome?_append, ← ga e, q2.asks]
        simp [asksStep]
    | expect m min max tags asks =>
      simp only [Store.step] at hs
      split at hs
      · simp at hs
      · rename_i w' ev hw
        simp only [Except.ok.injEq, Prod.mk.injEq] at hs
        obtain ⟨rfl, rfl⟩ := hs
        have hr' := g.reach.step hw
        have key : ∀ e d, Trace.decl (nh.flat ++ [(.expect m min max tags [asked s.w.exps.length], ev)]) e = some d →
            (e < s.w.exps.length ∧ nh.flat.decl e = some d) ∨
            (ev = [.created s.w.exps.length] ∧ e = s.w.exps.length ∧ d = ⟨m, min, max, tags, [asked e]⟩) := by
          intro e d hd
          rw [decl_snoc] at hd
          cases hde : nh.flat.decl e with
          | some d' =>
            simp only [hde, Option.some_or, Option.some.injEq] at hd
            exact Or.inl ⟨decl_lt g.reach hde, by rw [hd]⟩
          | none =>
            simp only [hde, Option.none_or, declStep] at hd
            split at hd
            · rename_i hc
              rcases expect_static g.reach hw with ⟨q1, _⟩ | ⟨q1, _⟩
              · rw [q1] at hc
                simp only [List.mem_singleton, Event.created.injEq] at hc
                simp only [Option.some.injEq] at hd
                subst hc
                exact Or.inr ⟨q1, rfl, hd.symm⟩
              · simp [q1] at hc
            · simp at hd
        rcases expect_static g.reach hw with ⟨q1, q2⟩ | ⟨q1, q2⟩
        · refine ⟨⟨hr', ?_, ?_⟩, fun e => ?_⟩
          · simp [q1, q2, g.len]
          · intro e d hd
            rcases key e d hd with ⟨hlt, hd'⟩ | ⟨_, rfl, rfl⟩
            · have := g.decl e d hd'
              have hm : Store.matchers { w := w', asks := s.asks ++ [asks] } e = s.matchers e := by
                simp only [Store.matchers, List.getElem?_append, g.len, hlt, if_true]
              simp only [q1, if_true, hm]
              exact this
            · have hm : Store.matchers { w := w', asks := s.asks ++ [asks] } s.w.exps.length = asks := by
                simp [Store.matchers, ← g.len]
              simp only [q1, if_true, hm]
              exact ⟨trivial, hop.1, hop.2⟩
          · rw [List.findSome?_append, ← ga e]
            simp only [q1, if_true, List.getElem?_append, g.len]
            by_cases he : e < s.w.exps.length
            · simp only [he, if_true]
              have : ∃ y, s.asks[e]? = some y := ⟨_, List.getElem?_eq_getElem (by rw [g.len]; exact he)⟩
              obtain ⟨y, hy⟩ := this
              simp [hy]
            · have hn : s.asks[e]? = none := List.getElem?_eq_none (by rw [g.len]; omega)
              simp only [he, if_false, hn, Option.none_or]
              by_cases he' : e = s.w.exps.length
              · subst he'
                simp [asksStep, Trace.events]
              · have h1 : e - s.w.exps.length ≠ 0 := by omega
                have h2 : ¬ e = s.w.exps.length := he'
                cases hk : e - s.w.exps.length with
                | zero => omega
                | succ k => simp [asksStep, Trace.events, h2]
        · refine ⟨⟨hr', ?_, ?_⟩, fun e => ?_⟩
          · simp [q1, q2, g.len]
          · intro e d hd
            rcases key e d hd with ⟨hlt, hd'⟩ | ⟨hc, _⟩
            · simp only [q1, List.cons.injEq, reduceCtorEq, and_true, if_false]
              exact g.decl e d hd'
            · simp [q1] at hc
          · rw [List.findSome?_append, ← ga e]
            simp [q1, asksStep, Trace.events]

theorem reach_matchers {nh : NTrace α} {s : Store α} (h : NReach nh s) (hl : nh.layered rank srank) : s.matchers = nh.matchers := by
  funext e
  rw [matchers_eq, ← (reach_good h hl).2 e]
  rfl

end Mimic.Nested
