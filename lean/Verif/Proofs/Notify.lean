import Verif.Spec.Notify
import Verif.Proofs.DisplayRuns

/-!
# Lemmas about reporters that call mocks: calls
-/

set_option autoImplicit false

namespace Mimic.Notify

open Mimic.Display (Show Rec print tooDeep Frame)

variable {α : Type} {rank srank : Nat → Nat} {hooks : Hooks α}

/-! ## The run of a call -/

theorem andThen_below {R : Nat} {p q : Show α} (hp : p.Below rank R) (hq : q.Below rank R) : (andThen p q).Below rank R := by
  induction hp with
  | done => exact hq
  | call hm _ ih => exact .call hm ih

theorem andThen_only {P : Nat → Prop} {p q : Show α} (hp : p.Only P) (hq : q.Only P) : (andThen p q).Only P := by
  induction hp with
  | done => exact hq
  | call hm _ ih => exact .call hm ih

theorem Layered.report (h : Layered rank srank hooks) (x : About α) (ev : Event) : (hooks x ev).Below rank (x.layer rank srank) := by
  cases x with
  | call m a => exact andThen_below (h.shows m a) (h.tells (.call m a) ev)
  | expectation m => exact h.tells (.expectation m) ev
  | sequence s => exact h.tells (.sequence s) ev

theorem Layered.effects (h : Layered rank srank hooks) (m : Nat) (a : α) (r : Option Nat) :
    (hooks.effects m a r).Below rank (rank m + 1) := by
  cases r with
  | none => exact .done
  | some e => exact h.acts m e a

/-- Only the first `n` mocks are used, and side effects keep to lower layers. -/
structure Closed (rank : Nat → Nat) (hooks : Hooks α) (n : Nat) : Prop where
  report : ∀ x ev, (hooks x ev).Only (· < n)
  acts : ∀ m a r, (hooks.effects m a r).Only (· < n)
  strict : ∀ m a r, (hooks.effects m a r).Below rank (rank m)

/-- All operations of a history are calls. -/
def OnlyCalls (tr : Trace α) : Prop := ∀ p ∈ tr, ∃ m a, p.1 = .call m a

theorem OnlyCalls.append {tr tr' : Trace α} (h : OnlyCalls tr) (h' : OnlyCalls tr') : OnlyCalls (tr ++ tr') := by
  intro p hp
  rcases List.mem_append.mp hp with hp | hp
  · exact h p hp
  · exact h' p hp

/-- Calls of mocks below layer `R` behave. They come to an end if `R` is at most `F`. -/
def RecOk (rank srank : Nat → Nat) (hooks : Hooks α) (R F n : Nat) (rec : Rec α) : Prop :=
  ∀ (tr : Trace α) (w : World α) (m : Nat) (a : α), Display.Good rank srank tr w → rank m < R →
    (∀ x, rec w m a = .error x → (∃ why, x = .client why) ∧
      ¬ (Closed rank hooks n ∧ w.colls.length = n ∧ m < n ∧ R ≤ F)) ∧
    ∀ w' new r, rec w m a = .ok (w', new, r) →
      Display.Good rank srank (tr ++ new) w' ∧ Frame rank srank (rank m + 1) w w' ∧ Made hooks m a new r ∧ OnlyCalls new

theorem print_ok {R F n : Nat} {rec : Rec α} (hrec : RecOk rank srank hooks R F n rec) {p : Show α} (hp : p.Below rank R)
    {tr : Trace α} {w : World α} (h : Display.Good rank srank tr w) :
    (∀ x, print rec w p = .error x → (∃ why, x = .client why) ∧
      ¬ (Closed rank hooks n ∧ w.colls.length = n ∧ p.Only (· < n) ∧ R ≤ F)) ∧
    ∀ w' new, print rec w p = .ok (w', new) →
      Display.Good rank srank (tr ++ new) w' ∧ Frame rank srank R w w' ∧ Calls hooks p new ∧ OnlyCalls new := by
  induction p generalizing tr w with
  | done =>
    refine ⟨by simp [print], fun w' new hk => ?_⟩
    simp only [print, Except.ok.injEq, Prod.mk.injEq] at hk
    obtain ⟨rfl, rfl⟩ := hk
    exact ⟨by simpa using h, .refl _ _, .done, by simp [OnlyCalls]⟩
  | call m a next ih =>
    cases hp with
    | call hm hn =>
      obtain ⟨r1, r2⟩ := hrec tr w m a h hm
      simp only [print]
      cases hr : rec w m a with
      | error x =>
        refine ⟨fun y hy => ?_, by simp⟩
        simp only [Except.error.injEq] at hy
        subst hy
        refine ⟨(r1 x hr).1, ?_⟩
        rintro ⟨c1, c2, c3, c4⟩
        cases c3 with
        | call c5 _ => exact (r1 x hr).2 ⟨c1, c2, c5, c4⟩
      | ok v =>
        obtain ⟨w₁, t₁, r⟩ := v
        obtain ⟨g1, g2, g3, g4⟩ := r2 w₁ t₁ r hr
        obtain ⟨k1, k2⟩ := ih r (hn r) g1
        simp only
        cases hk : print rec w₁ (next r) with
        | error x =>
          refine ⟨fun y hy => ?_, by simp⟩
          simp only [Except.error.injEq] at hy
          subst hy
          refine ⟨(k1 x hk).1, ?_⟩
          rintro ⟨c1, c2, c3, c4⟩
          cases c3 with
          | call _ c5 => exact (k1 x hk).2 ⟨c1, by rw [g2.colls]; exact c2, c5 r, c4⟩
        | ok v =>
          obtain ⟨w₂, t₂⟩ := v
          obtain ⟨j1, j2, j3, j4⟩ := k2 w₂ t₂ hk
          refine ⟨by simp, fun w' new he => ?_⟩
          simp only [Except.ok.injEq, Prod.mk.injEq] at he
          obtain ⟨rfl, rfl⟩ := he
          exact ⟨by rw [← List.append_assoc]; exact j1, (g2.mono hm).trans j2, .call g3 j3, g4.append j4⟩

theorem told_append {ps qs : List (Show α)} {tr tr' : Trace α} (h : Told hooks ps tr) (h' : Told hooks qs tr') :
    Told hooks (ps ++ qs) (tr ++ tr') := by
  have h'' := h'
  clear h'
  induction ps generalizing tr with
  | nil => cases h; simpa using h''
  | cons p ps ih =>
    cases h with
    | cons h1 h2 =>
      rw [List.append_assoc]
      exact .cons h1 (ih h2)

theorem told_one {p : Show α} {tr : Trace α} (h : Calls hooks p tr) : Told hooks [p] tr := by
  have := Told.cons h .nil
  simpa using this

/-- The loop of two worlds that agree on the layer. -/
theorem scan_frame {tr : Trace α} {w w' : World α} {m : Nat} {a : α} (h : Display.Good rank srank tr w) (hf : Frame rank srank (rank m) w w')
    {es : List Nat} (hes : ∀ e ∈ es, ∃ x, w.exps[e]? = some x ∧ x.alive = true ∧ x.coll = m) :
    Mimic.scan w' a es = Mimic.scan w a es := by
  induction es with
  | nil => rfl
  | cons e es ih =>
    obtain ⟨x, q1, q2, q3⟩ := hes e (by simp)
    have e1 := h.entries q1
    rw [q3] at e1
    have a1 : w'.deref e = .ok x := by
      have := hf.exps e x q1 (by rw [q3]; exact Nat.le_refl _)
      simp [World.deref, this, q2]
    have a2 : w.deref e = .ok x := by simp [World.deref, q1, q2]
    have b1 : x.matchReport e w'.seqs a = x.matchReport e w.seqs a :=
      Display.matchReport_congr (fun en hen => hf.seqs en.1 (by rw [e1 en hen]; exact Nat.le_refl _))
    simp only [Mimic.scan, a1, a2, b1, ih (fun e he => hes e (by simp [he])), bind, Except.bind]

/-- The loop comes to the same result as one without reporting. -/
theorem scan_ok {m F n : Nat} {rec : Rec α} (hrec : RecOk rank srank hooks (rank m) F n rec) {p : Nat → Show α}
    (hp : ∀ e, (p e).Below rank (rank m)) {a : α} {es : List Nat} {tr : Trace α} {w : World α} (h : Display.Good rank srank tr w)
    (hes : ∀ e ∈ es, ∃ x, w.exps[e]? = some x ∧ x.alive = true ∧ x.coll = m) :
    (∀ x, scan rec p a w es = .error x → (∃ why, x = .client why) ∧
      ¬ (Closed rank hooks n ∧ w.colls.length = n ∧ (∀ e, (p e).Only (· < n)) ∧ rank m ≤ F)) ∧
    ∀ w' new r, scan rec p a w es = .ok (w', new, r) →
      Display.Good rank srank (tr ++ new) w' ∧ Frame rank srank (rank m) w w' ∧ Told hooks (r.thrown.map p) new ∧ OnlyCalls new ∧
      Mimic.scan w a es = .ok r := by
  induction es generalizing tr w with
  | nil =>
    refine ⟨by simp [scan], fun w' new r hk => ?_⟩
    simp only [scan, Except.ok.injEq, Prod.mk.injEq] at hk
    obtain ⟨rfl, rfl, rfl⟩ := hk
    exact ⟨by simpa using h, .refl _ _, .nil, by simp [OnlyCalls], rfl⟩
  | cons e es ih =>
    obtain ⟨x, hx, hxa, hxm⟩ := hes e (by simp)
    have hder : w.deref e = .ok x := by simp [World.deref, hx, hxa]
    obtain ⟨rep, hrep⟩ := Display.matchReport_total h.reach hx hxa a
    simp only [scan, hder, hrep]
    cases rep with
    | none =>
      obtain ⟨r1, r2⟩ := print_ok hrec (hp e) h
      simp only
      cases hr : print rec w (p e) with
      | error y =>
        refine ⟨fun z hz => ?_, by simp⟩
        simp only [Except.error.injEq] at hz
        subst hz
        exact ⟨(r1 y hr).1, fun c => (r1 y hr).2 ⟨c.1, c.2.1, c.2.2.1 e, c.2.2.2⟩⟩
      | ok v =>
        obtain ⟨w₁, t₁⟩ := v
        obtain ⟨g1, g2, g3, g4⟩ := r2 w₁ t₁ hr
        obtain ⟨k1, k2⟩ := ih g1 (fun e' he' => by
          obtain ⟨x', q1, q2, q3⟩ := hes e' (by simp [he'])
          exact ⟨x', g2.exps e' x' q1 (by rw [q3]; exact Nat.le_refl _), q2, q3⟩)
        simp only
        cases hk : scan rec p a w₁ es with
        | error y =>
          refine ⟨fun z hz => ?_, by simp⟩
          simp only [Except.error.injEq] at hz
          subst hz
          refine ⟨(k1 y hk).1, ?_⟩
          rintro ⟨c1, c2, c3, c4⟩
          exact (k1 y hk).2 ⟨c1, by rw [g2.colls]; exact c2, c3, c4⟩
        | ok v =>
          obtain ⟨w₂, t₂, r⟩ := v
          obtain ⟨j1, j2, j3, j4, j5⟩ := k2 w₂ t₂ r hk
          refine ⟨by simp, fun w' new r' he => ?_⟩
          simp only [Except.ok.injEq, Prod.mk.injEq] at he
          obtain ⟨rfl, rfl, rfl⟩ := he
          refine ⟨by rw [← List.append_assoc]; exact j1, g2.trans j2, .cons g3 j3, g4.append j4, ?_⟩
          rw [scan_frame h g2 (fun e' he' => hes e' (by simp [he']))] at j5
          simp only [Mimic.scan, hder, hrep, j5, bind, Except.bind, pure, Except.pure]
    | some rep =>
      obtain ⟨k1, k2⟩ := ih h (fun e' he' => hes e' (by simp [he']))
      simp only
      cases hk : scan rec p a w es with
      | error y =>
        refine ⟨fun z hz => ?_, by simp⟩
        simp only [Except.error.injEq] at hz
        exact hz ▸ k1 y hk
      | ok v =>
        obtain ⟨w₂, t₂, r⟩ := v
        obtain ⟨j1, j2, j3, j4, j5⟩ := k2 w₂ t₂ r hk
        simp only
        cases hev : evaluateMatchReport rep <;>
        · refine ⟨by simp, fun w' new r' he => ?_⟩
          simp only [Except.ok.injEq, Prod.mk.injEq] at he
          obtain ⟨rfl, rfl, rfl⟩ := he
          refine ⟨j1, j2, j3, j4, ?_⟩
          simp only [Mimic.scan, hder, hrep, j5, hev, bind, Except.bind, pure, Except.pure]

/-- `handle_call` without a reporter that calls mocks, in the terms of this model. -/
theorem handleCall_eq (w : World α) (m : Nat) (a : α) : w.handleCall m a =
    (match w.colls[m]? with
     | none => .error (.client "call on a non-existing mock")
     | some es =>
       match Mimic.scan w a es.reverse with
       | .error x => .error x
       | .ok r =>
         match conclude r with
         | .error x => .error x
         | .ok ev =>
           match commit w ev with
           | .error x => .error x
           | .ok (w', res) => .ok (w', r.thrown.map Event.unhandled ++ [ev], res)) := by
  simp only [World.handleCall, bind, Except.bind, pure, Except.pure]
  cases w.colls[m]? with
  | none => rfl
  | some es =>
    simp only
    cases Mimic.scan w a es.reverse with
    | error x => rfl
    | ok r =>
      simp only [conclude]
      by_cases hf : (!r.full.isEmpty) = true
      · rw [if_pos hf, if_pos hf]
        cases pickBestMatch r.full with
        | error x => rfl
        | ok best =>
          simp only [commit]
          cases w.consume best.exp <;> rfl
      · rw [if_neg hf, if_neg hf]
        by_cases hi : (!r.inapplicable.isEmpty) = true
        · rw [if_pos hi, if_pos hi]
          rfl
        · rw [if_neg hi, if_neg hi]
          rfl

theorem resolver_append (us : List Nat) (x : Event) : resolver (us.map Event.unhandled ++ [x]) = resolver [x] := by
  unfold resolver
  induction us with
  | nil => rfl
  | cons u us ih => simpa using ih

theorem commit_resolver {w w' : World α} {ev : Event} {res : Option Nat} (h : commit w ev = .ok (w', res)) : res = resolver [ev] := by
  cases ev with
  | fullMatch e =>
    simp only [commit] at h
    split at h
    · simp at h
    · simp only [Except.ok.injEq, Prod.mk.injEq] at h
      rw [← h.2]
      rfl
  | _ =>
    simp only [commit, Except.ok.injEq, Prod.mk.injEq] at h
    rw [← h.2]
    rfl

/-- A call of a mock comes to the same result as in the flat history. -/
theorem call_ok (hl : Layered rank srank hooks) (n fuel : Nat) (held : List Nat) (R : Nat) (hh : ∀ k ∈ held, R ≤ rank k) :
    RecOk rank srank hooks R fuel n (call hooks fuel held : Rec α) := by
  induction fuel generalizing held R with
  | zero =>
    intro tr w m a h hm
    refine ⟨fun x hx => ?_, by simp [call]⟩
    simp only [call, Except.error.injEq] at hx
    exact ⟨⟨_, hx.symm⟩, fun hc => by omega⟩
  | succ fuel ih =>
    intro tr w m a h hm
    have hnot : held.contains m = false := by
      cases hc : held.contains m with
      | false => rfl
      | true =>
        have := hh m (by simpa using hc)
        omega
    simp only [call, body, hnot, Bool.false_eq_true, if_false]
    cases hes : w.colls[m]? with
    | none =>
      refine ⟨fun x hx => ?_, by simp⟩
      simp only [Except.error.injEq] at hx
      refine ⟨⟨_, hx.symm⟩, ?_⟩
      rintro ⟨_, c2, c3, _⟩
      rw [List.getElem?_eq_none_iff] at hes
      omega
    | some es =>
      simp only
      have t1 := h.storage hes
      have hrec := ih (m :: held) (rank m) (by
        intro k hk
        simp only [List.mem_cons] at hk
        rcases hk with rfl | hk
        · exact Nat.le_refl _
        · have := hh k hk; omega)
      have hrec' := ih held (rank m) (fun k hk => by have := hh k hk; omega)
      obtain ⟨r1, r2⟩ := scan_ok (a := a) hrec (p := fun e => hooks (.call m a) (.unhandled e)) (fun e => hl.report (.call m a) (.unhandled e)) h t1
      cases hsc : scan (call hooks fuel (m :: held)) (fun e => hooks (.call m a) (.unhandled e)) a w es.reverse with
      | error y =>
        refine ⟨fun z hz => ?_, by simp⟩
        simp only [Except.error.injEq] at hz
        subst hz
        refine ⟨(r1 y hsc).1, ?_⟩
        rintro ⟨c1, c2, c3, c4⟩
        exact (r1 y hsc).2 ⟨c1, c2, fun e => c1.report _ _, by omega⟩
      | ok v =>
        obtain ⟨w₁, t₁, r⟩ := v
        obtain ⟨g1, g2, g3, g4, g5⟩ := r2 w₁ t₁ r hsc
        simp only
        cases hcl : conclude r with
        | error z =>
          exfalso
          have hlt : m < w.colls.length := (List.getElem?_eq_some_iff.mp hes).1
          obtain ⟨w', hw', _, _⟩ := h.reach.view.1.handleCall hlt a
          simp only [handleCall_eq, hes, g5, hcl] at hw'
          simp at hw'
        | ok ev =>
          obtain ⟨s1, s2⟩ := print_ok (p := hooks (.call m a) ev) hrec' (hl.report (.call m a) ev) g1
          simp only
          cases hpr : print (call hooks fuel held) w₁ (hooks (.call m a) ev) with
          | error y =>
            refine ⟨fun z hz => ?_, by simp⟩
            simp only [Except.error.injEq] at hz
            subst hz
            refine ⟨(s1 y hpr).1, ?_⟩
            rintro ⟨c1, c2, c3, c4⟩
            exact (s1 y hpr).2 ⟨c1, by rw [g2.colls]; exact c2, c1.report _ _, by omega⟩
          | ok v =>
            obtain ⟨w₂, t₂⟩ := v
            obtain ⟨q1, q2, q3, q4⟩ := s2 w₂ t₂ hpr
            have hf := g2.trans q2
            have hm1 : w₂.colls[m]? = some es := by rw [hf.colls]; exact hes
            have p1 : Mimic.scan w₂ a es.reverse = .ok r := by rw [scan_frame h hf t1]; exact g5
            have hlt : m < w₂.colls.length := (List.getElem?_eq_some_iff.mp hm1).1
            obtain ⟨w', hw', _, _⟩ := q1.reach.view.1.handleCall hlt a
            have hw : w₂.handleCall m a = .ok (w', ((abs w₂).call m a).2) := hw'
            revert hw
            generalize ((abs w₂).call m a).2 = out
            obtain ⟨evs, res⟩ := out
            intro hw
            obtain ⟨o1, o2⟩ := q1.call hw
            simp only [handleCall_eq, hm1, p1, hcl] at hw
            cases hcm : commit w₂ ev with
            | error y => simp [hcm] at hw
            | ok u =>
              obtain ⟨w₃, res'⟩ := u
              simp only [hcm, Except.ok.injEq, Prod.mk.injEq] at hw
              obtain ⟨rfl, rfl, rfl⟩ := hw
              have hrs := commit_resolver hcm
              have hcol : w₃.colls = w.colls := by
                have := ((hf.mono (Nat.le_succ _)).trans o2).colls
                exact this
              have hrec'' := ih held (rank m + 1) (fun k hk => by have := hh k hk; omega)
              obtain ⟨u1, u2⟩ := print_ok hrec'' (hl.effects m a res') o1
              simp only [hcm]
              cases hac : print (call hooks fuel held) w₃ (hooks.effects m a res') with
              | error y =>
                refine ⟨fun z hz => ?_, by simp⟩
                simp only [Except.error.injEq] at hz
                subst hz
                refine ⟨(u1 y hac).1, ?_⟩
                rintro ⟨c1, c2, c3, c4⟩
                exact ((print_ok hrec' (c1.strict m a res') o1).1 y hac).2 ⟨c1, by rw [hcol]; exact c2, c1.acts _ _ _, by omega⟩
              | ok v =>
                obtain ⟨w₄, t₃⟩ := v
                obtain ⟨v1, v2, v3, v4⟩ := u2 w₄ t₃ hac
                refine ⟨by simp, fun w' new res he => ?_⟩
                simp only [Except.ok.injEq, Prod.mk.injEq] at he
                obtain ⟨rfl, rfl, rfl⟩ := he
                refine ⟨?_, ((hf.mono (Nat.le_succ _)).trans o2).trans v2, ?_, ?_⟩
                · simp only [List.append_assoc] at v1 ⊢
                  exact v1
                · rw [hrs, ← resolver_append r.thrown ev] at v3 ⊢
                  refine .call ?_ v3
                  rw [List.map_append, List.map_map]
                  exact told_append g3 (told_one q3)
                · exact ((g4.append q4).append (by
                    intro p hp
                    simp only [List.mem_singleton] at hp
                    exact ⟨m, a, by rw [hp]⟩)).append v4

end Mimic.Notify
