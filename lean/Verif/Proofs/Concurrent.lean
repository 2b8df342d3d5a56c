import Verif.Proofs.Descriptions
import Verif.Spec.Concurrent
import Verif.Proofs.Handle
import Verif.Proofs.Reports

/-!
# Helper lemmas about schedules: closed forms of the steps and the invariant
-/

set_option autoImplicit false

namespace Mimic

variable {α : Type}

/-! ### Closed forms without sequences -/

/-- The new expectation. -/
def plainExp (c : Nat) (mn mx : Int) (ps : List (Policy α)) : Exp α :=
  { coll := c, control := { min := mn, max := mx, count := 0, entries := [] }, policies := ps, alive := true }

/-- What a successful creation without sequences does. -/
theorem expect_plain {w w' : World α} {c : Nat} {mn mx : Int} {ps : List (Policy α)} {ev : List Event}
    (h : w.step (.expect c mn mx [] ps) = .ok (w', ev)) :
    (ev = [.rejected] ∧ w' = w) ∨
    ∃ es, w.colls[c]? = some es ∧ ev = [.created w.exps.length] ∧ 0 ≤ mn ∧ mn ≤ mx ∧ mx ≤ intMax ∧
      w' = { seqs := w.seqs, exps := w.exps ++ [plainExp c mn mx ps], colls := w.colls.set c (es ++ [w.exps.length]) } := by
  simp only [World.step, World.expect] at h
  split at h
  · simp at h
  · rename_i es hes
    split at h
    · rename_i hint
      have hmk : ∀ t : TimesConfig, Control.make t [] w.seqs = .ok (w.seqs, ⟨t.min, t.max, 0, []⟩) := by
        intro t
        simp only [Control.make, makeSequenceEntries, Control.updateSequenceStates, forEntries, bind, Except.bind, pure,
          Except.pure]
        split <;> rename_i heq
        · split at heq
          · simp at heq
          · split at heq <;> simp at heq
        · grind
      have hsc : seqConfig [] = some [] := rfl
      by_cases hc : mn < 0 ∨ mx < 0 ∨ mx < mn
      · have ht : TimesConfig.make mn mx = none := by simp [TimesConfig.make, hc]
        simp only [ht, pure, Except.pure, Except.ok.injEq, Prod.mk.injEq] at h
        exact Or.inl ⟨h.2.symm, h.1.symm⟩
      · have ht : TimesConfig.make mn mx = some ⟨mn, mx⟩ := by simp [TimesConfig.make, hc]
        have hmx : mx ≤ intMax := by
          simp only [List.all_nil, Bool.true_and, isInt, Bool.and_eq_true, decide_eq_true_eq] at hint
          exact hint.2.2
        right
        simp only [ht, hsc, hmk, bind, Except.bind, pure, Except.pure, check] at h
        refine ⟨es, hes, ?_⟩
        simp only [plainExp]
        grind
    · simp at h

/-- How an expectation without sequences looks at a call. -/
inductive Look where
  | thrown
  | no
  | inapplicable
  | full
deriving DecidableEq

def look (a : α) (x : Exp α) : Look :=
  if x.policies.any (fun p => p.accepts a == none) then .thrown
  else if x.policies.all (fun p => p.accepts a == some true) then
    if x.control.count = x.control.max then .inapplicable else .full
  else .no

def lookE (w : World α) (a : α) (e : Nat) : Option Look := (w.exps[e]?).map (look a)

theorem all_getD (a : α) (ps : List (Policy α)) :
    (ps.map (fun p => ((p.accepts a).getD false, p.description))).all (·.1) = ps.all (fun p => p.accepts a == some true) := by
  induction ps with
  | nil => rfl
  | cons p ps ih =>
    simp only [List.map_cons, List.all_cons, ih]
    cases p.accepts a with
    | none => simp
    | some b => cases b <;> simp

theorem matchReport_plain (e : Nat) (x : Exp α) (h : Seqs) (a : α) (hx : x.control.entries = []) :
    ∃ rep, x.matchReport e h a = .ok rep ∧
      match look a x with
      | .thrown => rep = none
      | .no => ∃ r, rep = some r ∧ evaluateMatchReport r = .none ∧ r.exp = e
      | .inapplicable => ∃ r, rep = some r ∧ evaluateMatchReport r = .inapplicable ∧ r.exp = e
      | .full => ∃ r, rep = some r ∧ evaluateMatchReport r = .full ∧ r.exp = e ∧ r.ratings = .ok [] := by
  simp only [Exp.matchReport, Control.state, hx, derefTags, collectRatings, evalPolicies_eq, bind, Except.bind, pure,
    Except.pure, look]
  have hall := all_getD a x.policies
  generalize x.policies.map (fun p => ((p.accepts a).getD false, p.description)) = rs at hall ⊢
  generalize x.policies.any (fun p => p.accepts a == none) = b1 at hall ⊢
  generalize x.policies.all (fun p => p.accepts a == some true) = b2 at hall ⊢
  by_cases h3 : x.control.count = x.control.max <;> cases b1 <;> cases b2 <;>
    simp only [h3, evaluateMatchReport, hall, ControlState.isApplicable, MatchReport.ratings, if_true, if_false,
      Bool.false_eq_true, Bool.not_true, Bool.not_false] <;> simp [hall, ControlState.isApplicable, MatchReport.ratings] <;> simpa using hall

/-- The matching loop. -/
theorem scan_plain (w : World α) (a : α) (es : List Nat)
    (hes : ∀ e ∈ es, ∃ x, w.exps[e]? = some x ∧ x.alive = true ∧ x.control.entries = []) :
    ∃ r, scan w a es = .ok r ∧
      r.full.map (·.exp) = es.filter (fun e => lookE w a e == some .full) ∧
      r.inapplicable.map (·.exp) = es.filter (fun e => lookE w a e == some .inapplicable) ∧
      r.none.map (·.exp) = es.filter (fun e => lookE w a e == some .no) ∧
      r.thrown = es.filter (fun e => lookE w a e == some .thrown) ∧
      ∀ q ∈ r.full, q.ratings = .ok [] := by
  induction es with
  | nil => exact ⟨_, rfl, by simp⟩
  | cons e es ih =>
    obtain ⟨r, h1, h2, h3, h4, h5, h6⟩ := ih (fun e he => hes e (by simp [he]))
    obtain ⟨x, hx, hal, hen⟩ := hes e (by simp)
    obtain ⟨rep, hr, hl⟩ := matchReport_plain e x w.seqs a hen
    have hlk : lookE w a e = some (look a x) := by simp [lookE, hx]
    simp only [scan, World.deref, hx, hal, if_true, hr, h1, bind, Except.bind, pure, Except.pure]
    cases hk : look a x with
    | thrown =>
      simp only [hk] at hl
      subst hl
      exact ⟨_, rfl, by simp [h2, hlk, hk], by simp [h3, hlk, hk], by simp [h4, hlk, hk], by simp [h5, hlk, hk], h6⟩
    | no =>
      simp only [hk] at hl
      obtain ⟨q, rfl, hq, hqe⟩ := hl
      simp only [hq]
      exact ⟨_, rfl, by simp [h2, hlk, hk], by simp [h3, hlk, hk], by simp [h4, hlk, hk, hqe], by simp [h5, hlk, hk], h6⟩
    | inapplicable =>
      simp only [hk] at hl
      obtain ⟨q, rfl, hq, hqe⟩ := hl
      simp only [hq]
      exact ⟨_, rfl, by simp [h2, hlk, hk], by simp [h3, hlk, hk, hqe], by simp [h4, hlk, hk], by simp [h5, hlk, hk], h6⟩
    | full =>
      simp only [hk] at hl
      obtain ⟨q, rfl, hq, hqe, hqr⟩ := hl
      simp only [hq]
      refine ⟨_, rfl, by simp [h2, hlk, hk, hqe], by simp [h3, hlk, hk], by simp [h4, hlk, hk], by simp [h5, hlk, hk], ?_⟩
      intro p hp
      rcases List.mem_cons.mp hp with rfl | hp
      · exact hqr
      · exact h6 p hp

theorem pickLoop_plain {b : MatchReport} {rs : List MatchReport} (hb : b.ratings = .ok []) (h : ∀ q ∈ rs, q.ratings = .ok []) :
    pickLoop b rs = .ok b := by
  induction rs with
  | nil => rfl
  | cons q rs ih =>
    have hq := h q (by simp)
    simp only [pickLoop, hb, hq, bind, Except.bind, hasBetterRating, hasBetterRatingLoop]
    simp only [decide_true, if_true, Int.le_refl]
    exact ih (fun p hp => h p (by simp [hp]))

/-- The candidates of a call, youngest first. -/
def fulls (w : World α) (a : α) (es : List Nat) : List Nat := es.reverse.filter (fun e => lookE w a e == some .full)

/-- The step `scan` in closed form. -/
theorem scan_step {asserts : Bool} {kw : KWorld α} {t c : Nat} {a : α} {es : List Nat}
    (hidle : kw.threads[t]? = some .idle) (hc : kw.w.colls[c]? = some es)
    (hes : ∀ e ∈ es, ∃ x, kw.w.exps[e]? = some x ∧ x.alive = true ∧ x.control.entries = []) :
    kw.step asserts t (.scan c a) =
      let thrown := (es.reverse.filter (fun e => lookE kw.w a e == some .thrown)).map Event.unhandled
      let log : KLog := { ev := thrown, reads := .storage c :: es.map .exp, acquires := some (.storage c),
                          releases := some (.storage c) }
      match fulls kw.w a es with
      | e :: _ => .ok (kw.at t (.matched c e), { log with chosen := some e })
      | [] =>
        let inap := es.reverse.filter (fun e => lookE kw.w a e == some .inapplicable)
        if !inap.isEmpty then .ok (kw, { log with ev := thrown ++ [.inapplicable inap] })
        else .ok (kw, { log with ev := thrown ++ [.noMatch (es.reverse.filter (fun e => lookE kw.w a e == some .no))] }) := by
  obtain ⟨r, h1, h2, h3, h4, h5, h6⟩ := scan_plain kw.w a es.reverse (by simpa using hes)
  simp only [KWorld.step, hidle, if_true, hc, h1, bind, Except.bind, pure, Except.pure]
  have hf : fulls kw.w a es = r.full.map (·.exp) := by rw [h2]; rfl
  rw [hf, h5, ← h3, ← h4]
  cases hfull : r.full with
  | cons q rs =>
    simp only [List.isEmpty_cons, Bool.not_false, if_true, pickBestMatch, List.map_cons]
    rw [pickLoop_plain (h6 q (by simp [hfull])) (fun p hp => h6 p (by simp [hfull, hp]))]
  | nil =>
    simp only [List.isEmpty_nil, Bool.not_true, Bool.false_eq_true, if_false, List.map_nil, List.isEmpty_map]

end Mimic
