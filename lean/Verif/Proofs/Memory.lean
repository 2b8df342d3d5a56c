import Verif.Spec.Memory
import Verif.Proofs.Fragile
import Verif.Proofs.Scoped

/-!
# Lemmas about programs that run out of memory
-/

set_option autoImplicit false

namespace Mimic.Memory

variable {α : Type}

/-! ### The world without memory -/

/-- The same expectation, asked with memory as part of the call. -/
def liftExp (e : Nat) (x : Exp α) : Exp (Starved α) :=
  { coll := x.coll, control := x.control, policies := guard e :: x.policies.map lift, alive := x.alive }

/-- The same world, called with memory as part of the call. -/
def liftWorld (w : World α) : World (Starved α) :=
  { seqs := w.seqs, exps := w.exps.mapIdx liftExp, colls := w.colls }

/-- A report of an expectation with one more policy. -/
def pad (r : MatchReport) : MatchReport := { r with results := (true, none) :: r.results }

/-- The reports of expectations with one more policy. -/
def padScan (r : Scan) : Scan := ⟨r.full.map pad, r.inapplicable.map pad, r.none.map pad, r.thrown⟩

theorem lift_deref (w : World α) (e : Nat) : (liftWorld w).deref e = (w.deref e).map (liftExp e) := by
  unfold World.deref liftWorld
  simp only [List.getElem?_mapIdx]
  cases h : w.exps[e]? with
  | none => rfl
  | some x =>
    simp only [Option.map_some]
    have : (liftExp e x).alive = x.alive := rfl
    rw [this]
    by_cases ha : x.alive = true
    · rw [if_pos ha, if_pos ha]; rfl
    · rw [if_neg ha, if_neg ha]; rfl

theorem lift_evalPolicies (a : α) (f : Nat → Bool) (ps : List (Policy α)) :
    evalPolicies (a, f) (ps.map lift) = evalPolicies a ps := by
  induction ps with
  | nil => rfl
  | cons p ps ih => simp only [List.map_cons, evalPolicies, ih, lift]

theorem lift_matchReport (e : Nat) (x : Exp α) (h : Seqs) (a : α) (f : Nat → Bool) :
    (liftExp e x).matchReport e h (a, f) =
      (x.matchReport e h a).map (fun rep => if f e then none else rep.map pad) := by
  unfold Exp.matchReport
  simp only [liftExp, evalPolicies, guard, lift_evalPolicies, bind, Except.bind]
  cases x.control.state h with
  | error e => rfl
  | ok st =>
    by_cases hf : f e = true
    · simp only [hf, if_true]
      cases evalPolicies a x.policies <;> rfl
    · simp only [hf, if_false]
      cases evalPolicies a x.policies <;> rfl

theorem evaluate_pad (r : MatchReport) : evaluateMatchReport (pad r) = evaluateMatchReport r := by
  have : ((pad r).results.all (·.1)) = (r.results.all (·.1)) := by simp only [pad, List.all_cons, Bool.true_and]
  unfold evaluateMatchReport
  rw [this]
  rfl

/-- One round of the loop in the world without memory. -/
theorem lift_scan_cons (w : World α) (a : α) (f : Nat → Bool) (e : Nat) (rest : List Nat) {r : Scan}
    (h : Mimic.scan (liftWorld w) (a, f) (e :: rest) = .ok r) :
    ∃ (x : Exp α) (rep : Option MatchReport) (r0 : Scan), w.deref e = .ok x ∧ x.matchReport e w.seqs a = .ok rep ∧
      Mimic.scan (liftWorld w) (a, f) rest = .ok r0 ∧
      r = match if f e then Option.none else rep with
        | Option.none => { r0 with thrown := e :: r0.thrown }
        | some rep =>
          match evaluateMatchReport rep with
          | .none => { r0 with none := pad rep :: r0.none }
          | .inapplicable => { r0 with inapplicable := pad rep :: r0.inapplicable }
          | .full => { r0 with full := pad rep :: r0.full } := by
  simp only [Mimic.scan, bind, Except.bind, lift_deref] at h
  cases hd : w.deref e with
  | error s => simp [hd, Except.map] at h
  | ok x =>
    simp only [hd, Except.map, lift_matchReport] at h
    have hw : (liftWorld w).seqs = w.seqs := rfl
    rw [hw] at h
    cases hm : x.matchReport e w.seqs a with
    | error s => simp [hm] at h
    | ok rep =>
      simp only [hm] at h
      cases hs : Mimic.scan (liftWorld w) (a, f) rest with
      | error s => simp [hs] at h
      | ok r0 =>
        simp only [hs, pure, Except.pure] at h
        refine ⟨x, rep, r0, rfl, hm, rfl, ?_⟩
        by_cases hf : f e = true
        · simp only [hf, if_true, Except.ok.injEq] at h ⊢
          exact h.symm
        · rw [if_neg hf] at h ⊢
          cases rep with
          | none => simp only [Option.map_none, Except.ok.injEq] at h; exact h.symm
          | some rep =>
            simp only [Option.map_some, evaluate_pad] at h
            show r = match evaluateMatchReport rep with
              | .none => { r0 with none := pad rep :: r0.none }
              | .inapplicable => { r0 with inapplicable := pad rep :: r0.inapplicable }
              | .full => { r0 with full := pad rep :: r0.full }
            revert h
            generalize evaluateMatchReport rep = res
            intro h
            cases res <;>
              · simp only [Except.ok.injEq] at h
                exact h.symm

/-- Whatever memory does, the loop ends in one of three ways. -/
theorem scan_progress (w : World α) (a : α) (p : CallPoints) (es : List Nat) {r : Scan}
    (h : Mimic.scan (liftWorld w) (a, p.asking) es = .ok r) :
    (∃ r', scan w a p es = .ok (.all r') ∧ r = padScan r' ∧ ∀ e ∈ r.thrown, p.telling e = false) ∨
    (∃ t, scan w a p es = .ok (.exhausted t) ∧ t.Sublist r.thrown ∧ ∃ e ∈ es, p.keeping e = true) ∨
    (∃ why, scan w a p es = .error (.terminate why)) ∧ ∃ e ∈ r.thrown, p.telling e = true := by
  induction es generalizing r with
  | nil =>
    simp only [Mimic.scan, Except.ok.injEq] at h
    subst h
    exact Or.inl ⟨_, rfl, rfl, by simp⟩
  | cons e rest ih =>
    obtain ⟨x, rep, r0, hd, hm, hs, hr⟩ := lift_scan_cons w a p.asking e rest h
    have hsc : scan w a p (e :: rest) =
        match if p.asking e then Option.none else rep with
        | Option.none =>
          if p.telling e then .error (.terminate "make_match_report is noexcept")
          else (scan w a p rest).bind fun
            | .exhausted t => .ok (.exhausted (e :: t))
            | .all r => .ok (.all { r with thrown := e :: r.thrown })
        | some rep =>
          if p.keeping e then .ok (.exhausted [])
          else (scan w a p rest).bind fun
            | .exhausted t => .ok (.exhausted t)
            | .all r =>
              match evaluateMatchReport rep with
              | .none => .ok (.all { r with none := rep :: r.none })
              | .inapplicable => .ok (.all { r with inapplicable := rep :: r.inapplicable })
              | .full => .ok (.all { r with full := rep :: r.full }) := by
      simp only [scan, hd, hm, bind, Except.bind, pure, Except.pure]
      cases (if p.asking e = true then (none : Option MatchReport) else rep) <;> rfl
    rw [hsc]
    revert hr
    generalize (if p.asking e = true then (none : Option MatchReport) else rep) = c
    intro hr
    cases c with
    | none =>
      simp only at hr ⊢
      by_cases ht : p.telling e = true
      · rw [if_pos ht]
        exact Or.inr (Or.inr ⟨⟨_, rfl⟩, e, by simp [hr], ht⟩)
      · rw [if_neg ht]
        rcases ih hs with ⟨r', h1, h2, h4⟩ | ⟨t, h1, h2, e', he', hk⟩ | ⟨⟨why, h1⟩, e', he', ht'⟩
        · left
          refine ⟨_, by rw [h1]; rfl, by rw [hr, h2]; rfl, ?_⟩
          rw [hr]
          intro e' he'
          rcases List.mem_cons.mp he' with rfl | he'
          · simpa using ht
          · exact h4 e' he'
        · right; left
          exact ⟨_, by rw [h1]; rfl, by rw [hr]; exact h2.cons_cons e, e', List.mem_cons_of_mem e he', hk⟩
        · right; right
          exact ⟨⟨why, by rw [h1]; rfl⟩, e', by rw [hr]; exact List.mem_cons_of_mem e he', ht'⟩
    | some rep =>
      simp only at hr ⊢
      have hth : r.thrown = r0.thrown := by
        rw [hr]; cases evaluateMatchReport rep <;> rfl
      by_cases hk : p.keeping e = true
      · rw [if_pos hk]
        exact Or.inr (Or.inl ⟨_, rfl, List.nil_sublist _, e, List.mem_cons_self, hk⟩)
      · rw [if_neg hk]
        rcases ih hs with ⟨r', h1, h2, h4⟩ | ⟨t, h1, h2, e', he', hk⟩ | ⟨⟨why, h1⟩, e', he', ht'⟩
        · left
          have h4' : ∀ e' ∈ r.thrown, p.telling e' = false := by rw [hth]; exact h4
          revert h4'
          rw [h1, hr, h2]
          cases evaluateMatchReport rep <;> exact fun h4' => ⟨_, rfl, rfl, h4'⟩
        · right; left
          exact ⟨_, by rw [h1]; rfl, by rw [hth]; exact h2, e', List.mem_cons_of_mem e he', hk⟩
        · right; right
          exact ⟨⟨why, by rw [h1]; rfl⟩, e', by rw [hth]; exact he', ht'⟩

theorem ratings_pad (r : MatchReport) : (pad r).ratings = r.ratings := rfl

theorem pickLoop_pad (l : List MatchReport) : ∀ r, pickLoop (pad r) (l.map pad) = (pickLoop r l).map pad := by
  induction l with
  | nil => intro r; rfl
  | cons x l ih =>
    intro r
    simp only [List.map_cons, pickLoop, ratings_pad, bind, Except.bind]
    cases r.ratings with
    | error e => rfl
    | ok rr =>
      cases x.ratings with
      | error e => rfl
      | ok rx =>
        simp only
        split
        · exact ih r
        · exact ih x

theorem pick_pad (l : List MatchReport) : pickBestMatch (l.map pad) = (pickBestMatch l).map pad := by
  cases l with
  | nil => rfl
  | cons r l => exact pickLoop_pad l r

theorem mapIdx_set (l : List (Exp α)) (e : Nat) (y : Exp α) :
    (l.set e y).mapIdx liftExp = (l.mapIdx liftExp).set e (liftExp e y) := by
  apply List.ext_getElem?
  intro i
  simp only [List.getElem?_mapIdx, List.getElem?_set, List.length_mapIdx]
  by_cases h : e = i
  · subst h
    simp only [if_true]
    split <;> simp
  · simp [h]

theorem lift_consume (w : World α) (e : Nat) : (liftWorld w).consume e = (w.consume e).map liftWorld := by
  unfold World.consume
  simp only [lift_deref, bind, Except.bind]
  cases w.deref e with
  | error s => rfl
  | ok x =>
    simp only [Except.map]
    have h1 : (liftExp e x).control = x.control := rfl
    have h2 : (liftWorld w).seqs = w.seqs := rfl
    rw [h1, h2]
    cases x.control.consume w.seqs with
    | error s => rfl
    | ok r =>
      simp only [pure, Except.pure, Except.ok.injEq]
      simp only [liftWorld, mapIdx_set]
      rfl

/-- A call, whatever memory does, in terms of the same call in the world without memory. -/
theorem call_cases (w : World α) (m : Nat) (a : α) (p : CallPoints) {W : World (Starved α)} {ev : List Event}
    {o : Option Nat} (h : (liftWorld w).handleCall m (a, p.asking) = .ok (W, ev, o)) :
    (∃ w', step w (.call m a p) = .ok (w', .done ev) ∧ W = liftWorld w' ∧
      (∀ e, Event.unhandled e ∈ ev → p.telling e = false) ∧ (o ≠ none → p.reporter = false)) ∨
    (∃ t : List Nat, step w (.call m a p) = .ok (w, .threw (t.map Event.unhandled)) ∧ (∀ e ∈ t, Event.unhandled e ∈ ev) ∧
      (p.report = true ∨ (p.reporter = true ∧ o = none) ∨ ∃ es, w.colls[m]? = some es ∧ ∃ e ∈ es, p.keeping e = true) ∧
      ((∃ e, p.keeping e = true) ∨
        (∀ e, Event.unhandled e ∈ ev → p.telling e = false) ∧ (p.report = true ∨ o = none))) ∨
    (∃ why, step w (.call m a p) = .error (.terminate why)) ∧
      ((∃ e, Event.unhandled e ∈ ev ∧ p.telling e = true) ∨
        (p.report = false ∧ p.reporter = true ∧ o ≠ none)) := by
  unfold World.handleCall at h
  have hc : (liftWorld w).colls = w.colls := rfl
  rw [hc] at h
  simp only [step, handleCall]
  cases hes : w.colls[m]? with
  | none => simp [hes] at h
  | some es =>
    simp only [hes, bind, Except.bind] at h ⊢
    cases hs : Mimic.scan (liftWorld w) (a, p.asking) es.reverse with
    | error s => simp [hs] at h
    | ok r =>
      simp only [hs] at h
      have hth : ∀ e ∈ r.thrown, Event.unhandled e ∈ ev := by
        intro e he
        have hm : Event.unhandled e ∈ r.thrown.map Event.unhandled := List.mem_map.mpr ⟨e, he, rfl⟩
        split at h
        · cases hp : pickBestMatch r.full with
          | error s => simp [hp] at h
          | ok b =>
            simp only [hp] at h
            cases hcn : (liftWorld w).consume b.exp with
            | error s => simp [hcn] at h
            | ok W' =>
              simp only [hcn, pure, Except.pure, Except.ok.injEq, Prod.mk.injEq] at h
              rw [← h.2.1]; exact List.mem_append_left _ hm
        · split at h <;>
          · simp only [pure, Except.pure, Except.ok.injEq, Prod.mk.injEq] at h
            rw [← h.2.1]; exact List.mem_append_left _ hm
      have htr : ∀ e, Event.unhandled e ∈ ev → e ∈ r.thrown := by
        intro e he
        have hex : ∃ last, (∀ e, last ≠ Event.unhandled e) ∧ ev = r.thrown.map Event.unhandled ++ [last] := by
          split at h
          · cases hp : pickBestMatch r.full with
            | error s => simp [hp] at h
            | ok b =>
              simp only [hp] at h
              cases hcn : (liftWorld w).consume b.exp with
              | error s => simp [hcn] at h
              | ok W' =>
                simp only [hcn, pure, Except.pure, Except.ok.injEq, Prod.mk.injEq] at h
                exact ⟨_, by simp, h.2.1.symm⟩
          · split at h <;>
            · simp only [pure, Except.pure, Except.ok.injEq, Prod.mk.injEq] at h
              exact ⟨_, by simp, h.2.1.symm⟩
        obtain ⟨last, hl, rfl⟩ := hex
        simp only [List.mem_append, List.mem_map, Event.unhandled.injEq, exists_eq_right, List.mem_singleton] at he
        exact he.resolve_right (fun h => hl e h.symm)
      rcases scan_progress w a p es.reverse hs with ⟨r', h1, rfl, hnt⟩ | ⟨t, h1, h2, e, he, hk⟩ | ⟨⟨why, h1⟩, e, he, ht⟩
      · simp only [h1]
        have hne : (padScan r').full.isEmpty = r'.full.isEmpty := by simp [padScan]
        have hni : (padScan r').inapplicable.isEmpty = r'.inapplicable.isEmpty := by simp [padScan]
        have hf : (padScan r').full = r'.full.map pad := rfl
        have hexp : ∀ l : List MatchReport, (l.map pad).map (·.exp) = l.map (·.exp) := by
          intro l; simp [pad, Function.comp_def]
        have hi' : (padScan r').inapplicable = r'.inapplicable.map pad := rfl
        have hn' : (padScan r').none = r'.none.map pad := rfl
        have ht' : (padScan r').thrown = r'.thrown := rfl
        rw [hne, hni, hf, pick_pad, hi', hn', hexp, hexp, ht'] at h
        rw [ht'] at hth htr hnt
        have hnt' : ∀ e, Event.unhandled e ∈ ev → p.telling e = false := fun e he => hnt e (htr e he)
        by_cases hfull : (!r'.full.isEmpty) = true
        · simp only [hfull, if_true] at h ⊢
          cases hp : pickBestMatch r'.full with
          | error s => simp [hp, Except.map] at h
          | ok b =>
            have hb : (pad b).exp = b.exp := rfl
            simp only [hp, Except.map, hb, lift_consume] at h ⊢
            cases hcn : w.consume b.exp with
            | error s => simp [hcn, Except.map] at h
            | ok w' =>
              simp only [hcn, Except.map, pure, Except.pure, Except.ok.injEq, Prod.mk.injEq] at h
              obtain ⟨rfl, rfl, rfl⟩ := h
              by_cases h1 : p.report = true
              · rw [if_pos h1]
                exact Or.inr (Or.inl ⟨_, rfl, hth, Or.inl h1, Or.inr ⟨hnt', Or.inl h1⟩⟩)
              · rw [if_neg h1]
                by_cases h2 : p.reporter = true
                · rw [if_pos h2]
                  exact Or.inr (Or.inr ⟨⟨_, rfl⟩, Or.inr ⟨by simpa using h1, h2, by simp⟩⟩)
                · rw [if_neg h2]
                  exact Or.inl ⟨w', rfl, rfl, hnt', fun _ => by simpa using h2⟩
        · rw [if_neg hfull] at h ⊢
          have ho : o = none := by
            by_cases hin : (!r'.inapplicable.isEmpty) = true
            · rw [if_pos hin] at h
              simp only [pure, Except.pure, Except.ok.injEq, Prod.mk.injEq] at h
              exact h.2.2.symm
            · rw [if_neg hin] at h
              simp only [pure, Except.pure, Except.ok.injEq, Prod.mk.injEq] at h
              exact h.2.2.symm
          by_cases hp : (p.report || p.reporter) = true
          · rw [if_pos hp]
            right; left
            refine ⟨_, rfl, hth, ?_, Or.inr ⟨hnt', Or.inr ho⟩⟩
            simp only [Bool.or_eq_true] at hp
            exact hp.imp id (fun h3 => Or.inl ⟨h3, ho⟩)
          · rw [if_neg hp]
            left
            by_cases hin : (!r'.inapplicable.isEmpty) = true
            · rw [if_pos hin] at h ⊢
              simp only [pure, Except.pure, Except.ok.injEq, Prod.mk.injEq] at h
              exact ⟨w, by rw [← h.2.1]; rfl, h.1.symm, hnt', fun h => absurd ho h⟩
            · rw [if_neg hin] at h ⊢
              simp only [pure, Except.pure, Except.ok.injEq, Prod.mk.injEq] at h
              exact ⟨w, by rw [← h.2.1]; rfl, h.1.symm, hnt', fun h => absurd ho h⟩
      · simp only [h1]
        exact Or.inr (Or.inl ⟨t, rfl, fun e he => hth e (h2.subset he), Or.inr (Or.inr ⟨es, rfl, e, by simpa using he, hk⟩), Or.inl ⟨e, hk⟩⟩)
      · simp only [h1]
        exact Or.inr (Or.inr ⟨⟨why, rfl⟩, Or.inl ⟨e, hth e he, ht⟩⟩)

/-! ### The other operations -/

theorem any_mapIdx (l : List (Exp α)) (s : Nat) :
    (l.mapIdx liftExp).any (fun x => x.alive && x.holds s) = l.any (fun x => x.alive && x.holds s) := by
  rw [Bool.eq_iff_iff]
  simp only [List.any_eq_true, List.mem_mapIdx]
  constructor
  · rintro ⟨x, ⟨i, hi, rfl⟩, h⟩
    exact ⟨l[i], List.getElem_mem hi, h⟩
  · rintro ⟨x, hx, h⟩
    obtain ⟨i, hi, rfl⟩ := List.getElem_of_mem hx
    exact ⟨_, ⟨i, hi, rfl⟩, h⟩

theorem lift_owned (w : World α) (s : Nat) : (liftWorld w).owned s = w.owned s := by
  unfold World.owned
  congr 1
  exact any_mapIdx w.exps s

/-- A result in the world without memory. -/
def liftResult (r : World α × List Event) : World (Starved α) × List Event := (liftWorld r.1, r.2)

theorem lift_release (w : World α) (s : Nat) : (liftWorld w).release s = (w.release s).map liftResult := by
  unfold World.release
  rw [lift_owned]
  split
  · rfl
  · have hs : (liftWorld w).seqs = w.seqs := rfl
    rw [hs]
    simp only [bind, Except.bind]
    cases w.seqs.deref s with
    | error e => rfl
    | ok q =>
      simp only
      cases q.destruct with
      | error e => rfl
      | ok err => cases err <;> rfl

theorem lift_releaseAll (ss : List Nat) : ∀ w : World α,
    (liftWorld w).releaseAll ss = (w.releaseAll ss).map liftResult := by
  induction ss with
  | nil => intro w; rfl
  | cons s ss ih =>
    intro w
    simp only [World.releaseAll, lift_release, bind, Except.bind]
    cases w.release s with
    | error e => rfl
    | ok r =>
      obtain ⟨w1, ev⟩ := r
      simp only [Except.map, liftResult, ih]
      cases w1.releaseAll ss with
      | error e => rfl
      | ok r => rfl

theorem lift_satisfied (e : Nat) (x : Exp α) : (liftExp e x).isSatisfied = x.isSatisfied := by
  simp [Exp.isSatisfied, liftExp, guard, lift, Function.comp_def]

theorem lift_destroyExp (w : World α) (e : Nat) : (liftWorld w).destroyExp e = (w.destroyExp e).map liftResult := by
  unfold World.destroyExp
  have he : (liftWorld w).exps[e]? = w.exps[e]?.map (liftExp e) := by simp [liftWorld]
  have hc : (liftWorld w).colls = w.colls := rfl
  rw [he]
  cases hx : w.exps[e]? with
  | none => rfl
  | some x =>
    simp only [Option.map_some]
    have h1 : (liftExp e x).alive = x.alive := rfl
    have h2 : (liftExp e x).coll = x.coll := rfl
    have h3 : (liftExp e x).control = x.control := rfl
    rw [h1, h2, h3, hc, lift_satisfied]
    split
    · rfl
    · cases w.colls[x.coll]? with
      | none => rfl
      | some es =>
        simp only [check, bind, Except.bind]
        split
        · rename_i h; split at h <;> simp_all [Except.map]
        · have : (liftWorld { w with colls := w.colls.set x.coll (es.erase e), exps := w.exps.set e { x with alive := false } }) =
              ⟨(liftWorld w).seqs, (liftWorld w).exps.set e ⟨x.coll, x.control, (liftExp e x).policies, false⟩,
                w.colls.set x.coll (es.erase e)⟩ := by
            simp only [liftWorld, mapIdx_set]
            rfl
          rw [← this, lift_releaseAll]
          cases World.releaseAll { w with colls := w.colls.set x.coll (es.erase e), exps := w.exps.set e { x with alive := false } }
              (x.control.entries.map (·.1)) with
          | error e => rfl
          | ok r => rfl

theorem lift_push (w : World α) (h : Seqs) (x : Exp α) (cs : List (List Nat)) :
    liftWorld { seqs := h, exps := w.exps ++ [x], colls := cs } =
      { seqs := h, exps := (liftWorld w).exps ++ [liftExp w.exps.length x], colls := cs } := by
  simp [liftWorld, List.mapIdx_append]

theorem lift_expect (w : World α) (coll : Nat) (min max : Int) (tags : List Nat) (ps : List (Policy α)) :
    (liftWorld w).expect coll min max tags (guard w.exps.length :: ps.map lift) =
      (w.expect coll min max tags ps).map liftResult := by
  unfold World.expect
  have hc : (liftWorld w).colls = w.colls := rfl
  have hh : (liftWorld w).hasHandle = w.hasHandle := rfl
  have hq : (liftWorld w).seqs = w.seqs := rfl
  have hl : (liftWorld w).exps.length = w.exps.length := by simp [liftWorld]
  rw [hc, hh, hq, hl]
  cases w.colls[coll]? with
  | none => rfl
  | some es =>
    simp only
    split
    · cases TimesConfig.make min max with
      | none => rfl
      | some t =>
        cases seqConfig tags with
        | none => rfl
        | some tags =>
          simp only [bind, Except.bind]
          cases Control.make t tags w.seqs with
          | error e => rfl
          | ok r =>
            obtain ⟨h, c⟩ := r
            simp only [check]
            split
            · rename_i h; split at h <;> simp_all [Except.map]
            · simp only [pure, Except.pure, Except.map, liftResult, lift_push]
              rfl
    · rfl

theorem lift_finalizeThrows (w : World α) (coll : Nat) (t : TimesConfig) (tags : List Nat) (ps : List (Policy α))
    {w' : World α} {o : Fragile.Out} (h : Fragile.finalizeThrows w coll t tags ps = .ok (w', o)) :
    Fragile.finalizeThrows (liftWorld w) coll t tags (guard w.exps.length :: ps.map lift) = .ok (liftWorld w', o) := by
  unfold Fragile.finalizeThrows at h ⊢
  have hq : (liftWorld w).seqs = w.seqs := rfl
  have hl : (liftWorld w).exps.length = w.exps.length := by simp [liftWorld]
  rw [hq, hl]
  cases hm : Control.make t tags w.seqs with
  | error e => simp [hm, bind, Except.bind] at h
  | ok r =>
    obtain ⟨q, c⟩ := r
    simp only [hm, bind, Except.bind, pure, Except.pure, Except.ok.injEq, Prod.mk.injEq] at h ⊢
    obtain ⟨rfl, rfl⟩ := h
    refine ⟨?_, rfl⟩
    rw [lift_push]
    rfl

/-- What the creation of an expectation does, by how it ends. -/
theorem expect_cases {tr : Trace (Starved α)} {w w' : World α} (hr : Reach tr (liftWorld w)) {coll : Nat} {min max : Int}
    {tags : List Nat} {ps : List (Policy α)} {p : CreatePoints} {out : End}
    (h : expect w coll min max tags ps p = .ok (w', out)) :
    (out = .done [.rejected] ∧ w' = w ∧ w.expect coll min max tags ps = .ok (w, [.rejected])) ∨
    (out = .done [.created w.exps.length] ∧ w.expect coll min max tags ps = .ok (w', [.created w.exps.length]) ∧
      p.object = false ∧ p.handle = false ∧ (p.attaching = false ∨ tags = [])) ∨
    (out = .failed w.exps.length ∧ p.object = true ∧ ∃ w1,
      (liftWorld w).step (.expect coll min max tags (guard w.exps.length :: ps.map lift)) =
        .ok (w1, [.created w.exps.length]) ∧
      w1.step (.destroy w.exps.length) = .ok (liftWorld w', .destroyed w.exps.length ::
        if min ≤ 0 ∧ ps.all (·.isSatisfied) then [] else [.unfulfilled w.exps.length])) := by
  unfold expect at h
  cases hc : w.colls[coll]? with
  | none => simp [hc] at h
  | some es =>
    simp only [hc] at h
    by_cases hall : (tags.all w.hasHandle && isInt min && isInt max) = true
    · rw [if_pos hall] at h
      cases ht : TimesConfig.make min max with
      | none =>
        simp only [ht, pure, Except.pure, Except.ok.injEq, Prod.mk.injEq] at h
        obtain ⟨rfl, rfl⟩ := h
        refine Or.inl ⟨rfl, rfl, ?_⟩
        simp only [World.expect, hc, hall, if_true, ht]; rfl
      | some t =>
        cases hs : seqConfig tags with
        | none =>
          simp only [ht, hs, pure, Except.pure, Except.ok.injEq, Prod.mk.injEq] at h
          obtain ⟨rfl, rfl⟩ := h
          refine Or.inl ⟨rfl, rfl, ?_⟩
          simp only [World.expect, hc, hall, if_true, ht, hs]; rfl
        | some tags' =>
          have hnd : tags.Nodup ∧ tags' = tags := by
            rw [seqConfig_eq] at hs
            split at hs
            · rename_i h; simp only [Option.some.injEq] at hs; exact ⟨h, hs.symm⟩
            · simp at hs
          obtain ⟨hnd, rfl⟩ := hnd
          have htm : t.min = min ∧ t.max = max ∧ 0 ≤ min ∧ min ≤ max := by
            unfold TimesConfig.make at ht
            split at ht
            · simp at ht
            · rename_i h; simp only [Option.some.injEq] at ht; subst ht
              exact ⟨rfl, rfl, by omega, by omega⟩
          simp only [ht, hs] at h
          by_cases h1 : (p.attaching && !tags'.isEmpty) = true
          · rw [if_pos h1] at h; simp at h
          · rw [if_neg h1] at h
            by_cases h2 : p.object = true
            · rw [if_pos h2] at h
              right; right
              cases hf : Fragile.finalizeThrows w coll t tags' ps with
              | error e => simp [hf, bind, Except.bind] at h
              | ok r =>
                obtain ⟨w2, o⟩ := r
                simp only [hf, bind, Except.bind, pure, Except.pure, Except.ok.injEq, Prod.mk.injEq] at h
                obtain ⟨rfl, rfl⟩ := h
                have hl : (liftWorld w).exps.length = w.exps.length := by simp [liftWorld]
                simp only [Bool.and_eq_true, List.all_eq_true] at hall
                have hcl : coll < (liftWorld w).colls.length := (List.getElem?_eq_some_iff.mp hc).1
                obtain ⟨_, w1, h3, h4⟩ := Fragile.fail_sim hr hcl hall.1.1 ⟨by rw [htm.1]; exact hall.1.2, by rw [htm.2.1]; exact hall.2⟩
                  (by rw [htm.1, htm.2.1]; exact htm.2.2) hnd (lift_finalizeThrows w coll t tags' ps hf)
                rw [hl, htm.1] at h4
                rw [hl, htm.1, htm.2.1] at h3
                refine ⟨rfl, h2, w1, h3, ?_⟩
                rw [h4]
                simp [guard, lift, Function.comp_def]
            · rw [if_neg h2] at h
              by_cases h3 : p.handle = true
              · rw [if_pos h3] at h; simp at h
              · rw [if_neg h3] at h
                right; left
                cases he : w.expect coll min max tags' ps with
                | error e => simp [he, bind, Except.bind] at h
                | ok r =>
                  obtain ⟨w2, ev⟩ := r
                  simp only [he, bind, Except.bind, pure, Except.pure, Except.ok.injEq, Prod.mk.injEq] at h
                  obtain ⟨rfl, rfl⟩ := h
                  have hev : ev = [.created w.exps.length] := by
                    unfold World.expect at he
                    simp only [hc, hall, if_true, ht, hs, bind, Except.bind] at he
                    cases hm : Control.make t tags' w.seqs with
                    | error e => simp [hm] at he
                    | ok r =>
                      simp only [hm, check] at he
                      split at he
                      · simp at he
                      · simp only [pure, Except.pure, Except.ok.injEq, Prod.mk.injEq] at he
                        exact he.2.symm
                  subst hev
                  refine ⟨rfl, rfl, by simpa using h2, by simpa using h3, ?_⟩
                  simp only [Bool.and_eq_true, not_and, Bool.not_eq_true', Bool.not_eq_false, List.isEmpty_iff] at h1
                  cases ha : p.attaching with
                  | false => exact Or.inl rfl
                  | true => exact Or.inr (h1 ha)
    · rw [if_neg hall] at h; simp at h

theorem ends_ok {p : EndPoints} {r v : World α × List Event} (h : ends p r = .ok v) :
    v = r ∧ (p.ending = true → r.2.any isSequenceError = false) := by
  unfold ends at h
  by_cases hc : (p.ending && r.2.any isSequenceError) = true
  · rw [if_pos hc] at h; simp at h
  · rw [if_neg hc] at h
    simp only [Except.ok.injEq] at h
    refine ⟨h.symm, fun hp => ?_⟩
    simpa [hp] using hc

/-- The end of an expectation, by how it ends. -/
theorem destroy_cases {w w' : World α} {e : Nat} {p : EndPoints} {out : End} (h : destroy w e p = .ok (w', out)) :
    ∃ (b : Bool) (rest : List Event), w.step (.destroy e) =
        .ok (w', .destroyed e :: ((if b then [.unfulfilled e] else []) ++ rest)) ∧ (∀ x ∈ rest, seqEvent x) ∧
      (p.ending = true → rest.any isSequenceError = false) ∧
      ((¬ (p.telling = true ∧ b = true) ∧ out = .done (.destroyed e :: ((if b then [.unfulfilled e] else []) ++ rest))) ∨
       (p.telling = true ∧ b = true ∧ out = .threw (.destroyed e :: rest))) := by
  unfold destroy at h
  cases hd : w.destroyExp e with
  | error s => simp [hd, bind, Except.bind] at h
  | ok r =>
    obtain ⟨w2, ev⟩ := r
    obtain ⟨b, rest, rfl, hrest⟩ := destroy_events (w := w) (e := e) hd
    have hnu : Event.unfulfilled e ∉ rest := by
      intro hm; have := hrest _ hm; simp [seqEvent] at this
    have hfil : rest.filter (· ≠ .unfulfilled e) = rest := by
      rw [List.filter_eq_self]
      intro x hx
      simp only [decide_eq_true_eq]
      rintro rfl
      exact hnu hx
    simp only [hd, bind, Except.bind] at h
    cases hv : ends p (w2, Event.destroyed e :: ((if b = true then [Event.unfulfilled e] else []) ++ rest)) with
    | error s => simp [hv] at h
    | ok v =>
      · obtain ⟨hve, hend⟩ := ends_ok hv
        subst hve
        simp only [hv] at h
        have hend' : p.ending = true → rest.any isSequenceError = false := by
          intro hp
          have := hend hp
          cases b <;> simpa [isSequenceError] using this
        have hc : (Event.destroyed e :: ((if b = true then [Event.unfulfilled e] else []) ++ rest)).contains
            (Event.unfulfilled e) = b := by cases b <;> simp [hnu]
        by_cases ht : (p.telling && (Event.destroyed e :: ((if b = true then [Event.unfulfilled e] else []) ++ rest)).contains
            (Event.unfulfilled e)) = true
        · rw [if_pos ht] at h
          rw [hc, Bool.and_eq_true] at ht
          simp only [pure, Except.pure, Except.ok.injEq, Prod.mk.injEq] at h
          obtain ⟨rfl, rfl⟩ := h
          refine ⟨b, rest, hd, hrest, hend', Or.inr ⟨ht.1, ht.2, ?_⟩⟩
          rw [ht.2]
          simp only [if_true, List.cons_append, List.nil_append]
          rw [List.filter_cons_of_pos (by simp), List.filter_cons_of_neg (by simp), hfil]
        · rw [if_neg ht] at h
          rw [hc, Bool.and_eq_true] at ht
          simp only [pure, Except.pure, Except.ok.injEq, Prod.mk.injEq] at h
          obtain ⟨rfl, rfl⟩ := h
          exact ⟨b, rest, hd, hrest, hend', Or.inl ⟨ht, rfl⟩⟩

/-- A rejected expectation is rejected whatever its policies are. -/
theorem rejected_any {β : Type} {w : World β} {coll : Nat} {min max : Int} {tags : List Nat} {ps qs : List (Policy β)}
    (h : w.expect coll min max tags ps = .ok (w, [.rejected])) : w.expect coll min max tags qs = .ok (w, [.rejected]) := by
  unfold World.expect at h ⊢
  cases hc : w.colls[coll]? with
  | none => simp [hc] at h
  | some es =>
    simp only [hc] at h ⊢
    split at h
    · rename_i hall
      rw [if_pos hall]
      revert h
      cases TimesConfig.make min max with
      | none => exact fun h => h
      | some t =>
        cases seqConfig tags with
        | none => exact fun h => h
        | some tags =>
          simp only [bind, Except.bind]
          cases Control.make t tags w.seqs with
          | error e => simp
          | ok r =>
            simp only [check]
            split
            · simp
            · simp [pure, Except.pure]
    · simp at h

/-- A call in the world without memory is possible if the mock exists. -/
theorem lift_call {tr : Trace (Starved α)} {w : World α} (hr : Reach tr (liftWorld w)) (m : Nat) (a : α) (f : Nat → Bool)
    (hm : m < w.colls.length) : ∃ W ev o, (liftWorld w).handleCall m (a, f) = .ok (W, ev, o) ∧
      (liftWorld w).step (.call m (a, f)) = .ok (W, ev) := by
  have hv : tr.valid (.call m (a, f)) := (hr.view.2.mocks m).mpr hm
  obtain ⟨W, ev, h⟩ := (C17_progress hr (.call m (a, f))).1 hv (by simp [Trace.overflows])
  cases hh : (liftWorld w).handleCall m (a, f) with
  | error e => simp [World.step, hh, bind, Except.bind] at h
  | ok r =>
    obtain ⟨W', ev', o⟩ := r
    have h' := h
    simp only [World.step, hh, bind, Except.bind, pure, Except.pure, Except.ok.injEq, Prod.mk.injEq] at h'
    obtain ⟨rfl, rfl⟩ := h'
    exact ⟨_, _, o, rfl, h⟩

theorem asIf_snoc (tr : MTrace α) (x : MOp α × End) : asIf (tr ++ [x]) = asIf tr ++ asIfStep x := by
  simp [asIf]

/-- A history in which memory ran out is, as far as the state is concerned, one without memory. -/
theorem MReach.sim {tr : MTrace α} {w : World α} (h : MReach tr w) : Reach (asIf tr) (liftWorld w) := by
  induction h with
  | init => exact .init
  | @step tr w w' op out hr hs ih =>
    rw [asIf_snoc]
    cases op with
    | newSequence st fails =>
      simp only [Memory.step] at hs
      split at hs
      · simp only [Except.ok.injEq, Prod.mk.injEq] at hs
        obtain ⟨rfl, rfl⟩ := hs
        simpa [asIfStep] using ih
      · simp only [World.step, bind, Except.bind, pure, Except.pure, Except.ok.injEq, Prod.mk.injEq] at hs
        obtain ⟨rfl, rfl⟩ := hs
        exact ih.step rfl
    | newMock fails =>
      simp only [Memory.step] at hs
      split at hs
      · simp only [Except.ok.injEq, Prod.mk.injEq] at hs
        obtain ⟨rfl, rfl⟩ := hs
        simpa [asIfStep] using ih
      · simp only [World.step, bind, Except.bind, pure, Except.pure, Except.ok.injEq, Prod.mk.injEq] at hs
        obtain ⟨rfl, rfl⟩ := hs
        exact ih.step rfl
    | dropSequence s p =>
      simp only [Memory.step, bind, Except.bind] at hs
      cases hd : w.step (.dropSequence s) with
      | error e => simp [hd] at hs
      | ok r =>
        simp only [hd] at hs
        cases hv : ends p r with
        | error s => simp [hv] at hs
        | ok v =>
          · obtain ⟨rfl, _⟩ := ends_ok hv
            simp only [hv, pure, Except.pure, Except.ok.injEq, Prod.mk.injEq] at hs
            obtain ⟨rfl, rfl⟩ := hs
            refine ih.step ?_
            simp only [World.step] at hd ⊢
            have hh : (liftWorld w).hasHandle = w.hasHandle := rfl
            rw [hh]
            split at hd
            · rename_i h1
              rw [if_pos h1]
              have := lift_release { w with seqs := w.seqs.modify s (fun c => { c with handle := false }) } s
              rw [hd] at this
              exact this
            · simp at hd
    | expect coll min max tags ps p =>
      rcases expect_cases ih hs with ⟨rfl, rfl, h1⟩ | ⟨rfl, h1, _⟩ | ⟨rfl, _, w1, h1, h2⟩
      · refine ih.step ?_
        have := lift_expect w' coll min max tags ps
        rw [h1] at this
        exact rejected_any this
      · refine ih.step ?_
        have := lift_expect w coll min max tags ps
        rw [h1] at this
        exact this
      · have := (ih.step h1).step h2
        simpa [asIfStep] using this
    | call m a p =>
      have hm : m < w.colls.length := by
        cases hc : w.colls[m]? with
        | none => simp [Memory.step, handleCall, hc] at hs
        | some es => exact (List.getElem?_eq_some_iff.mp hc).1
      obtain ⟨W, ev, o, h1, h2⟩ := lift_call ih m a p.asking hm
      rcases call_cases w m a p h1 with ⟨w2, h3, rfl, _⟩ | ⟨t, h3, _⟩ | ⟨⟨why, h3⟩, _⟩
      · rw [hs] at h3
        simp only [Except.ok.injEq, Prod.mk.injEq] at h3
        obtain ⟨rfl, rfl⟩ := h3
        exact ih.step h2
      · rw [hs] at h3
        simp only [Except.ok.injEq, Prod.mk.injEq] at h3
        obtain ⟨rfl, rfl⟩ := h3
        simpa [asIfStep] using ih
      · rw [hs] at h3; simp at h3
    | destroy e p =>
      obtain ⟨b, rest, h1, _, _, h2⟩ := destroy_cases (show destroy w e p = .ok (w', out) from hs)
      have h3 : (liftWorld w).step (.destroy e) =
          .ok (liftWorld w', .destroyed e :: ((if b then [.unfulfilled e] else []) ++ rest)) := by
        have h4 : w.destroyExp e = _ := h1
        have := lift_destroyExp w e
        rw [h4] at this
        exact this
      rcases h2 with ⟨_, rfl⟩ | ⟨_, rfl, rfl⟩
      · exact ih.step h3
      · exact ih.step h3

/-! ### What the history says and what the history without memory says -/

/-- What an expectation was created with, in the history without memory. -/
def liftDecl (e : Nat) (d : Decl α) : Decl (Starved α) :=
  { mock := d.mock, min := d.min, max := d.max, seqs := d.seqs, policies := guard e :: d.policies.map lift }

/-- What one step declares. -/
def declStepM (e : Nat) : MOp α × End → Option (Decl α)
  | (.expect mock min max seqs policies _, .done ev) =>
    if Event.created e ∈ ev then some { mock, min, max, seqs, policies } else none
  | _ => none

/-- What one step fails to declare. -/
def failStepM (e : Nat) : MOp α × End → Option (Decl α)
  | (.expect mock min max seqs policies _, .failed e') =>
    if e' = e then some { mock, min, max, seqs, policies } else none
  | _ => none

theorem declOf_snoc (tr : MTrace α) (x : MOp α × End) (e : Nat) :
    declOf (tr ++ [x]) e = (declOf tr e).or (declStepM e x) := by
  unfold declOf
  rw [Fragile.findSome_snoc]
  rfl

theorem failedOf_snoc (tr : MTrace α) (x : MOp α × End) (e : Nat) :
    failedOf (tr ++ [x]) e = (failedOf tr e).or (failStepM e x) := by
  unfold failedOf
  rw [Fragile.findSome_snoc]
  rfl

theorem mevents_snoc (tr : MTrace α) (x : MOp α × End) : events (tr ++ [x]) = events tr ++ x.2.observed := by
  simp [events]

/-- The correspondence of a history with the history without memory. -/
structure Corr (tr : MTrace α) : Prop where
  decl : ∀ e, Trace.decl (asIf tr) e = ((declOf tr e).or (failedOf tr e)).map (liftDecl e)
  excl : ∀ e, declOf tr e ≠ none → failedOf tr e = none
  matched : ∀ e, (asIf tr).matched e = Memory.matched tr e
  destroyed : ∀ e, Event.destroyed e ∈ (asIf tr).events ↔ Event.destroyed e ∈ events tr ∨ failedOf tr e ≠ none
  dead : ∀ e, failedOf tr e ≠ none → Memory.matched tr e = 0
  mocks : ∀ m, Event.mockCreated m ∈ (asIf tr).events ↔ Event.mockCreated m ∈ events tr

/-- A step that adds nothing. -/
theorem Corr.skip {tr : MTrace α} (h : Corr tr) (x : MOp α × End) (h0 : asIfStep x = []) (h1 : ∀ e, declStepM e x = none)
    (h2 : ∀ e, failStepM e x = none) (h3 : ∀ e, Event.fullMatch e ∉ x.2.observed ∧ Event.destroyed e ∉ x.2.observed ∧
      Event.mockCreated e ∉ x.2.observed) :
    Corr (tr ++ [x]) := by
  have hm : ∀ e, Memory.matched (tr ++ [x]) e = Memory.matched tr e := by
    intro e
    simp only [Memory.matched, mevents_snoc, List.count_append, List.count_eq_zero_of_not_mem (h3 e).1, Nat.add_zero]
  constructor
  · intro e; rw [asIf_snoc, declOf_snoc, failedOf_snoc, h0, h1, h2]; simpa using h.decl e
  · intro e; rw [declOf_snoc, failedOf_snoc, h1, h2]; simpa using h.excl e
  · intro e; rw [asIf_snoc, h0, hm, List.append_nil]; exact h.matched e
  · intro e; rw [asIf_snoc, h0, failedOf_snoc, h2, mevents_snoc, List.append_nil, h.destroyed e]
    simp [(h3 e).2.1]
  · intro e; rw [failedOf_snoc, h2, hm]; simpa using h.dead e
  · intro m; rw [asIf_snoc, h0, mevents_snoc, List.append_nil, h.mocks m]
    simp [(h3 m).2.2]

/-- A step that is a step of the history without memory and declares nothing. -/
theorem Corr.one {tr : MTrace α} {w w' : World (Starved α)} (h : Corr tr) (hr : Reach (asIf tr) w) (x : MOp α × End)
    {o : Op (Starved α)} {ev : List Event}
    (h0 : asIfStep x = [(o, ev)]) (hs : w.step o = .ok (w', ev)) (h1 : ∀ e, declStepM e x = none)
    (h2 : ∀ e, failStepM e x = none) (hd : ∀ e, declStep e o ev = none)
    (h3 : ∀ e, x.2.observed.count (Event.fullMatch e) = ev.count (.fullMatch e) ∧
      (Event.destroyed e ∈ x.2.observed ↔ Event.destroyed e ∈ ev) ∧
      (Event.mockCreated e ∈ x.2.observed ↔ Event.mockCreated e ∈ ev)) : Corr (tr ++ [x]) := by
  constructor
  · intro e; rw [asIf_snoc, declOf_snoc, failedOf_snoc, h0, h1, h2, decl_snoc, hd]; simpa using h.decl e
  · intro e; rw [declOf_snoc, failedOf_snoc, h1, h2]; simpa using h.excl e
  · intro e
    rw [asIf_snoc, h0, matched_snoc, h.matched e]
    simp only [Memory.matched, mevents_snoc, List.count_append, (h3 e).1]
  · intro e
    rw [asIf_snoc, h0, failedOf_snoc, h2, mevents_snoc, events_snoc, List.mem_append, List.mem_append, h.destroyed e,
      (h3 e).2.1]
    grind
  · intro e
    rw [failedOf_snoc, h2]
    intro hne
    simp only [Option.or_none] at hne
    have hm := h.dead e hne
    have hnf : Event.fullMatch e ∉ ev := by
      intro hfm
      obtain ⟨m, a, _, hc⟩ := fullMatch_source hr hs hfm
      exact hc.1.1.2 ((h.destroyed e).mpr (Or.inr hne))
    simp only [Memory.matched, mevents_snoc, List.count_append, (h3 e).1, List.count_eq_zero_of_not_mem hnf, Nat.add_zero]
    exact hm
  · intro m
    rw [asIf_snoc, h0, mevents_snoc, events_snoc, List.mem_append, List.mem_append, h.mocks m, (h3 m).2.2]

theorem MReach.corr {tr : MTrace α} {w : World α} (h : MReach tr w) : Corr tr := by
  induction h with
  | init => constructor <;> simp [asIf, declOf, failedOf, Trace.decl, Trace.matched, Trace.events, Memory.matched, events]
  | @step tr w w' op out hr hs ih =>
    have hrr := hr.sim
    have hnew := (hr.step hs).sim
    rw [asIf_snoc] at hnew
    cases op with
    | newSequence st fails =>
      simp only [Memory.step] at hs
      split at hs
      · simp only [Except.ok.injEq, Prod.mk.injEq] at hs
        obtain ⟨rfl, rfl⟩ := hs
        exact ih.skip _ rfl (fun _ => rfl) (fun _ => rfl) (by simp [End.observed])
      · simp only [World.step, bind, Except.bind, pure, Except.pure, Except.ok.injEq, Prod.mk.injEq] at hs
        obtain ⟨rfl, rfl⟩ := hs
        obtain ⟨W, hW, hst⟩ := hnew.snoc_inv
        exact ih.one hW _ rfl hst (fun _ => rfl) (fun _ => rfl) (fun _ => rfl) (fun _ => ⟨rfl, Iff.rfl, Iff.rfl⟩)
    | newMock fails =>
      simp only [Memory.step] at hs
      split at hs
      · simp only [Except.ok.injEq, Prod.mk.injEq] at hs
        obtain ⟨rfl, rfl⟩ := hs
        exact ih.skip _ rfl (fun _ => rfl) (fun _ => rfl) (by simp [End.observed])
      · simp only [World.step, bind, Except.bind, pure, Except.pure, Except.ok.injEq, Prod.mk.injEq] at hs
        obtain ⟨rfl, rfl⟩ := hs
        obtain ⟨W, hW, hst⟩ := hnew.snoc_inv
        exact ih.one hW _ rfl hst (fun _ => rfl) (fun _ => rfl) (fun _ => rfl) (fun _ => ⟨rfl, Iff.rfl, Iff.rfl⟩)
    | dropSequence s p =>
      obtain ⟨ev, rfl⟩ : ∃ ev, out = .done ev := by
        simp only [Memory.step, bind, Except.bind] at hs
        cases hd : w.step (.dropSequence s) with
        | error e => simp [hd] at hs
        | ok r =>
          simp only [hd] at hs
          cases hv : ends p r with
          | error s => simp [hv] at hs
          | ok v =>
            simp only [hv, pure, Except.pure, Except.ok.injEq, Prod.mk.injEq] at hs
            exact ⟨_, hs.2.symm⟩
      obtain ⟨W, hW, hst⟩ := hnew.snoc_inv
      exact ih.one hW _ rfl hst (fun _ => rfl) (fun _ => rfl) (fun _ => rfl) (fun _ => ⟨rfl, Iff.rfl, Iff.rfl⟩)
    | call m a p =>
      cases out with
      | done ev =>
        obtain ⟨W, hW, hst⟩ := hnew.snoc_inv
        exact ih.one hW _ rfl hst (fun _ => rfl) (fun _ => rfl) (fun _ => rfl) (fun _ => ⟨rfl, Iff.rfl, Iff.rfl⟩)
      | threw ev =>
        refine ih.skip _ rfl (fun _ => rfl) (fun _ => rfl) ?_
        have hm : m < w.colls.length := by
          cases hc : w.colls[m]? with
          | none => simp [Memory.step, handleCall, hc] at hs
          | some es => exact (List.getElem?_eq_some_iff.mp hc).1
        obtain ⟨W, ev', o, h1, h2⟩ := lift_call hrr m a p.asking hm
        rcases call_cases w m a p h1 with ⟨w2, h3, rfl, _⟩ | ⟨t, h3, _⟩ | ⟨⟨why, h3⟩, _⟩
        · rw [hs] at h3; simp at h3
        · rw [hs] at h3
          simp only [Except.ok.injEq, Prod.mk.injEq, End.threw.injEq] at h3
          rw [h3.2]
          simp [End.observed]
        · rw [hs] at h3; simp at h3
      | failed e =>
        exact ih.skip _ rfl (fun _ => rfl) (fun _ => rfl) (by simp [End.observed])
    | destroy e p =>
      obtain ⟨b, rest, h1, h0, _, h2⟩ := destroy_cases (show destroy w e p = .ok (w', out) from hs)
      rcases h2 with ⟨_, rfl⟩ | ⟨_, rfl, rfl⟩
      · obtain ⟨W, hW, hst⟩ := hnew.snoc_inv
        exact ih.one hW _ rfl hst (fun _ => rfl) (fun _ => rfl) (fun _ => rfl) (fun _ => ⟨rfl, Iff.rfl, Iff.rfl⟩)
      · obtain ⟨W, hW, hst⟩ := hnew.snoc_inv
        refine ih.one hW _ rfl hst (fun _ => rfl) (fun _ => rfl) (fun _ => rfl) (fun e' => ?_)
        simp [End.observed, List.count_cons]
    | expect coll min max tags ps p =>
      have hfresh := hrr.view.2.fresh w.exps.length (by simp [abs_exps_length, liftWorld])
      have hnd : Trace.decl (asIf tr) w.exps.length = none := by
        cases hd : Trace.decl (asIf tr) w.exps.length with
        | none => rfl
        | some d =>
          have := hrr.view.2.decl_lt.mp ⟨d, hd⟩
          simp [abs_exps_length, liftWorld] at this
      have hno : declOf tr w.exps.length = none ∧ failedOf tr w.exps.length = none := by
        have := ih.decl w.exps.length
        rw [hnd] at this
        simpa using this.symm
      have hnm : Memory.matched tr w.exps.length = 0 := by
        rw [← ih.matched]
        exact List.count_eq_zero.mpr hfresh.2.1
      rcases expect_cases hrr hs with ⟨rfl, rfl, h1⟩ | ⟨rfl, h1, _⟩ | ⟨rfl, _, w1, h1, h2⟩
      · obtain ⟨W, hW, hst⟩ := hnew.snoc_inv
        exact ih.one hW _ rfl hst (fun _ => by simp [declStepM]) (fun _ => rfl) (fun _ => by simp [declStep]) (fun _ => ⟨rfl, Iff.rfl, Iff.rfl⟩)
      · have hf : ∀ e, failStepM e (MOp.expect coll min max tags ps p, End.done [.created w.exps.length]) = none :=
          fun _ => rfl
        constructor
        · intro e
          rw [asIf_snoc, declOf_snoc, failedOf_snoc, hf]
          simp only [asIfStep, declStepM, number]
          rw [decl_snoc, ih.decl e]
          simp only [declStep, List.mem_singleton, Event.created.injEq]
          by_cases he : e = w.exps.length
          · subst he
            simp [hno.1, hno.2, liftDecl]
          · simp [he]
        · intro e
          rw [declOf_snoc, failedOf_snoc, hf]
          simp only [declStepM, List.mem_singleton, Event.created.injEq, Option.or_none]
          intro hne
          by_cases he : e = w.exps.length
          · rw [he]; exact hno.2
          · simp only [he, if_false, Option.or_none] at hne
            exact ih.excl e hne
        · intro e
          rw [asIf_snoc]
          simp only [asIfStep]
          rw [matched_snoc, ih.matched e]
          simp [Memory.matched, mevents_snoc, End.observed]
        · intro e
          rw [asIf_snoc, failedOf_snoc, hf]
          simp only [asIfStep]
          rw [Mimic.events_snoc, mevents_snoc, List.mem_append, List.mem_append, ih.destroyed e]
          simp [End.observed]
        · intro e
          rw [failedOf_snoc, hf]
          intro hne
          have hm := ih.dead e (by simpa using hne)
          simpa [Memory.matched, mevents_snoc, End.observed] using hm
        · intro m
          rw [asIf_snoc]
          simp only [asIfStep]
          rw [Mimic.events_snoc, mevents_snoc, List.mem_append, List.mem_append, ih.mocks m]
          simp [End.observed]
      · have hf : ∀ e, failedOf (tr ++ [(MOp.expect coll min max tags ps p, End.failed w.exps.length)]) e =
            (failedOf tr e).or (if w.exps.length = e then some ⟨coll, min, max, tags, ps⟩ else none) := by
          intro e; rw [failedOf_snoc]; simp [failStepM]
        have hasif : asIf (tr ++ [(MOp.expect coll min max tags ps p, End.failed w.exps.length)]) =
            (asIf tr ++ [(.expect coll min max tags (guard w.exps.length :: ps.map lift), [.created w.exps.length])]) ++
            [(.destroy w.exps.length, .destroyed w.exps.length ::
              if min ≤ 0 ∧ ps.all (·.isSatisfied) then [] else [.unfulfilled w.exps.length])] := by
          rw [asIf_snoc]; simp [asIfStep]
        have hun : ∀ x, (∀ e, x ≠ Event.unfulfilled e) →
            x ∉ (if min ≤ 0 ∧ ps.all (·.isSatisfied) then [] else [Event.unfulfilled w.exps.length]) := by
          intro x hx
          split
          · simp
          · simp [hx]
        constructor
        · intro e
          rw [hasif, declOf_snoc, hf]
          rw [decl_snoc, decl_snoc, ih.decl e]
          simp only [declStep, List.mem_singleton, Event.created.injEq, Option.or_none, declStepM]
          by_cases he : e = w.exps.length
          · subst he
            simp [hno.1, hno.2, liftDecl]
          · simp [he, Ne.symm he]
        · intro e
          rw [declOf_snoc, hf]
          simp only [declStepM, Option.or_none]
          intro hne
          have : w.exps.length ≠ e := by
            intro he; rw [← he] at hne; exact hne hno.1
          simp [this, ih.excl e hne]
        · intro e
          rw [hasif, matched_snoc, matched_snoc, ih.matched e]
          have := hun (.fullMatch e) (by simp)
          have h0 : List.count (Event.fullMatch e) (Event.destroyed w.exps.length ::
              if min ≤ 0 ∧ ps.all (·.isSatisfied) then [] else [.unfulfilled w.exps.length]) = 0 := by
            apply List.count_eq_zero_of_not_mem
            simp only [List.mem_cons, reduceCtorEq, false_or]
            exact this
          rw [h0]
          simp [Memory.matched, mevents_snoc, End.observed]
        · intro e
          rw [hasif, Mimic.events_snoc, Mimic.events_snoc, mevents_snoc, hf]
          simp only [List.mem_append, ih.destroyed e, List.mem_cons, List.not_mem_nil, or_false, reduceCtorEq,
            Event.destroyed.injEq, End.observed]
          have := hun (.destroyed e) (by simp)
          simp only [this, or_false]
          by_cases he : e = w.exps.length
          · simp [he]
          · simp [he, Ne.symm he]
        · intro e
          rw [hf]
          intro hne
          have : Memory.matched (tr ++ [(MOp.expect coll min max tags ps p, End.failed w.exps.length)]) e =
              Memory.matched tr e := by
            simp [Memory.matched, mevents_snoc, End.observed]
          rw [this]
          by_cases he : w.exps.length = e
          · rw [← he]; exact hnm
          · simp only [he, if_false, Option.or_none] at hne
            exact ih.dead e hne
        · intro m
          rw [hasif, Mimic.events_snoc, Mimic.events_snoc, mevents_snoc]
          simp only [List.mem_append, ih.mocks m, List.mem_cons, List.not_mem_nil, or_false, reduceCtorEq, false_or,
            End.observed]
          have := hun (.mockCreated m) (by simp)
          simp only [this, or_false]

section
variable {tr : MTrace α}

theorem Corr.decl_of (h : Corr tr) {e : Nat} {d : Decl α} (hd : declOf tr e = some d) :
    (asIf tr).decl e = some (liftDecl e d) := by
  rw [h.decl e, hd]; rfl

theorem Corr.live_iff (h : Corr tr) (e : Nat) : (asIf tr).live e ↔ Memory.live tr e := by
  unfold Trace.live Memory.live
  rw [h.destroyed e, h.decl e]
  have := h.excl e
  cases h1 : declOf tr e with
  | some d => simp [this (by simp [h1])]
  | none => cases h2 : failedOf tr e <;> simp

theorem Corr.live_decl (h : Corr tr) {e : Nat} (hl : (asIf tr).live e) {D : Decl (Starved α)}
    (hD : (asIf tr).decl e = some D) : ∃ d, declOf tr e = some d ∧ D = liftDecl e d := by
  obtain ⟨⟨d, hd⟩, _⟩ := (h.live_iff e).mp hl
  rw [h.decl_of hd, Option.some.injEq] at hD
  exact ⟨d, hd, hD.symm⟩

theorem Corr.accepts_iff (h : Corr tr) (m : Nat) (a : α) (f : Nat → Bool) (e : Nat) :
    (asIf tr).accepts m (a, f) e ↔ Memory.accepts tr m a e ∧ f e = false := by
  unfold Trace.accepts Memory.accepts
  constructor
  · rintro ⟨hl, D, hD, hm, hp⟩
    obtain ⟨d, hd, rfl⟩ := h.live_decl hl hD
    refine ⟨⟨(h.live_iff e).mp hl, d, hd, hm, fun p hp' => ?_⟩, ?_⟩
    · exact hp (lift p) (List.mem_cons_of_mem _ (List.mem_map.mpr ⟨p, hp', rfl⟩))
    · have := hp (guard e) List.mem_cons_self
      cases hf : f e <;> simp [guard, hf] at this ⊢
  · rintro ⟨⟨hl, d, hd, hm, hp⟩, hf⟩
    refine ⟨(h.live_iff e).mpr hl, _, h.decl_of hd, hm, fun q hq => ?_⟩
    rcases List.mem_cons.mp hq with rfl | hq
    · simp [guard, hf]
    · obtain ⟨p, hp', rfl⟩ := List.mem_map.mp hq
      exact hp p hp'

theorem Corr.throws_iff (h : Corr tr) (m : Nat) (a : α) (f : Nat → Bool) (e : Nat) :
    (asIf tr).throws m (a, f) e ↔
      Memory.throws tr m a e ∨ (Memory.live tr e ∧ (∃ d, declOf tr e = some d ∧ d.mock = m) ∧ f e = true) := by
  unfold Trace.throws Memory.throws
  constructor
  · rintro ⟨hl, D, hD, hm, q, hq, hn⟩
    obtain ⟨d, hd, rfl⟩ := h.live_decl hl hD
    rcases List.mem_cons.mp hq with rfl | hq
    · right
      refine ⟨(h.live_iff e).mp hl, ⟨d, hd, hm⟩, ?_⟩
      cases hf : f e <;> simp [guard, hf] at hn ⊢
    · left
      obtain ⟨p, hp', rfl⟩ := List.mem_map.mp hq
      exact ⟨(h.live_iff e).mp hl, d, hd, hm, p, hp', hn⟩
  · rintro (⟨hl, d, hd, hm, p, hp, hn⟩ | ⟨hl, ⟨d, hd, hm⟩, hf⟩)
    · exact ⟨(h.live_iff e).mpr hl, _, h.decl_of hd, hm, lift p, List.mem_cons_of_mem _ (List.mem_map.mpr ⟨p, hp, rfl⟩), hn⟩
    · exact ⟨(h.live_iff e).mpr hl, _, h.decl_of hd, hm, guard e, List.mem_cons_self, by simp [guard, hf]⟩

end

end Mimic.Memory
