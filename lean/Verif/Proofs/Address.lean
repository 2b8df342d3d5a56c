import Verif.Spec.Address
import Verif.Proofs.Bridge
import Verif.Props.SequenceEnd

/-!
# Lemmas about addresses
-/

set_option autoImplicit false

namespace Mimic.Address

variable {α : Type}

/-- The state of a control policy with other tags. -/
def retag (f : Nat → Nat) (r : Rating) : Rating := { r with tag := f r.tag }

def retagState (f : Nat → Nat) : ControlState → ControlState
  | .inapplicable min max count rs ss => .inapplicable min max count (rs.map (retag f)) (ss.map f)
  | .applicable min max count rs => .applicable min max count (rs.map (retag f))
  | .saturated min max count ss => .saturated min max count (ss.map f)

def retagReport (f : Nat → Nat) (r : MatchReport) : MatchReport := { r with control := retagState f r.control }

def retagScan (f : Nat → Nat) (r : Scan) : Scan :=
  { full := r.full.map (retagReport f), inapplicable := r.inapplicable.map (retagReport f), none := r.none.map (retagReport f), thrown := r.thrown }

/-- The cell is alive. -/
def Alive (h : Seqs) (s : Nat) : Prop := ∃ c, h[s]? = some c ∧ c.alive = true

theorem deref_alive {h : Seqs} {s : Nat} {q : Sequence} (hd : h.deref s = .ok q) : Alive h s := by
  unfold Seqs.deref at hd
  cases hc : h[s]? with
  | none => simp [hc] at hd
  | some c =>
    simp only [hc] at hd
    split at hd
    · exact ⟨c, hc, by assumption⟩
    · cases hd

theorem collectRatings_eq (pl : Place) (h : Seqs) (es : List (Nat × Int)) :
    collectRatings pl h es = (Mimic.collectRatings h es).map (fun r => (r.1.map (retag pl.seq), r.2.map pl.seq)) := by
  induction es with
  | nil => rfl
  | cons en rest ih =>
    obtain ⟨s, id⟩ := en
    simp only [collectRatings, Mimic.collectRatings, ih]
    cases h.deref s with
    | error e => rfl
    | ok q =>
      show (q.priorityOf id >>= _) = _
      simp only [bind, Except.bind]
      cases q.priorityOf id with
      | error e => rfl
      | ok p =>
        cases p <;> cases Mimic.collectRatings h rest <;> rfl

theorem collectRatings_alive {h : Seqs} {es : List (Nat × Int)} {rs : List Rating} {is : List Nat}
    (hc : Mimic.collectRatings h es = .ok (rs, is)) : ∀ r ∈ rs, Alive h r.tag := by
  induction es generalizing rs is with
  | nil => simp only [Mimic.collectRatings, Except.ok.injEq, Prod.mk.injEq] at hc; obtain ⟨rfl, rfl⟩ := hc; simp
  | cons en rest ih =>
    obtain ⟨s, id⟩ := en
    simp only [Mimic.collectRatings, bind, Except.bind] at hc
    cases hd : h.deref s with
    | error e => simp [hd] at hc
    | ok q =>
      simp only [hd] at hc
      cases hp : q.priorityOf id with
      | error e => simp [hp] at hc
      | ok p =>
        simp only [hp] at hc
        cases hr : Mimic.collectRatings h rest with
        | error e => cases p <;> simp [hr] at hc
        | ok v =>
          obtain ⟨rs', is'⟩ := v
          have := ih hr
          cases p with
          | none =>
            simp only [hr, pure, Except.pure, Except.ok.injEq, Prod.mk.injEq] at hc
            obtain ⟨rfl, rfl⟩ := hc
            exact this
          | some p =>
            simp only [hr, pure, Except.pure, Except.ok.injEq, Prod.mk.injEq] at hc
            obtain ⟨rfl, rfl⟩ := hc
            intro r hm
            rcases List.mem_cons.mp hm with rfl | hm
            · exact deref_alive hd
            · exact this r hm

theorem derefTags_eq (pl : Place) (h : Seqs) (es : List (Nat × Int)) :
    derefTags pl h es = (Mimic.derefTags h es).map (List.map pl.seq) := by
  induction es with
  | nil => rfl
  | cons en rest ih =>
    obtain ⟨s, id⟩ := en
    simp only [derefTags, Mimic.derefTags, ih]
    cases h.deref s with
    | error e => rfl
    | ok q => cases Mimic.derefTags h rest <;> rfl

theorem controlState_eq (pl : Place) (c : Control) (h : Seqs) : controlState pl c h = (c.state h).map (retagState pl.seq) := by
  unfold controlState Control.state
  rw [derefTags_eq, collectRatings_eq]
  split
  · cases Mimic.derefTags h c.entries <;> rfl
  · cases Mimic.collectRatings h c.entries with
    | error e => rfl
    | ok r =>
      obtain ⟨rs, is⟩ := r
      cases is <;> rfl

/-- The ratings a control policy reports are those of sequences that exist. -/
theorem state_alive {c : Control} {h : Seqs} {st : ControlState} (hs : c.state h = .ok st) :
    ∀ min max count rs, st = .applicable min max count rs → ∀ r ∈ rs, Alive h r.tag := by
  rintro min max count rs rfl
  unfold Control.state at hs
  split at hs
  · cases hd : Mimic.derefTags h c.entries <;> simp [hd, bind, Except.bind, pure, Except.pure] at hs
  · cases hd : Mimic.collectRatings h c.entries with
    | error e => simp [hd, bind, Except.bind] at hs
    | ok r =>
      obtain ⟨rs', is⟩ := r
      simp only [hd, bind, Except.bind, pure, Except.pure] at hs
      split at hs
      · simp only [Except.ok.injEq, ControlState.applicable.injEq] at hs
        obtain ⟨-, -, -, rfl⟩ := hs
        exact collectRatings_alive hd
      · cases hs

theorem matchReport_eq (pl : Place) (e : Nat) (x : Exp α) (h : Seqs) (a : α) :
    matchReport pl e x h a = (x.matchReport e h a).map (Option.map (retagReport pl.seq)) := by
  unfold matchReport Exp.matchReport
  rw [controlState_eq]
  cases x.control.state h with
  | error e => rfl
  | ok st => cases hp : evalPolicies a x.policies <;> simp [Except.map, bind, Except.bind, pure, Except.pure, retagReport]

theorem evaluate_retag (f : Nat → Nat) (r : MatchReport) : evaluateMatchReport (retagReport f r) = evaluateMatchReport r := by
  unfold evaluateMatchReport
  have : (retagReport f r).control.isApplicable = r.control.isApplicable := by
    unfold retagReport
    cases r.control <;> rfl
  rw [this]
  rfl

theorem scan_eq (pl : Place) (w : World α) (a : α) (es : List Nat) : scan pl w a es = (Mimic.scan w a es).map (retagScan pl.seq) := by
  induction es with
  | nil => rfl
  | cons e rest ih =>
    simp only [scan, Mimic.scan, ih, bind, Except.bind]
    cases w.deref e with
    | error e => rfl
    | ok x =>
      simp only [matchReport_eq]
      cases x.matchReport e w.seqs a with
      | error e => rfl
      | ok rep =>
        cases Mimic.scan w a rest with
        | error e => cases rep <;> rfl
        | ok r =>
          cases rep with
          | none => rfl
          | some rep =>
            simp only [Except.map, Option.map_some, evaluate_retag]
            cases evaluateMatchReport rep <;> rfl

/-- The reports of candidates have ratings of existing sequences. -/
def Good (h : Seqs) (r : MatchReport) : Prop := ∀ rs, r.ratings = .ok rs → ∀ x ∈ rs, Alive h x.tag

theorem scan_good {w : World α} {a : α} {es : List Nat} {r : Scan} (hs : Mimic.scan w a es = .ok r) : ∀ x ∈ r.full, Good w.seqs x := by
  induction es generalizing r with
  | nil => simp only [Mimic.scan, Except.ok.injEq] at hs; subst hs; simp
  | cons e rest ih =>
    simp only [Mimic.scan, bind, Except.bind] at hs
    cases hd : w.deref e with
    | error e => simp [hd] at hs
    | ok x =>
      simp only [hd] at hs
      cases hm : x.matchReport e w.seqs a with
      | error e => simp [hm] at hs
      | ok rep =>
        simp only [hm] at hs
        cases hr : Mimic.scan w a rest with
        | error e => simp [hr] at hs
        | ok r' =>
          simp only [hr] at hs
          have ih := ih hr
          cases rep with
          | none =>
            simp only [pure, Except.pure, Except.ok.injEq] at hs
            subst hs
            exact ih
          | some rep =>
            have hg : Good w.seqs rep := by
              unfold Exp.matchReport at hm
              simp only [bind, Except.bind] at hm
              cases hst : x.control.state w.seqs with
              | error e => simp [hst] at hm
              | ok st =>
                simp only [hst] at hm
                cases hp : evalPolicies a x.policies with
                | none => simp [hp, pure, Except.pure] at hm
                | some res =>
                  simp only [hp, pure, Except.pure, Except.ok.injEq, Option.some.injEq] at hm
                  subst hm
                  intro rs hrs
                  unfold MatchReport.ratings at hrs
                  split at hrs
                  · rename_i h1
                    simp only [Except.ok.injEq] at hrs
                    subst hrs
                    exact state_alive hst _ _ _ _ h1
                  · cases hrs
            simp only [pure, Except.pure] at hs
            split at hs <;> simp only [Except.ok.injEq] at hs <;> subst hs
            · exact ih
            · exact ih
            · intro y hy
              rcases List.mem_cons.mp hy with rfl | hy
              · exact hg
              · exact ih y hy

variable {pl : Place} {h : Seqs}

theorem find_retag (hi : ∀ s t, Alive h s → Alive h t → pl.seq s = pl.seq t → s = t) {rs : List Rating} (hr : ∀ r ∈ rs, Alive h r.tag) {t : Nat}
    (ht : Alive h t) : (rs.map (retag pl.seq)).find? (fun r => r.tag == pl.seq t) = (rs.find? (fun r => r.tag == t)).map (retag pl.seq) := by
  rw [List.find?_map]
  congr 1
  induction rs with
  | nil => rfl
  | cons r rs ih =>
    have h1 : ((fun r => r.tag == pl.seq t) ∘ retag pl.seq) r = (r.tag == t) := by
      simp only [Function.comp, retag]
      rw [Bool.eq_iff_iff]
      simp only [beq_iff_eq]
      exact ⟨hi _ _ (hr r (by simp)) ht, fun h => by rw [h]⟩
    rw [List.find?_cons, List.find?_cons, h1, ih (fun x hx => hr x (by simp [hx]))]

theorem better_retag (hi : ∀ s t, Alive h s → Alive h t → pl.seq s = pl.seq t → s = t) {rs : List Rating} (hr : ∀ r ∈ rs, Alive h r.tag)
    {ls : List Rating} (hl : ∀ r ∈ ls, Alive h r.tag) (n : Int) :
    hasBetterRatingLoop (rs.map (retag pl.seq)) (ls.map (retag pl.seq)) n = hasBetterRatingLoop rs ls n := by
  induction ls generalizing n with
  | nil => rfl
  | cons l ls ih =>
    simp only [List.map_cons, hasBetterRatingLoop]
    have := find_retag hi hr (hl l (by simp))
    simp only [retag] at this ⊢
    rw [this]
    cases rs.find? (fun r => r.tag == l.tag) with
    | none => rfl
    | some r => exact ih (fun x hx => hl x (by simp [hx])) _

theorem ratings_retag (f : Nat → Nat) (r : MatchReport) : (retagReport f r).ratings = r.ratings.map (List.map (retag f)) := by
  unfold MatchReport.ratings retagReport
  cases r.control <;> rfl

theorem pickLoop_retag (hi : ∀ s t, Alive h s → Alive h t → pl.seq s = pl.seq t → s = t) {rs : List MatchReport} (hr : ∀ r ∈ rs, Good h r)
    {b : MatchReport} (hb : Good h b) : pickLoop (retagReport pl.seq b) (rs.map (retagReport pl.seq)) = (pickLoop b rs).map (retagReport pl.seq) := by
  induction rs generalizing b with
  | nil => rfl
  | cons r rs ih =>
    simp only [List.map_cons, pickLoop, ratings_retag, bind, Except.bind]
    cases h1 : b.ratings with
    | error e => rfl
    | ok l1 =>
      cases h2 : r.ratings with
      | error e => rfl
      | ok l2 =>
        simp only [Except.map]
        have : hasBetterRating (l1.map (retag pl.seq)) (l2.map (retag pl.seq)) = hasBetterRating l1 l2 :=
          better_retag hi (hr r (by simp) l2 h2) (hb l1 h1) 0
        rw [this]
        have hr' : ∀ x ∈ rs, Good h x := fun x hx => hr x (by simp [hx])
        split
        · exact ih hr' hb
        · exact ih hr' (hr r (by simp))

theorem pickBest_retag (hi : ∀ s t, Alive h s → Alive h t → pl.seq s = pl.seq t → s = t) {rs : List MatchReport} (hr : ∀ r ∈ rs, Good h r) :
    pickBestMatch (rs.map (retagReport pl.seq)) = (pickBestMatch rs).map (retagReport pl.seq) := by
  cases rs with
  | nil => rfl
  | cons r rs => exact pickLoop_retag hi (fun x hx => hr x (by simp [hx])) (hr r (by simp))

theorem handleCall_eq {w : World α} (hi : ∀ s t, Alive w.seqs s → Alive w.seqs t → pl.seq s = pl.seq t → s = t) (m : Nat) (a : α) :
    handleCall pl w m a = w.handleCall m a := by
  unfold handleCall World.handleCall
  cases w.colls[m]? with
  | none => rfl
  | some es =>
    simp only [scan_eq, bind, Except.bind]
    cases hs : Mimic.scan w a es.reverse with
    | error e => rfl
    | ok r =>
      have hg := scan_good hs
      simp only [Except.map, retagScan]
      have hm : ∀ l : List MatchReport, (l.map (retagReport pl.seq)).map (·.exp) = l.map (·.exp) := by
        intro l; rw [List.map_map]; rfl
      have he : ∀ l : List MatchReport, (l.map (retagReport pl.seq)).isEmpty = l.isEmpty := by intro l; cases l <;> rfl
      rw [hm, hm, he, he, pickBest_retag hi hg]
      cases pickBestMatch r.full with
      | error e => rfl
      | ok b => rfl

/-- The expectation exists. -/
def AliveExp (w : World α) (e : Nat) : Prop := ∃ x, w.exps[e]? = some x ∧ x.alive = true

theorem coll_alive {w : World α} (hw : Inv w) {c : Nat} {es : List Nat} (hc : w.colls[c]? = some es) : ∀ e ∈ es, AliveExp w e := by
  intro e he
  rw [hw.colls c es hc] at he
  simp only [List.mem_map, List.mem_filter, Bool.and_eq_true, beq_iff_eq] at he
  obtain ⟨y, ⟨hy, ha, -⟩, rfl⟩ := he
  obtain ⟨x, hx, hyx⟩ := (abs_mem_iff w y).mp hy
  refine ⟨x, hx, ?_⟩
  rw [hyx] at ha
  exact ha

theorem seqConfig_eq {w : World α} (hw : Inv w) (hi : ∀ s t, Alive w.seqs s → Alive w.seqs t → pl.seq s = pl.seq t → s = t)
    {ss : List Nat} (hs : ss.all w.hasHandle = true) : seqConfig pl ss = Mimic.seqConfig ss := by
  have hal : ∀ s ∈ ss, Alive w.seqs s := by
    intro s hm
    have := hw.handle_alive (List.all_eq_true.mp hs s hm)
    grind [Alive]
  have hn : (ss.map pl.seq).Nodup ↔ ss.Nodup := by
    clear hs
    induction ss with
    | nil => simp
    | cons s ss ih =>
      rw [List.map_cons, List.nodup_cons, List.nodup_cons, ih (fun x hx => hal x (by simp [hx]))]
      have : pl.seq s ∈ ss.map pl.seq ↔ s ∈ ss := by
        rw [List.mem_map]
        constructor
        · rintro ⟨t, ht, he⟩
          rw [← hi t s (hal t (by simp [ht])) (hal s (by simp)) he]
          exact ht
        · exact fun h => ⟨s, h, rfl⟩
      rw [this]
  have key : hasAdjacentDup (sortTags (ss.map pl.seq)) = hasAdjacentDup (sortTags ss) := by
    have h1 := hasAdjacentDup_iff _ (sortTags_sorted (ss.map pl.seq))
    have h2 := hasAdjacentDup_iff _ (sortTags_sorted ss)
    rw [(sortTags_perm _).nodup_iff] at h1 h2
    rw [Bool.eq_iff_iff, h1, h2, hn]
  unfold seqConfig Mimic.seqConfig
  rw [key]

theorem expect_eq {w : World α} (hw : Inv w) (hi : ∀ s t, Alive w.seqs s → Alive w.seqs t → pl.seq s = pl.seq t → s = t)
    {m : Nat} {lo hi' : Int} {ss : List Nat} {ps : List (Policy α)}
    (hn : ∀ w' ev, w.expect m lo hi' ss ps = .ok (w', ev) → ∀ e f, AliveExp w' e → AliveExp w' f → pl.exp e = pl.exp f → e = f) :
    expect pl w m lo hi' ss ps = w.expect m lo hi' ss ps := by
  unfold expect
  unfold World.expect at hn ⊢
  cases hc : w.colls[m]? with
  | none => rfl
  | some es =>
    have hal := coll_alive hw hc
    simp only [hc] at hn ⊢
    split
    · rename_i hcond
      simp only [Bool.and_eq_true] at hcond
      rw [seqConfig_eq hw hi hcond.1.1]
      rw [if_pos (by simp [hcond])] at hn
      cases ht : TimesConfig.make lo hi' with
      | none => rfl
      | some t =>
        cases hs : Mimic.seqConfig ss with
        | none => rfl
        | some ss' =>
          simp only [ht, hs] at hn ⊢
          simp only [bind, Except.bind] at hn ⊢
          cases hm : Control.make t ss' w.seqs with
          | error e => rfl
          | ok r =>
            obtain ⟨h, c⟩ := r
            simp only [hm] at hn ⊢
            have hlt : ∀ e ∈ es, e < w.exps.length := by
              intro e he
              obtain ⟨x, hx, -⟩ := hal e he
              exact getElem?_lt hx
            have hnot : es.contains w.exps.length = false := by
              cases hb : es.contains w.exps.length with
              | false => rfl
              | true =>
                have := hlt _ (by simpa using hb)
                omega
            simp only [hnot] at hn ⊢
            have hnew := hn _ _ rfl
            have : (es.map pl.exp).contains (pl.exp w.exps.length) = false := by
              cases hb : (es.map pl.exp).contains (pl.exp w.exps.length) with
              | false => rfl
              | true =>
                simp only [List.contains_eq_mem, List.mem_map, decide_eq_true_eq] at hb
                obtain ⟨k, hk, he⟩ := hb
                obtain ⟨x, hx, hxa⟩ := hal k hk
                have hkl := hlt k hk
                have := hnew k w.exps.length ⟨x, by rw [List.getElem?_append_left hkl]; exact hx, hxa⟩ ⟨_, by simp; rfl, rfl⟩ he
                omega
            rw [this]
    · rfl

theorem destroy_eq {w : World α} (hw : Inv w) (hi : ∀ e f, AliveExp w e → AliveExp w f → pl.exp e = pl.exp f → e = f) (e : Nat) :
    destroyExp pl w e = w.destroyExp e := by
  unfold destroyExp World.destroyExp
  cases hx : w.exps[e]? with
  | none => rfl
  | some x =>
    cases ha : x.alive with
    | false => simp [ha]
    | true =>
      simp only [Bool.not_true, Bool.false_eq_true, ↓reduceIte, ha]
      cases hc : w.colls[x.coll]? with
      | none => rfl
      | some es =>
        have hal := coll_alive hw hc
        have hp : ∀ k ∈ es, (pl.exp k == pl.exp e) = (k == e) := by
          intro k hk
          rw [Bool.eq_iff_iff]
          simp only [beq_iff_eq]
          exact ⟨hi k e (hal k hk) ⟨x, hx, ha⟩, fun h => by rw [h]⟩
        have h1 : (es.map pl.exp).contains (pl.exp e) = es.contains e := by
          rw [Bool.eq_iff_iff]
          simp only [List.contains_eq_mem, List.mem_map, decide_eq_true_eq]
          constructor
          · rintro ⟨k, hk, h⟩
            have := hp k hk
            simp only [h, BEq.rfl] at this
            rw [← beq_iff_eq.mp this.symm]
            exact hk
          · exact fun h => ⟨e, h, rfl⟩
        have h2 : es.eraseP (fun k => pl.exp k == pl.exp e) = es.erase e := by
          clear h1 hc hal
          induction es with
          | nil => rfl
          | cons k es ih =>
            rw [List.eraseP_cons, List.erase_cons, hp k (by simp), ih (fun x hx => hp x (by simp [hx]))]
            cases (k == e) <;> rfl
        simp only [h1, h2]

theorem apart_seqs {tr : Trace α} {w : World α} (h : Reach tr w) (ha : Apart pl tr) :
    ∀ s t, Alive w.seqs s → Alive w.seqs t → pl.seq s = pl.seq t → s = t := by
  have key : ∀ s, Alive w.seqs s → Exists tr s := by
    rintro s ⟨c, hc, hal⟩
    have hr : (∃ st, tr.kind s st) ∧ tr.referenced s := by
      have hv := h.view
      rw [hv.1.alive s c hc] at hal
      refine ⟨?_, (hv.2.owned_iff s).mp hal⟩
      have hq : ∃ q, (abs w).seqs[s]? = some q := by
        have : s < (abs w).seqs.length := by simpa [abs] using getElem?_lt hc
        exact ⟨_, List.getElem?_eq_getElem this⟩
      obtain ⟨q, hq⟩ := hq
      exact ⟨q.strategy, ((hv.2.seqs s q hq).1 _).mpr rfl⟩
    refine ⟨hr.1, fun hd => ?_⟩
    exact ((C16_ended_iff h s).mp hd).2 hr.2
  exact fun s t hs ht he => ha.seqs s t (key s hs) (key t ht) he

theorem apart_exps {tr : Trace α} {w : World α} (h : Reach tr w) (ha : Apart pl tr) :
    ∀ e f, AliveExp w e → AliveExp w f → pl.exp e = pl.exp f → e = f := by
  have key : ∀ e, AliveExp w e → tr.live e := by
    rintro e ⟨x, hx, hal⟩
    rw [h.view.2.live_iff]
    exact ⟨absExp e x, (abs_mem_iff w _).mpr ⟨x, hx, rfl⟩, rfl, hal⟩
  exact fun s t hs ht he => ha.exps s t (key s hs) (key t ht) he

theorem step_eq {tr : Trace α} {w : World α} (h : Reach tr w) (ha : Apart pl tr) {op : Op α}
    (hn : ∀ w' ev, w.step op = .ok (w', ev) → Apart pl (tr ++ [(op, ev)])) : step pl w op = w.step op := by
  have hw := h.view.1
  cases op with
  | newSequence st => rfl
  | dropSequence s => rfl
  | newMock => rfl
  | expect m lo hi ss ps =>
    exact expect_eq hw (apart_seqs h ha) (fun w' ev hs => apart_exps (h.step (op := .expect m lo hi ss ps) hs) (hn w' ev hs))
  | call m a => simp only [step, World.step, handleCall_eq (apart_seqs h ha)]
  | destroy e => exact destroy_eq hw (apart_exps h ha) e

theorem run_eq {tr : Trace α} {w : World α} (h : Reach tr w) {ops : List (Op α)} (hh : Honest pl (tr.map (·.1) ++ ops)) :
    run pl w ops = w.run ops := by
  induction ops generalizing tr w with
  | nil => rfl
  | cons op ops ih =>
    have hn : ∀ w' ev, w.step op = .ok (w', ev) → Apart pl (tr ++ [(op, ev)]) := by
      intro w' ev hs
      refine hh _ _ (h.step hs) ?_
      exact ⟨ops, by simp⟩
    have he := step_eq h (hh tr w h (List.prefix_append _ _)) hn
    simp only [run, World.run, he]
    cases hs : w.step op with
    | error e => rfl
    | ok r =>
      obtain ⟨w', ev⟩ := r
      have := ih (h.step hs) (by simpa using hh)
      simp only [bind, Except.bind, this]

end Mimic.Address
