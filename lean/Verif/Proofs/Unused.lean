import Verif.Proofs.Reorder
import Verif.Proofs.Scoped
import Verif.Proofs.Outcome
import Verif.Proofs.Descriptions
import Verif.Spec.Unused

/-!
# Tests without one of their expectations
-/

set_option autoImplicit false

namespace Mimic.Unused

open Mimic.Reorder (bind_ok)

variable {α : Type}

theorem down_inj {e n m : Nat} (hn : n ≠ e) (hm : m ≠ e) : down e n = down e m ↔ n = m := by
  unfold down; grind

/-- Storages without expectation `e`. -/
def thin (e : Nat) (ns : List Nat) : List Nat := (ns.filter (· ≠ e)).map (down e)

theorem thin_nil (e : Nat) : thin e [] = [] := rfl

theorem thin_same (e : Nat) (ns : List Nat) : thin e (e :: ns) = thin e ns := by simp [thin]

theorem thin_cons {e n : Nat} (h : n ≠ e) (ns : List Nat) : thin e (n :: ns) = down e n :: thin e ns := by simp [thin, h]

theorem thin_append (e : Nat) (ns ms : List Nat) : thin e (ns ++ ms) = thin e ns ++ thin e ms := by simp [thin]

theorem thin_reverse (e : Nat) (ns : List Nat) : thin e ns.reverse = (thin e ns).reverse := by simp [thin, List.filter_reverse]

theorem mem_thin {e n : Nat} (h : n ≠ e) (ns : List Nat) : down e n ∈ thin e ns ↔ n ∈ ns := by
  simp only [thin, List.mem_map, List.mem_filter, decide_eq_true_eq]
  constructor
  · rintro ⟨m, ⟨hm, hne⟩, heq⟩
    rw [(down_inj hne h).mp heq] at hm; exact hm
  · intro hm; exact ⟨n, ⟨hm, h⟩, rfl⟩

theorem thin_erase_same (e : Nat) (ns : List Nat) : thin e (ns.erase e) = thin e ns := by
  induction ns with
  | nil => rfl
  | cons m ns ih =>
    rw [List.erase_cons]
    by_cases h : m = e
    · subst h; simp [thin_same]
    · simp [h, thin_cons, ih]

theorem thin_erase {e n : Nat} (h : n ≠ e) (ns : List Nat) : thin e (ns.erase n) = (thin e ns).erase (down e n) := by
  induction ns with
  | nil => rfl
  | cons m ns ih =>
    rw [List.erase_cons]
    by_cases h1 : m = n
    · subst h1; simp [thin_cons h]
    · by_cases h2 : m = e
      · subst h2; simp [h1, thin_same, ih]
      · have : down e m ≠ down e n := fun hh => h1 ((down_inj h2 h).mp hh)
        simp [h1, thin_cons h2, ih, List.erase_cons, this]

/-- The world without expectation `e`. -/
def world (e : Nat) (w : World α) : World α :=
  { seqs := w.seqs, exps := w.exps.eraseIdx e, colls := w.colls.map (thin e) }

theorem world_get {e n : Nat} (h : n ≠ e) (w : World α) : (world e w).exps[down e n]? = w.exps[n]? := by
  simp only [world, down, List.getElem?_eraseIdx]
  grind

theorem world_deref {e n : Nat} (h : n ≠ e) (w : World α) : (world e w).deref (down e n) = w.deref n := by
  simp only [World.deref, world_get h]

theorem eraseIdx_set {A : Type} {e n : Nat} (h : n ≠ e) (l : List A) (x : A) :
    (l.set n x).eraseIdx e = (l.eraseIdx e).set (down e n) x := by
  apply List.ext_getElem?
  intro i
  simp only [List.getElem?_eraseIdx, List.getElem?_set, List.length_eraseIdx, down]
  grind

theorem eraseIdx_set_same {A : Type} (e : Nat) (l : List A) (x : A) : (l.set e x).eraseIdx e = l.eraseIdx e := by
  apply List.ext_getElem?
  intro i
  simp only [List.getElem?_eraseIdx, List.getElem?_set]
  grind

/-- A report in the test without expectation `e`. -/
def rn (e : Nat) (r : MatchReport) : MatchReport := { r with exp := down e r.exp }

def reports (e : Nat) (rs : List MatchReport) : List MatchReport := (rs.filter (·.exp ≠ e)).map (rn e)

theorem reports_cons {e : Nat} {r : MatchReport} (h : r.exp ≠ e) (rs : List MatchReport) : reports e (r :: rs) = rn e r :: reports e rs := by
  simp [reports, h]

theorem reports_same {e : Nat} {r : MatchReport} (h : r.exp = e) (rs : List MatchReport) : reports e (r :: rs) = reports e rs := by
  simp [reports, h]

theorem reports_exp (e : Nat) (rs : List MatchReport) : (reports e rs).map (·.exp) = thin e (rs.map (·.exp)) := by
  induction rs with
  | nil => rfl
  | cons r rs ih =>
    by_cases h : r.exp = e
    · rw [reports_same h, ih, List.map_cons, h, thin_same]
    · rw [reports_cons h, List.map_cons, ih, List.map_cons, thin_cons h]; rfl

theorem rn_evaluate (e : Nat) (r : MatchReport) : evaluateMatchReport (rn e r) = evaluateMatchReport r := rfl
theorem rn_ratings (e : Nat) (r : MatchReport) : (rn e r).ratings = r.ratings := rfl

def scanned (e : Nat) (r : Scan) : Scan :=
  { full := reports e r.full, inapplicable := reports e r.inapplicable, none := reports e r.none, thrown := thin e r.thrown }

/-- Expectation `e` is attached to no sequence. -/
def Free (e : Nat) (w : World α) : Prop := ∀ x, w.exps[e]? = some x → x.control.entries = []

theorem matchReport_exp {n : Nat} {x : Exp α} {h : Seqs} {a : α} {r : MatchReport} (hr : x.matchReport n h a = .ok (some r)) :
    r.exp = n ∧ ∃ st, x.control.state h = .ok st ∧ r.control = st := by
  unfold Exp.matchReport at hr
  obtain ⟨st, h1, h2⟩ := bind_ok.mp hr
  cases hp : evalPolicies a x.policies with
  | none => simp only [hp] at h2; cases h2
  | some rs =>
    simp only [hp] at h2
    simp only [pure, Except.pure, Except.ok.injEq, Option.some.injEq] at h2
    subst h2
    exact ⟨rfl, st, h1, rfl⟩

theorem matchReport_down {e n : Nat} {x : Exp α} {h : Seqs} {a : α} {r : Option MatchReport} (hr : x.matchReport n h a = .ok r) :
    x.matchReport (down e n) h a = .ok (r.map (rn e)) ∧ ∀ r', r = some r' → r'.exp = n := by
  unfold Exp.matchReport at hr ⊢
  obtain ⟨st, h1, h2⟩ := bind_ok.mp hr
  refine ⟨?_, fun r' hr' => (matchReport_exp (hr' ▸ hr)).1⟩
  rw [h1]
  cases hp : evalPolicies a x.policies with
  | none =>
    simp only [hp, pure, Except.pure, Except.ok.injEq] at h2
    subst h2; rfl
  | some rs =>
    simp only [hp, pure, Except.pure, Except.ok.injEq] at h2
    subst h2; rfl

/-- Without sequences there are no ratings. -/
theorem free_ratings {n : Nat} {x : Exp α} {h : Seqs} {a : α} {r : MatchReport} (hf : x.control.entries = [])
    (hr : x.matchReport n h a = .ok (some r)) (hfull : evaluateMatchReport r = .full) : r.ratings = .ok [] := by
  obtain ⟨-, st, h1, h2⟩ := matchReport_exp hr
  simp only [Control.state, hf, collectRatings, derefTags, bind, Except.bind, pure, Except.pure] at h1
  have happ : r.control.isApplicable = true := by
    unfold evaluateMatchReport at hfull; grind
  split at h1
  · simp only [Except.ok.injEq] at h1
    subst h1; rw [h2] at happ; simp [ControlState.isApplicable] at happ
  · simp only [List.isEmpty_nil, if_true, Except.ok.injEq] at h1
    subst h1
    simp [MatchReport.ratings, h2]

theorem scan_without {e : Nat} {w : World α} (hf : Free e w) (a : α) {ns : List Nat} {r : Scan} (hr : scan w a ns = .ok r) :
    scan (world e w) a (thin e ns) = .ok (scanned e r) ∧ ∀ x ∈ r.full, x.exp = e → x.ratings = .ok [] := by
  induction ns generalizing r with
  | nil =>
    simp only [scan, Except.ok.injEq] at hr
    subst hr
    exact ⟨rfl, by simp⟩
  | cons n ns ih =>
    simp only [scan] at hr
    obtain ⟨x, h1, hr⟩ := bind_ok.mp hr
    obtain ⟨rep, h2, hr⟩ := bind_ok.mp hr
    obtain ⟨r', h3, hr⟩ := bind_ok.mp hr
    obtain ⟨ih1, ih2⟩ := ih h3
    have hexp : ∀ y, rep = some y → y.exp = n := (matchReport_down (e := e) h2).2
    by_cases hn : n = e
    · subst hn
      have hx : x.control.entries = [] := by
        apply hf x
        simp only [World.deref] at h1
        grind
      rw [thin_same]
      cases rep with
      | none =>
        simp only [pure, Except.pure, Except.ok.injEq] at hr
        subst hr
        exact ⟨by rw [ih1]; simp [scanned, thin_same], ih2⟩
      | some y =>
        have hy := hexp y rfl
        simp only at hr
        cases hev : evaluateMatchReport y with
        | none =>
          simp only [hev, pure, Except.pure, Except.ok.injEq] at hr
          subst hr
          exact ⟨by rw [ih1]; simp [scanned, reports_same hy], ih2⟩
        | inapplicable =>
          simp only [hev, pure, Except.pure, Except.ok.injEq] at hr
          subst hr
          exact ⟨by rw [ih1]; simp [scanned, reports_same hy], ih2⟩
        | full =>
          simp only [hev, pure, Except.pure, Except.ok.injEq] at hr
          subst hr
          refine ⟨by rw [ih1]; simp [scanned, reports_same hy], ?_⟩
          intro z hz hze
          rcases List.mem_cons.mp hz with rfl | hz
          · exact free_ratings hx h2 hev
          · exact ih2 z hz hze
    · rw [thin_cons hn]
      have hm := (matchReport_down (e := e) h2).1
      have hgo : scan (world e w) a (down e n :: thin e ns) =
          (match rep.map (rn e) with
            | Option.none => (.ok { scanned e r' with thrown := down e n :: (scanned e r').thrown } : M Scan)
            | some rep =>
              match evaluateMatchReport rep with
              | .none => .ok { scanned e r' with none := rep :: (scanned e r').none }
              | .inapplicable => .ok { scanned e r' with inapplicable := rep :: (scanned e r').inapplicable }
              | .full => .ok { scanned e r' with full := rep :: (scanned e r').full }) := by
        have hs : (world e w).seqs = w.seqs := rfl
        simp only [scan, world_deref hn, h1, bind, Except.bind, hs, hm, ih1]
        cases rep with
        | none => rfl
        | some y => simp only [Option.map_some]; cases evaluateMatchReport (rn e y) <;> rfl
      rw [hgo]
      cases rep with
      | none =>
        simp only [pure, Except.pure, Except.ok.injEq] at hr
        subst hr
        exact ⟨by simp [scanned, thin_cons hn], ih2⟩
      | some y =>
        have hy : y.exp ≠ e := by rw [hexp y rfl]; exact hn
        simp only at hr
        simp only [Option.map_some, rn_evaluate]
        cases hev : evaluateMatchReport y with
        | none =>
          simp only [hev, pure, Except.pure, Except.ok.injEq] at hr
          subst hr
          exact ⟨by simp [scanned, reports_cons hy], ih2⟩
        | inapplicable =>
          simp only [hev, pure, Except.pure, Except.ok.injEq] at hr
          subst hr
          exact ⟨by simp [scanned, reports_cons hy], ih2⟩
        | full =>
          simp only [hev, pure, Except.pure, Except.ok.injEq] at hr
          subst hr
          refine ⟨by simp [scanned, reports_cons hy], ?_⟩
          intro z hz hze
          rcases List.mem_cons.mp hz with rfl | hz
          · exact absurd hze hy
          · exact ih2 z hz hze

theorem better_than_free (rs : List Rating) : hasBetterRating rs [] = true := by
  cases rs <;> rfl

theorem free_stays (rs : List Rating) : hasBetterRating [] rs = true := rfl

theorem pickLoop_free {b : MatchReport} (hb : b.ratings = .ok []) {rs : List MatchReport} {r : MatchReport}
    (h : pickLoop b rs = .ok r) : r = b := by
  induction rs with
  | nil => simp only [pickLoop, Except.ok.injEq] at h; exact h.symm
  | cons x xs ih =>
    simp only [pickLoop, hb] at h
    obtain ⟨_, h1, h⟩ := bind_ok.mp h
    obtain ⟨q, _, h⟩ := bind_ok.mp h
    cases h1
    rw [free_stays, if_pos rfl] at h
    exact ih h

theorem pickLoop_without {e : Nat} {b r : MatchReport} {rs : List MatchReport} (hb : b.exp ≠ e)
    (hf : ∀ x ∈ rs, x.exp = e → x.ratings = .ok []) (h : pickLoop b rs = .ok r) (hr : r.exp ≠ e) :
    pickLoop (rn e b) (reports e rs) = .ok (rn e r) := by
  induction rs generalizing b with
  | nil =>
    simp only [pickLoop, Except.ok.injEq] at h
    subst h; rfl
  | cons x xs ih =>
    have hxs : ∀ y ∈ xs, y.exp = e → y.ratings = .ok [] := fun y hy => hf y (List.mem_cons_of_mem _ hy)
    simp only [pickLoop] at h
    obtain ⟨p, h1, h⟩ := bind_ok.mp h
    obtain ⟨q, h2, h⟩ := bind_ok.mp h
    by_cases hx : x.exp = e
    · rw [hf x List.mem_cons_self hx] at h2
      cases h2
      rw [better_than_free, if_pos rfl] at h
      rw [reports_same hx]
      exact ih hb hxs h
    · rw [reports_cons hx]
      simp only [pickLoop, rn_ratings, h1, h2, bind, Except.bind]
      split
      · rename_i hc; rw [if_pos hc] at h; exact ih hb hxs h
      · rename_i hc; rw [if_neg hc] at h; exact ih hx hxs h

theorem pickBest_without {e : Nat} {r : MatchReport} {rs : List MatchReport}
    (hf : ∀ x ∈ rs, x.exp = e → x.ratings = .ok []) (h : pickBestMatch rs = .ok r) (hr : r.exp ≠ e) :
    pickBestMatch (reports e rs) = .ok (rn e r) := by
  cases rs with
  | nil => cases h
  | cons b rs =>
    simp only [pickBestMatch] at h
    by_cases hb : b.exp = e
    · rw [pickLoop_free (hf b List.mem_cons_self hb) h] at hr
      exact absurd hb hr
    · rw [reports_cons hb]
      exact pickLoop_without hb (fun x hx => hf x (List.mem_cons_of_mem _ hx)) h hr

theorem consume_without {e n : Nat} (hn : n ≠ e) {w w' : World α} (h : w.consume n = .ok w') :
    (world e w).consume (down e n) = .ok (world e w') := by
  unfold World.consume at h ⊢
  rw [world_deref hn]
  obtain ⟨x, h1, h⟩ := bind_ok.mp h
  obtain ⟨⟨g, c⟩, h2, h⟩ := bind_ok.mp h
  simp only [pure, Except.pure, Except.ok.injEq] at h
  have hs : (world e w).seqs = w.seqs := rfl
  subst h
  simp only [h1, hs, h2, bind, Except.bind, pure, Except.pure]
  simp only [world, eraseIdx_set hn]

theorem events_unhandled (e : Nat) (ns : List Nat) :
    (ns.map Event.unhandled).filterMap (event e) = (thin e ns).map Event.unhandled := by
  induction ns with
  | nil => rfl
  | cons n ns ih =>
    by_cases h : n = e
    · subst h; simp [thin_same, ih, event]
    · simp [thin_cons h, ih, event, h]

theorem handleCall_without {e : Nat} {w w' : World α} (hf : Free e w) {c : Nat} {a : α} {ev : List Event} {o : Option Nat}
    (h : w.handleCall c a = .ok (w', ev, o)) (hm : Event.fullMatch e ∉ ev)
    (hi : ∀ ns, Event.inapplicable ns ∈ ev → ∃ n ∈ ns, n ≠ e) :
    ∃ o', (world e w).handleCall c a = .ok (world e w', ev.filterMap (event e), o') := by
  unfold World.handleCall at h ⊢
  have hc : (world e w).colls[c]? = (w.colls[c]?).map (thin e) := by simp [world]
  rw [hc]
  cases hcc : w.colls[c]? with
  | none => simp [hcc] at h
  | some es =>
    simp only [hcc] at h
    obtain ⟨r, h1, h⟩ := bind_ok.mp h
    obtain ⟨hs, hrat⟩ := scan_without hf a h1
    rw [thin_reverse] at hs
    simp only [Option.map_some, hs, bind, Except.bind]
    by_cases hfull : r.full.isEmpty = true
    · have he : reports e r.full = [] := by
        rw [List.isEmpty_iff] at hfull; rw [hfull]; rfl
      simp only [hfull, Bool.not_true, Bool.false_eq_true, if_false] at h
      by_cases hin : r.inapplicable.isEmpty = true
      · simp only [hin, Bool.not_true, Bool.false_eq_true, if_false, pure, Except.pure, Except.ok.injEq, Prod.mk.injEq] at h
        obtain ⟨rfl, rfl, rfl⟩ := h
        have hie : reports e r.inapplicable = [] := by
          rw [List.isEmpty_iff] at hin; rw [hin]; rfl
        refine ⟨none, ?_⟩
        simp only [scanned, he, hie, List.isEmpty_nil, Bool.not_true, Bool.false_eq_true, if_false, pure, Except.pure, List.filterMap_append,
          events_unhandled, List.filterMap_cons, event, List.filterMap_nil, reports_exp]
        rfl
      · simp only [hin, Bool.not_false, if_true, pure, Except.pure, Except.ok.injEq, Prod.mk.injEq] at h
        obtain ⟨rfl, rfl, rfl⟩ := h
        obtain ⟨n, hn, hne⟩ := hi (r.inapplicable.map (·.exp)) (by simp)
        have hie : (reports e r.inapplicable).isEmpty = false := by
          obtain ⟨y, hy, rfl⟩ := List.mem_map.mp hn
          rw [List.isEmpty_eq_false_iff]
          intro h0
          have : rn e y ∈ reports e r.inapplicable := by
            simp only [reports, List.mem_map, List.mem_filter]
            exact ⟨y, ⟨hy, by simpa using hne⟩, rfl⟩
          rw [h0] at this; cases this
        refine ⟨none, ?_⟩
        simp only [scanned, he, hie, List.isEmpty_nil, Bool.not_true, Bool.false_eq_true, if_false, Bool.not_false, if_true, pure, Except.pure,
          List.filterMap_append, events_unhandled, List.filterMap_cons, event, List.filterMap_nil, reports_exp]
        rfl
    · simp only [hfull, Bool.not_false, if_true] at h
      obtain ⟨best, h2, h⟩ := bind_ok.mp h
      obtain ⟨w₁, h3, h⟩ := bind_ok.mp h
      simp only [pure, Except.pure, Except.ok.injEq, Prod.mk.injEq] at h
      obtain ⟨rfl, rfl, rfl⟩ := h
      have hb : best.exp ≠ e := by
        intro h0; exact hm (by simp [h0])
      have hp := pickBest_without hrat h2 hb
      have hne : (reports e r.full).isEmpty = false := by
        cases hrr : reports e r.full with
        | nil => rw [hrr] at hp; cases hp
        | cons _ _ => rfl
      have hcon := consume_without hb h3
      refine ⟨some (down e best.exp), ?_⟩
      have hrn : (rn e best).exp = down e best.exp := rfl
      simp only [scanned, hne, Bool.not_false, if_true, hp, hrn, hcon, pure, Except.pure, List.filterMap_append,
        events_unhandled, List.filterMap_cons, event, hb, if_false, List.filterMap_nil]

theorem owned_without {e : Nat} {w : World α} (hf : Free e w) (s : Nat) : (world e w).owned s = w.owned s := by
  unfold World.owned
  have hs : (world e w).seqs = w.seqs := rfl
  rw [hs]
  congr 1
  rw [Bool.eq_iff_iff, List.any_eq_true, List.any_eq_true]
  constructor
  · rintro ⟨x, hx, h⟩
    exact ⟨x, List.mem_of_mem_eraseIdx hx, h⟩
  · rintro ⟨x, hx, h⟩
    obtain ⟨n, hn⟩ := List.getElem?_of_mem hx
    by_cases hne : n = e
    · subst hne
      simp [Exp.holds, hf x hn] at h
    · rw [← world_get hne] at hn
      exact ⟨x, List.mem_of_getElem? hn, h⟩

theorem release_without {e : Nat} {w w' : World α} (hf : Free e w) {s : Nat} {ev : List Event} (h : w.release s = .ok (w', ev)) :
    (world e w).release s = .ok (world e w', ev) ∧ ev.filterMap (event e) = ev ∧ Free e w' := by
  unfold World.release at h ⊢
  rw [owned_without hf]
  split at h
  · rename_i ho
    simp only [Except.ok.injEq, Prod.mk.injEq] at h
    obtain ⟨rfl, rfl⟩ := h
    rw [if_pos ho]
    exact ⟨rfl, rfl, hf⟩
  · rename_i ho
    rw [if_neg ho]
    obtain ⟨q, h1, h⟩ := bind_ok.mp h
    obtain ⟨err, h2, h⟩ := bind_ok.mp h
    have hs : (world e w).seqs = w.seqs := rfl
    simp only [hs, h1, h2, bind, Except.bind]
    cases err with
    | none =>
      simp only [pure, Except.pure, Except.ok.injEq, Prod.mk.injEq] at h
      obtain ⟨rfl, rfl⟩ := h
      exact ⟨rfl, rfl, hf⟩
    | some kn =>
      simp only [pure, Except.pure, Except.ok.injEq, Prod.mk.injEq] at h
      obtain ⟨rfl, rfl⟩ := h
      exact ⟨rfl, rfl, hf⟩

theorem releaseAll_without {e : Nat} {w w' : World α} (hf : Free e w) {ss : List Nat} {ev : List Event}
    (h : w.releaseAll ss = .ok (w', ev)) :
    (world e w).releaseAll ss = .ok (world e w', ev) ∧ ev.filterMap (event e) = ev ∧ Free e w' := by
  induction ss generalizing w ev with
  | nil =>
    simp only [World.releaseAll, Except.ok.injEq, Prod.mk.injEq] at h
    obtain ⟨rfl, rfl⟩ := h
    exact ⟨rfl, rfl, hf⟩
  | cons s ss ih =>
    simp only [World.releaseAll] at h ⊢
    obtain ⟨⟨w₁, ev₁⟩, h1, h⟩ := bind_ok.mp h
    obtain ⟨⟨w₂, ev₂⟩, h2, h⟩ := bind_ok.mp h
    simp only [pure, Except.pure, Except.ok.injEq, Prod.mk.injEq] at h
    obtain ⟨rfl, rfl⟩ := h
    obtain ⟨a1, a2, a3⟩ := release_without hf h1
    obtain ⟨b1, b2, b3⟩ := ih a3 h2
    simp only [a1, b1, bind, Except.bind, pure, Except.pure, List.filterMap_append, a2, b2]
    exact ⟨trivial, trivial, b3⟩

theorem map_set {A B : Type} (f : A → B) (l : List A) (n : Nat) (x : A) : (l.set n x).map f = (l.map f).set n (f x) := by
  rw [List.map_set]

theorem set_get {A : Type} (l : List A) (n : Nat) (x : A) (h : l[n]? = some x) : l.set n x = l := by
  apply List.ext_getElem?
  intro i
  rw [List.getElem?_set]
  grind

/-- Nothing is left of the end of expectation `e`. -/
theorem destroy_same {e : Nat} {w w' : World α} (hf : Free e w) {ev : List Event} (h : w.destroyExp e = .ok (w', ev)) :
    world e w' = world e w ∧ Free e w' := by
  unfold World.destroyExp at h
  cases hx : w.exps[e]? with
  | none => simp [hx] at h
  | some x =>
    simp only [hx] at h
    split at h
    · cases h
    · cases hc : w.colls[x.coll]? with
      | none => simp [hc] at h
      | some es =>
        simp only [hc] at h
        obtain ⟨_, h1, h⟩ := bind_ok.mp h
        rw [hf x hx] at h
        simp only [List.map_nil, World.releaseAll, bind, Except.bind, pure, Except.pure, Except.ok.injEq, Prod.mk.injEq] at h
        obtain ⟨rfl, rfl⟩ := h
        constructor
        · simp only [world, eraseIdx_set_same, World.mk.injEq, true_and, map_set, thin_erase_same]
          exact set_get _ _ _ (by simp [hc])
        · intro y hy
          simp only [List.getElem?_set] at hy
          have := hf x hx
          grind

theorem destroy_without {e n : Nat} (hn : n ≠ e) {w w' : World α} (hf : Free e w) {ev : List Event}
    (h : w.destroyExp n = .ok (w', ev)) :
    (world e w).destroyExp (down e n) = .ok (world e w', ev.filterMap (event e)) ∧ Free e w' := by
  unfold World.destroyExp at h ⊢
  rw [world_get hn]
  cases hx : w.exps[n]? with
  | none => simp [hx] at h
  | some x =>
    simp only [hx] at h ⊢
    by_cases ha : x.alive = true
    · simp only [ha, Bool.not_true, Bool.false_eq_true, if_false] at h ⊢
      have hcw : (world e w).colls[x.coll]? = (w.colls[x.coll]?).map (thin e) := by simp [world]
      rw [hcw]
      cases hc : w.colls[x.coll]? with
      | none => simp [hc] at h
      | some es =>
        simp only [hc] at h
        obtain ⟨_, h1, h⟩ := bind_ok.mp h
        obtain ⟨⟨w₂, ev₂⟩, h2, h⟩ := bind_ok.mp h
        simp only [pure, Except.pure, Except.ok.injEq, Prod.mk.injEq] at h
        obtain ⟨rfl, rfl⟩ := h
        have hck : (thin e es).contains (down e n) = es.contains n := by
          rw [Bool.eq_iff_iff, List.contains_iff_mem, List.contains_iff_mem, mem_thin hn]
        have hf₁ : Free e { w with colls := w.colls.set x.coll (es.erase n), exps := w.exps.set n { x with alive := false } } := by
          intro y hy
          simp only [List.getElem?_set] at hy
          rw [if_neg hn] at hy
          exact hf y hy
        obtain ⟨b1, b2, b3⟩ := releaseAll_without hf₁ h2
        have hw : world e { w with colls := w.colls.set x.coll (es.erase n), exps := w.exps.set n { x with alive := false } } =
            { world e w with colls := (world e w).colls.set x.coll ((thin e es).erase (down e n)),
                             exps := (world e w).exps.set (down e n) { x with alive := false } } := by
          simp only [world, World.mk.injEq, true_and, eraseIdx_set hn, map_set, thin_erase hn]
        rw [hw] at b1
        simp only [Option.map_some, hck, h1, bind, Except.bind, pure, Except.pure, ha] at b1 ⊢
        rw [b1]
        refine ⟨?_, b3⟩
        simp only [Except.ok.injEq, Prod.mk.injEq, true_and, List.filterMap_append, List.cons_append, List.filterMap_cons, event, hn, if_false, b2]
        split <;> simp [event, hn]
    · simp [ha] at h

/-- The storages contain numbers of expectations. -/
def Small (w : World α) : Prop := ∀ (c : Nat) (es : List Nat), w.colls[c]? = some es → ∀ n ∈ es, n < w.exps.length

theorem thin_below {e : Nat} {ns : List Nat} (h : ∀ n ∈ ns, n < e) : thin e ns = ns := by
  induction ns with
  | nil => rfl
  | cons n ns ih =>
    have hn : n < e := h n (by simp)
    rw [thin_cons (by omega), ih (fun m hm => h m (by simp [hm]))]
    simp [down]; omega

/-- Nothing is left of the creation of expectation `e`. -/
theorem expect_same {e c : Nat} {mn mx : Int} {ps : List (Policy α)} {w w' : World α} {ev : List Event}
    (h : w.expect c mn mx [] ps = .ok (w', ev)) (hc : Event.created e ∈ ev) : world e w' = world e w ∧ Free e w' := by
  unfold World.expect at h
  cases hcc : w.colls[c]? with
  | none => simp [hcc] at h
  | some es =>
    simp only [hcc, List.all_nil, Bool.true_and] at h
    split at h
    · cases ht : TimesConfig.make mn mx with
      | none =>
        simp only [ht, pure, Except.pure, Except.ok.injEq, Prod.mk.injEq] at h
        obtain ⟨rfl, rfl⟩ := h
        simp at hc
      | some t =>
        have hsc : seqConfig [] = some [] := rfl
        simp only [ht, hsc] at h
        obtain ⟨⟨g, ctl⟩, h1, h⟩ := bind_ok.mp h
        obtain ⟨_, h2, h⟩ := bind_ok.mp h
        simp only [pure, Except.pure, Except.ok.injEq, Prod.mk.injEq] at h
        obtain ⟨rfl, rfl⟩ := h
        simp only [List.mem_singleton, Event.created.injEq] at hc
        subst hc
        have hmk : g = w.seqs ∧ ctl.entries = [] := by
          simp only [Control.make, makeSequenceEntries, Control.updateSequenceStates, forEntries, bind, Except.bind, pure, Except.pure] at h1
          grind
        obtain ⟨rfl, hen⟩ := hmk
        constructor
        · simp only [world, World.mk.injEq, true_and, map_set]
          constructor
          · rw [List.eraseIdx_append_of_length_le (Nat.le_refl _), List.eraseIdx_of_length_le (Nat.le_refl _)]; simp
          · apply set_get
            simp [hcc, thin_append, thin]
        · intro y hy
          simp at hy
          subst hy
          exact hen
    · cases h

theorem expect_without {e c : Nat} {mn mx : Int} {tags : List Nat} {ps : List (Policy α)} {w w' : World α} (hf : Free e w)
    {ev : List Event} (h : w.expect c mn mx tags ps = .ok (w', ev)) (hc : Event.created e ∉ ev) :
    (world e w).expect c mn mx tags ps = .ok (world e w', ev.filterMap (event e)) ∧ Free e w' := by
  unfold World.expect at h ⊢
  have hcw : (world e w).colls[c]? = (w.colls[c]?).map (thin e) := by simp [world]
  have hh : ∀ s, (world e w).hasHandle s = w.hasHandle s := fun s => rfl
  have hs : (world e w).seqs = w.seqs := rfl
  rw [hcw]
  cases hcc : w.colls[c]? with
  | none => simp [hcc] at h
  | some es =>
    simp only [hcc] at h
    simp only [Option.map_some, hs]
    have hall : tags.all (world e w).hasHandle = tags.all w.hasHandle := rfl
    rw [hall]
    split at h
    · rename_i hb
      rw [if_pos hb]
      cases ht : TimesConfig.make mn mx with
      | none =>
        simp only [ht, pure, Except.pure, Except.ok.injEq, Prod.mk.injEq] at h ⊢
        obtain ⟨rfl, rfl⟩ := h
        exact ⟨⟨rfl, rfl⟩, hf⟩
      | some t =>
        cases hsc : seqConfig tags with
        | none =>
          simp only [ht, hsc, pure, Except.pure, Except.ok.injEq, Prod.mk.injEq] at h ⊢
          obtain ⟨rfl, rfl⟩ := h
          exact ⟨⟨rfl, rfl⟩, hf⟩
        | some tags' =>
          simp only [ht, hsc] at h
          obtain ⟨⟨g, ctl⟩, h1, h⟩ := bind_ok.mp h
          obtain ⟨_, h2, h⟩ := bind_ok.mp h
          simp only [pure, Except.pure, Except.ok.injEq, Prod.mk.injEq] at h
          obtain ⟨rfl, rfl⟩ := h
          have hne : w.exps.length ≠ e := by
            intro h0; exact hc (by simp [h0])
          have hlen : (world e w).exps.length = down e w.exps.length := by
            simp only [world, List.length_eraseIdx, down]
          have hck : (thin e es).contains (down e w.exps.length) = es.contains w.exps.length := by
            rw [Bool.eq_iff_iff, List.contains_iff_mem, List.contains_iff_mem, mem_thin hne]
          simp only [h1, hlen, hck, h2, bind, Except.bind, pure, Except.pure, Except.ok.injEq, Prod.mk.injEq]
          refine ⟨⟨?_, by simp [event, hne]⟩, ?_⟩
          · simp only [world, World.mk.injEq, true_and, map_set, thin_append, thin_cons hne, thin_nil, and_true]
            apply List.ext_getElem?
            intro i
            simp only [List.getElem?_append, List.getElem?_eraseIdx, List.length_eraseIdx]
            grind
          · intro y hy
            rw [List.getElem?_append] at hy
            split at hy
            · exact hf y hy
            · grind
    · cases h

/-- Events that are neither the creation of an expectation nor a report on a call. -/
def Other (x : Event) : Prop := (∀ e, x ≠ .created e) ∧ (∀ e, x ≠ .fullMatch e) ∧ ∀ ns, x ≠ .inapplicable ns

theorem release_other {w w' : World α} {s : Nat} {ev : List Event} (h : w.release s = .ok (w', ev)) : ∀ x ∈ ev, Other x := by
  unfold World.release at h
  split at h
  · simp only [Except.ok.injEq, Prod.mk.injEq] at h
    rw [← h.2]; simp
  · obtain ⟨q, _, h⟩ := bind_ok.mp h
    obtain ⟨err, _, h⟩ := bind_ok.mp h
    cases err with
    | none =>
      simp only [pure, Except.pure, Except.ok.injEq, Prod.mk.injEq] at h
      rw [← h.2]; simp [Other]
    | some kn =>
      simp only [pure, Except.pure, Except.ok.injEq, Prod.mk.injEq] at h
      rw [← h.2]; simp [Other]

theorem releaseAll_other {w w' : World α} {ss : List Nat} {ev : List Event} (h : w.releaseAll ss = .ok (w', ev)) : ∀ x ∈ ev, Other x := by
  induction ss generalizing w ev with
  | nil =>
    simp only [World.releaseAll, Except.ok.injEq, Prod.mk.injEq] at h
    rw [← h.2]; simp
  | cons s ss ih =>
    simp only [World.releaseAll] at h
    obtain ⟨⟨w₁, ev₁⟩, h1, h⟩ := bind_ok.mp h
    obtain ⟨⟨w₂, ev₂⟩, h2, h⟩ := bind_ok.mp h
    simp only [pure, Except.pure, Except.ok.injEq, Prod.mk.injEq] at h
    obtain ⟨rfl, rfl⟩ := h
    intro x hx
    rcases List.mem_append.mp hx with hx | hx
    · exact release_other h1 x hx
    · exact ih h2 x hx

theorem destroy_other {w w' : World α} {n : Nat} {ev : List Event} (h : w.destroyExp n = .ok (w', ev)) : ∀ x ∈ ev, Other x := by
  unfold World.destroyExp at h
  cases hx : w.exps[n]? with
  | none => simp [hx] at h
  | some x =>
    simp only [hx] at h
    split at h
    · cases h
    · cases hc : w.colls[x.coll]? with
      | none => simp [hc] at h
      | some es =>
        simp only [hc] at h
        obtain ⟨_, h1, h⟩ := bind_ok.mp h
        obtain ⟨⟨w₂, ev₂⟩, h2, h⟩ := bind_ok.mp h
        simp only [pure, Except.pure, Except.ok.injEq, Prod.mk.injEq] at h
        rw [← h.2]
        have := releaseAll_other h2
        intro y hy
        split at hy
        · simp only [List.cons_append, List.nil_append, List.mem_cons] at hy
          rcases hy with rfl | hy
          · simp [Other]
          · exact this y hy
        · simp only [List.cons_append, List.nil_append, List.mem_cons] at hy
          rcases hy with rfl | rfl | hy
          · simp [Other]
          · simp [Other]
          · exact this y hy

/-- What a call changes, and what it reports. -/
theorem handleCall_cases {w w' : World α} {c : Nat} {a : α} {ev : List Event} {o : Option Nat}
    (h : w.handleCall c a = .ok (w', ev, o)) :
    (∀ e, Event.created e ∉ ev) ∧ (w' = w ∨ ∃ n, Event.fullMatch n ∈ ev ∧ w.consume n = .ok w') := by
  unfold World.handleCall at h
  cases hcc : w.colls[c]? with
  | none => simp [hcc] at h
  | some es =>
    simp only [hcc] at h
    obtain ⟨r, _, h⟩ := bind_ok.mp h
    split at h
    · obtain ⟨best, _, h⟩ := bind_ok.mp h
      obtain ⟨w₂, h3, h⟩ := bind_ok.mp h
      simp only [pure, Except.pure, Except.ok.injEq, Prod.mk.injEq] at h
      obtain ⟨rfl, rfl, rfl⟩ := h
      exact ⟨by simp, Or.inr ⟨best.exp, by simp, h3⟩⟩
    · split at h
      · simp only [pure, Except.pure, Except.ok.injEq, Prod.mk.injEq] at h
        obtain ⟨rfl, rfl, rfl⟩ := h
        exact ⟨by simp, Or.inl rfl⟩
      · simp only [pure, Except.pure, Except.ok.injEq, Prod.mk.injEq] at h
        obtain ⟨rfl, rfl, rfl⟩ := h
        exact ⟨by simp, Or.inl rfl⟩

theorem consume_free {e n : Nat} (hn : n ≠ e) {w w' : World α} (hf : Free e w) (h : w.consume n = .ok w') : Free e w' := by
  unfold World.consume at h
  obtain ⟨x, _, h⟩ := bind_ok.mp h
  obtain ⟨⟨g, c'⟩, _, h⟩ := bind_ok.mp h
  simp only [pure, Except.pure, Except.ok.injEq] at h
  subst h
  intro y hy
  simp only [List.getElem?_set, if_neg hn] at hy
  exact hf y hy

theorem step_without {e : Nat} {w w' : World α} (hf : Free e w) {o : Op α} {ev : List Event} (h : w.step o = .ok (w', ev))
    (hm : Event.fullMatch e ∉ ev) (hi : ∀ ns, Event.inapplicable ns ∈ ev → ∃ n ∈ ns, n ≠ e)
    (hs : Event.created e ∈ ev → ∀ c mn mx tags ps, o = .expect c mn mx tags ps → tags = []) :
    Free e w' ∧
    ((world e w' = world e w ∧ (Event.created e ∈ ev ∨ op e o = none)) ∨
      Event.created e ∉ ev ∧ ∃ o', op e o = some o' ∧ (world e w).step o' = .ok (world e w', ev.filterMap (event e))) := by
  cases o with
  | newSequence st =>
    simp only [World.step, Except.ok.injEq, Prod.mk.injEq] at h
    obtain ⟨rfl, rfl⟩ := h
    exact ⟨hf, Or.inr ⟨by simp, .newSequence st, rfl, rfl⟩⟩
  | newMock =>
    simp only [World.step, Except.ok.injEq, Prod.mk.injEq] at h
    obtain ⟨rfl, rfl⟩ := h
    refine ⟨hf, Or.inr ⟨by simp, .newMock, rfl, ?_⟩⟩
    simp [World.step, world, event, thin]
  | dropSequence s =>
    simp only [World.step] at h
    have hh : (world e w).hasHandle s = w.hasHandle s := rfl
    split at h
    · rename_i hb
      have hf' : Free e { w with seqs := w.seqs.modify s (fun c => { c with handle := false }) } := hf
      obtain ⟨a1, a2, a3⟩ := release_without hf' h
      refine ⟨a3, Or.inr ⟨?_, .dropSequence s, rfl, ?_⟩⟩
      · exact fun hc => (release_other h _ hc).1 e rfl
      · simp only [World.step, hh, hb, if_true, a2]
        exact a1
    · cases h
  | expect c mn mx tags ps =>
    by_cases hc : Event.created e ∈ ev
    · obtain rfl := hs hc c mn mx tags ps rfl
      obtain ⟨a1, a2⟩ := expect_same h hc
      exact ⟨a2, Or.inl ⟨a1, Or.inl hc⟩⟩
    · obtain ⟨a1, a2⟩ := expect_without hf h hc
      exact ⟨a2, Or.inr ⟨hc, .expect c mn mx tags ps, rfl, a1⟩⟩
  | call c a =>
    simp only [World.step] at h
    obtain ⟨⟨w₁, ev₁, o₁⟩, h1, h⟩ := bind_ok.mp h
    simp only [pure, Except.pure, Except.ok.injEq, Prod.mk.injEq] at h
    obtain ⟨rfl, rfl⟩ := h
    obtain ⟨o', h2⟩ := handleCall_without hf h1 hm hi
    obtain ⟨hcn, hw⟩ := handleCall_cases h1
    refine ⟨?_, Or.inr ⟨hcn e, .call c a, rfl, by simp only [World.step, h2, bind, Except.bind, pure, Except.pure]⟩⟩
    rcases hw with rfl | ⟨n, hn, hw⟩
    · exact hf
    · exact consume_free (n := n) (fun h0 => hm (by rw [← h0]; exact hn)) hf hw
  | destroy n =>
    by_cases hn : n = e
    · subst hn
      obtain ⟨a1, a2⟩ := destroy_same hf h
      exact ⟨a2, Or.inl ⟨a1, Or.inr (by simp [op])⟩⟩
    · obtain ⟨a1, a2⟩ := destroy_without hn hf h
      exact ⟨a2, Or.inr ⟨fun hc => (destroy_other h _ hc).1 e rfl, .destroy (down e n), by simp [op, hn], a1⟩⟩

theorem without_snoc (e : Nat) (tr : Trace α) (o : Op α) (ev : List Event) :
    without e (tr ++ [(o, ev)]) = without e tr ++
      (if Event.created e ∈ ev then [] else ((op e o).map fun o' => (o', ev.filterMap (event e))).toList) := by
  simp only [without, List.filterMap_append, List.filterMap_cons, List.filterMap_nil]
  congr 1
  split
  · rename_i h
    split at h
    · rw [if_pos (by assumption)]
    · rename_i hc
      rw [if_neg hc, h]; rfl
  · rename_i x h
    split at h
    · cases h
    · rename_i hc
      rw [if_neg hc, h]; rfl

theorem reach_without {e : Nat} {tr : Trace α} {w : World α} (h : Reach tr w) (hm : Event.fullMatch e ∉ tr.events)
    (hi : ∀ ns, Event.inapplicable ns ∈ tr.events → ∃ n ∈ ns, n ≠ e)
    (hs : ∀ c mn mx tags ps ev, (Op.expect c mn mx tags ps, ev) ∈ tr → Event.created e ∈ ev → tags = []) :
    Free e w ∧ Reach (without e tr) (world e w) := by
  induction h with
  | init => exact ⟨by intro x hx; simp [World.init] at hx, .init⟩
  | @step tr w w' o ev hr hst ih =>
    have hev : ∀ x, x ∈ tr.events → x ∈ Trace.events (tr ++ [(o, ev)]) := by
      intro x hx; simp only [Trace.events, List.flatMap_append, List.mem_append]; exact Or.inl hx
    have hev' : ∀ x, x ∈ ev → x ∈ Trace.events (tr ++ [(o, ev)]) := by
      intro x hx; simp [Trace.events, hx]
    obtain ⟨hf, hrw⟩ := ih (fun h => hm (hev _ h)) (fun ns h => hi ns (hev _ h))
      (fun c mn mx tags ps ev' h => hs c mn mx tags ps ev' (List.mem_append_left _ h))
    obtain ⟨hf', hcase⟩ := step_without hf hst (fun h => hm (hev' _ h)) (fun ns h => hi ns (hev' _ h))
      (fun hc c mn mx tags ps ho => hs c mn mx tags ps ev (by simp [ho]) hc)
    refine ⟨hf', ?_⟩
    rw [without_snoc]
    rcases hcase with ⟨hw, hc⟩ | ⟨hc, o', ho, hst'⟩
    · rw [hw]
      rcases hc with hc | hc
      · rw [if_pos hc, List.append_nil]; exact hrw
      · split
        · rw [List.append_nil]; exact hrw
        · rw [hc]; simpa using hrw
    · rw [if_neg hc, ho]
      exact .step hrw hst'

theorem no_report {w w' : World α} {o : Op α} {ev : List Event} (h : w.step o = .ok (w', ev)) (ho : ∀ m a, o ≠ .call m a) {x : Event}
    (hk : (∃ e, x = .fullMatch e) ∨ ∃ ns, x = .inapplicable ns) : x ∉ ev := by
  intro hx
  cases o with
  | newSequence st =>
    simp only [World.step, Except.ok.injEq, Prod.mk.injEq] at h
    rw [← h.2] at hx; simp at hx; grind
  | newMock =>
    simp only [World.step, Except.ok.injEq, Prod.mk.injEq] at h
    rw [← h.2] at hx; simp at hx; grind
  | dropSequence s =>
    simp only [World.step] at h
    split at h
    · have := release_other h x hx
      unfold Other at this; grind
    · cases h
  | expect c mn mx tags ps =>
    rcases dexpect_events h with h1 | h1 <;> rw [h1] at hx <;> simp at hx <;> grind
  | call c a => exact ho c a rfl
  | destroy n =>
    have := destroy_other h x hx
    unfold Other at this; grind

theorem step_created {w w' : World α} {o : Op α} {ev : List Event} (h : w.step o = .ok (w', ev)) {e : Nat} (hc : Event.created e ∈ ev) :
    e = w.exps.length := by
  cases o with
  | newSequence st =>
    simp only [World.step, Except.ok.injEq, Prod.mk.injEq] at h
    rw [← h.2] at hc; simp at hc
  | newMock =>
    simp only [World.step, Except.ok.injEq, Prod.mk.injEq] at h
    rw [← h.2] at hc; simp at hc
  | dropSequence s =>
    simp only [World.step] at h
    split at h
    · exact absurd rfl ((release_other h _ hc).1 e)
    · cases h
  | expect c mn mx tags ps =>
    rcases dexpect_events h with h1 | h1 <;> rw [h1] at hc <;> simp at hc
    exact hc
  | call c a =>
    simp only [World.step] at h
    obtain ⟨⟨w₁, ev₁, o₁⟩, h1, h⟩ := bind_ok.mp h
    simp only [pure, Except.pure, Except.ok.injEq, Prod.mk.injEq] at h
    obtain ⟨rfl, rfl⟩ := h
    exact absurd hc ((handleCall_cases h1).1 e)
  | destroy n => exact absurd rfl ((destroy_other h _ hc).1 e)

theorem created_decl {tr : Trace α} {w : World α} (h : Reach tr w) {e c : Nat} {mn mx : Int} {tags : List Nat} {ps : List (Policy α)}
    {ev : List Event} (hm : (Op.expect c mn mx tags ps, ev) ∈ tr) (hc : Event.created e ∈ ev) :
    tr.decl e = some { mock := c, min := mn, max := mx, seqs := tags, policies := ps } := by
  induction h with
  | init => cases hm
  | @step tr w w' o ev' hr hst ih =>
    rw [List.mem_append, List.mem_singleton] at hm
    rcases hm with hm | hm
    · exact decl_mono (ih hm)
    · cases hm
      have he := step_created hst hc
      have hn : tr.decl e = none := by
        cases hd : tr.decl e with
        | none => rfl
        | some d =>
          have := hr.view.2.decl_lt.mp ⟨d, hd⟩
          rw [abs_exps_length] at this
          omega
      unfold Trace.decl at hn ⊢
      rw [List.findSome?_append, hn]
      simp [hc]

/-- Reports on calls come from calls. -/
theorem report_call {tr : Trace α} {w : World α} (h : Reach tr w) {x : Event} (hx : x ∈ tr.events)
    (hk : (∃ e, x = .fullMatch e) ∨ ∃ ns, x = .inapplicable ns) :
    ∃ pre post m a ev w0 w1, tr = pre ++ (Op.call m a, ev) :: post ∧ Reach pre w0 ∧ w0.step (.call m a) = .ok (w1, ev) ∧ x ∈ ev := by
  simp only [Trace.events, List.mem_flatMap] at hx
  obtain ⟨⟨o, ev⟩, hmem, hxe⟩ := hx
  obtain ⟨pre, post, rfl⟩ := List.append_of_mem hmem
  obtain ⟨w0, w1, hr, hst⟩ := h.split
  cases o with
  | call m a => exact ⟨pre, post, m, a, ev, w0, w1, rfl, hr, hst, hxe⟩
  | _ => exact absurd hxe (no_report hst (by simp) hk)

theorem match_call {tr : Trace α} {w : World α} (h : Reach tr w) {e : Nat} (hx : Event.fullMatch e ∈ tr.events) :
    ∃ pre post m a ev w0 w1, tr = pre ++ (Op.call m a, ev) :: post ∧ Reach pre w0 ∧ w0.step (.call m a) = .ok (w1, ev) ∧
      Event.fullMatch e ∈ ev :=
  report_call h hx (Or.inl ⟨e, rfl⟩)

theorem inapplicable_call {tr : Trace α} {w : World α} (h : Reach tr w) {ns : List Nat} (hx : Event.inapplicable ns ∈ tr.events) :
    ∃ pre post m a ev w0 w1, tr = pre ++ (Op.call m a, ev) :: post ∧ Reach pre w0 ∧ w0.step (.call m a) = .ok (w1, ev) ∧
      Event.inapplicable ns ∈ ev :=
  report_call h hx (Or.inr ⟨ns, rfl⟩)

end Mimic.Unused
