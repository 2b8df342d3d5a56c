import Verif.Proofs.Demo

/-!
# Outcome of calls, helper lemmas
-/

set_option autoImplicit false

namespace Mimic

variable {α : Type}

theorem call_spec {tr : Trace α} {w w' : World α} (h : Reach tr w) {m : Nat} {a : α}
    {ev : List Event} (hs : w.step (.call m a) = .ok (w', ev)) :
    ev = ((abs w).call m a).2.1 ∧ abs w' = ((abs w).call m a).1 ∧ m < (abs w).mocks := by
  have hspec := h.spec_step hs
  simp only [Spec.State.step] at hspec
  split at hspec
  · rename_i hm
    simp only [Option.some.injEq, Prod.mk.injEq] at hspec
    exact ⟨hspec.2.symm, hspec.1.symm, hm⟩
  · simp at hspec

theorem fullMatch_source {tr : Trace α} {w w' : World α} (h : Reach tr w) {op : Op α}
    {ev : List Event} (hs : w.step op = .ok (w', ev)) {e : Nat} (he : Event.fullMatch e ∈ ev) :
    ∃ m a, op = .call m a ∧ tr.candidate m a e := by
  have hv := h.view.2
  cases op with
  | newSequence st =>
    have hspec := h.spec_step hs
    simp only [Spec.State.step, Option.some.injEq, Prod.mk.injEq] at hspec
    rw [← hspec.2] at he; simp at he
  | newMock =>
    have hspec := h.spec_step hs
    simp only [Spec.State.step, Option.some.injEq, Prod.mk.injEq] at hspec
    rw [← hspec.2] at he; simp at he
  | dropSequence s =>
    have hspec := h.spec_step hs
    simp only [Spec.State.step] at hspec
    split at hspec
    · simp only [Option.some.injEq, Prod.mk.injEq] at hspec
      rw [← hspec.2] at he
      obtain ⟨s, _, _, hh⟩ := release_mem he
      rcases hh with hh | ⟨k, n, hh⟩ <;> simp at hh
    · simp at hspec
  | expect m min max ss ps =>
    have hspec := h.spec_step hs
    simp only [Spec.State.step] at hspec
    split at hspec
    · split at hspec
      · simp only [Option.some.injEq, Prod.mk.injEq] at hspec
        rw [← hspec.2] at he; simp at he
      · simp only [Option.some.injEq, Prod.mk.injEq] at hspec
        rw [← hspec.2] at he; simp at he
    · simp at hspec
  | destroy e' =>
    have hspec := h.spec_step hs
    simp only [Spec.State.step] at hspec
    split at hspec
    · simp at hspec
    · rename_i x hfind
      simp only [Option.some.injEq, Prod.mk.injEq] at hspec
      rw [← hspec.2, List.mem_append, List.mem_cons] at he
      rcases he with (he | he) | he
      · simp at he
      · split at he <;> simp at he
      · obtain ⟨s, _, _, hh⟩ := release_mem he
        rcases hh with hh | ⟨k, n, hh⟩ <;> simp at hh
  | call m a =>
    obtain ⟨hev, _, _⟩ := call_spec h hs
    refine ⟨m, a, rfl, ?_⟩
    rw [hv.candidate_iff m a e]
    obtain ⟨us, last, hev', _, hcase⟩ := call_events (abs w) m a
    rw [hev, hev'] at he
    rcases hcase with ⟨x, older, hc, hl, _⟩ | ⟨_, _, hl, _⟩ | ⟨_, _, hl, _⟩
    · rw [hl] at he
      simp at he
      rw [hc, he]
      exact ⟨_, select_mem' _ _ _, rfl⟩
    · rw [hl] at he; simp at he
    · rw [hl] at he; simp at he

theorem decl_mono {tr tr' : Trace α} {e : Nat} {d : Decl α} (h : tr.decl e = some d) :
    Trace.decl (tr ++ tr') e = some d := by
  unfold Trace.decl at h ⊢
  rw [List.findSome?_append, h]; rfl

theorem attached_mono {tr tr' : Trace α} {e s : Nat} (h : tr.attached e s) :
    Trace.attached (tr ++ tr') e s := by
  obtain ⟨d, h1, h2⟩ := h
  exact ⟨d, decl_mono h1, h2⟩

theorem events_append (tr tr' : Trace α) : Trace.events (tr ++ tr') = tr.events ++ Trace.events tr' := by
  simp [Trace.events]

theorem matched_pos {tr : Trace α} {e : Nat} (h : Event.fullMatch e ∈ tr.events) : tr.matched e ≠ 0 := by
  unfold Trace.matched
  have := List.count_pos_iff.mpr h
  omega

theorem mem_events {tr : Trace α} {x : Event} : x ∈ tr.events ↔ ∃ st ∈ tr, x ∈ st.2 := by
  simp [Trace.events]

/-- A declared expectation was created by an earlier operation: it is declared in every history that
already knows a younger one. -/
theorem decl_of_later {pre post : Trace α} {w : World α} (h : Reach pre w) {e e' : Nat} {d' : Decl α} (hlt : e < e') (hd' : pre.decl e' = some d') :
    ∃ d, pre.decl e = some d ∧ Trace.decl (pre ++ post) e = some d := by
  have hv := h.view.2
  have := hv.decl_lt.mp ⟨d', hd'⟩
  obtain ⟨d, hd⟩ := hv.decl_lt.mpr (Nat.lt_trans hlt this)
  exact ⟨d, hd, decl_mono hd⟩

/-! ### What consuming leaves alone -/

theorem forEntries_frame (f : Sequence → Int → M Sequence) (l : List (Nat × Int)) :
    ∀ {h h' : Seqs}, forEntries f l h = .ok h' → ∀ s, s ∉ l.map (·.1) → h'[s]? = h[s]? := by
  induction l with
  | nil => intro h h' hf s _; simp [forEntries] at hf; rw [hf]
  | cons en l ih =>
    obtain ⟨t, i⟩ := en
    intro h h' hf s hs
    simp only [List.map_cons, List.mem_cons, not_or] at hs
    simp only [forEntries, bind, Except.bind] at hf
    cases hap : h.apply t (fun q => f q i) with
    | error x => rw [hap] at hf; simp at hf
    | ok h1 =>
      rw [hap] at hf
      rw [ih hf s hs.2]
      unfold Seqs.apply at hap
      simp only [bind, Except.bind] at hap
      split at hap
      · simp at hap
      · split at hap
        · simp at hap
        · simp only [pure, Except.pure, Except.ok.injEq] at hap
          rw [← hap, store_getElem?_ne hs.1]

theorem update_frame {c : Control} {h h' : Seqs} (hu : c.updateSequenceStates h = .ok h') (s : Nat)
    (hs : s ∉ c.entries.map (·.1)) : h'[s]? = h[s]? := by
  unfold Control.updateSequenceStates at hu
  split at hu
  · exact forEntries_frame _ _ hu s hs
  · split at hu
    · exact forEntries_frame _ _ hu s hs
    · simp at hu; rw [hu]

theorem consume_frame {tr : Trace α} {w w' : World α} (h : Reach tr w) {e : Nat} {x : Exp α}
    (hx : w.exps[e]? = some x) (hc : w.consume e = .ok w') :
    w'.colls = w.colls ∧
    (∀ e', e' ≠ e → w'.exps[e']? = w.exps[e']?) ∧
    (∀ s, ¬ tr.attached e s → w'.seqs[s]? = w.seqs[s]?) ∧
    (∃ x, w.exps[e]? = some x ∧
      w'.exps[e]? = some { x with control := { x.control with count := x.control.count + 1 } }) := by
  have hatt : ∀ s, ¬ tr.attached e s → s ∉ x.control.entries.map (·.1) := by
    intro s hn hs
    apply hn
    obtain ⟨d, hd, hxd⟩ := h.view.2.get (abs_mem hx)
    refine ⟨d, hd, ?_⟩
    have : (absExp e x).seqs = d.seqs := by rw [hxd]; rfl
    rw [← this]; exact hs
  unfold World.consume at hc
  simp only [bind, Except.bind] at hc
  have hder : w.deref e = .ok x := by
    unfold World.deref at hc ⊢
    rw [hx] at hc ⊢
    cases ha : x.alive with
    | true => simp [ha]
    | false => simp [ha] at hc
  rw [hder] at hc
  simp only at hc
  cases hcc : x.control.consume w.seqs with
  | error y => rw [hcc] at hc; simp at hc
  | ok r =>
    rw [hcc] at hc
    simp only [pure, Except.pure, Except.ok.injEq] at hc
    subst hc
    unfold Control.consume at hcc
    simp only [bind, Except.bind] at hcc
    split at hcc
    · simp at hcc
    · split at hcc
      · simp at hcc
      · split at hcc
        · simp at hcc
        · rename_i h1 hf
          split at hcc
          · simp at hcc
          · rename_i n hn
            split at hcc
            · simp at hcc
            · rename_i h2 hu
              simp only [pure, Except.pure, Except.ok.injEq] at hcc
              have hn' : n = x.control.count + 1 := by
                unfold toInt at hn
                split at hn
                · simp at hn; exact hn.symm
                · simp at hn
              refine ⟨rfl, ?_, ?_, x, hx, ?_⟩
              · intro e' hne
                have : ¬ e = e' := fun hh => hne hh.symm
                simp [this]
              · intro s hs
                rw [← hcc]
                show h2[s]? = _
                rw [update_frame hu s (hatt s hs), forEntries_frame _ _ hf s (hatt s hs)]
              · simp only [List.getElem?_set, if_true, getElem?_lt hx]
                rw [← hcc, hn']

theorem consume_some {w w' : World α} {e : Nat} (hw : w.consume e = .ok w') : ∃ x, w.exps[e]? = some x := by
  unfold World.consume World.deref at hw
  cases hx : w.exps[e]? with
  | none => rw [hx] at hw; simp [bind, Except.bind] at hw
  | some x => exact ⟨x, rfl⟩

theorem handleCall_consume {w w' : World α} {m : Nat} {a : α} {ev : List Event} {e : Nat}
    (hs : w.handleCall m a = .ok (w', ev, some e)) : w.consume e = .ok w' := by
  unfold World.handleCall at hs
  split at hs
  · simp at hs
  · simp only [bind, Except.bind] at hs
    split at hs
    · simp at hs
    · split at hs
      · split at hs
        · simp at hs
        · split at hs
          · simp at hs
          · rename_i hw
            simp only [pure, Except.pure, Except.ok.injEq, Prod.mk.injEq, Option.some.injEq] at hs
            obtain ⟨rfl, _, rfl⟩ := hs
            exact hw
      · split at hs <;> simp [pure, Except.pure] at hs

/-! ### Removing an expectation from the storages -/

/-- The world in which expectation `e` has never been pushed to its storage. -/
def World.without (w : World α) (e : Nat) : World α :=
  { w with colls := w.colls.map (fun es => es.filter (fun i => i != e)) }

theorem scan_without (w : World α) (a : α) (e : Nat) (x : Exp α) (hx : w.exps[e]? = some x)
    (hth : ∃ p ∈ x.policies, p.accepts a = none) (es : List Nat) :
    ∀ {r : Scan}, scan w a es = .ok r →
    scan (w.without e) a (es.filter (fun i => i != e)) = .ok { r with thrown := r.thrown.filter (fun i => i != e) }
      ∧ (∀ rep ∈ r.full, rep.exp ≠ e) := by
  have hev : evalPolicies a x.policies = none := by
    obtain ⟨p, hp, hpn⟩ := hth
    rw [evalPolicies_eq]
    have : x.policies.any (fun p => p.accepts a == none) = true :=
      List.any_eq_true.mpr ⟨p, hp, by rw [hpn]; rfl⟩
    rw [if_pos this]
  induction es with
  | nil => intro r hr; simp [scan] at hr; subst hr; exact ⟨rfl, by simp⟩
  | cons i es ih =>
    intro r hr
    simp only [scan, bind, Except.bind] at hr
    cases hd : w.deref i with
    | error y => rw [hd] at hr; simp at hr
    | ok y =>
      rw [hd] at hr
      simp only at hr
      cases hm : y.matchReport i w.seqs a with
      | error z => rw [hm] at hr; simp at hr
      | ok rep =>
        rw [hm] at hr
        simp only at hr
        cases hsc : scan w a es with
        | error z => rw [hsc] at hr; simp at hr
        | ok r0 =>
          rw [hsc] at hr
          simp only at hr
          obtain ⟨ih1, ih2⟩ := ih hsc
          by_cases hie : i = e
          · subst hie
            have hyx : y = x := by
              unfold World.deref at hd
              rw [hx] at hd
              simp only at hd
              split at hd
              · simp at hd; exact hd.symm
              · simp at hd
            subst hyx
            have hrep : rep = none := by
              unfold Exp.matchReport at hm
              simp only [bind, Except.bind, hev] at hm
              split at hm
              · simp at hm
              · simp [pure, Except.pure] at hm; exact hm.symm
            subst hrep
            simp only [pure, Except.pure, Except.ok.injEq] at hr
            subst hr
            refine ⟨?_, ih2⟩
            simp only [List.filter_cons, bne_self_eq_false, Bool.false_eq_true, if_false]
            exact ih1
          · have hne : (i != e) = true := by simp [hie]
            have hd' : (w.without e).deref i = .ok y := hd
            have hm' : y.matchReport i (w.without e).seqs a = .ok rep := hm
            have hrepexp : ∀ rp, rep = some rp → rp.exp = i := by
              intro rp hrp
              subst hrp
              unfold Exp.matchReport at hm
              simp only [bind, Except.bind] at hm
              split at hm
              · simp at hm
              · split at hm
                · simp [pure, Except.pure] at hm
                · simp only [pure, Except.pure, Except.ok.injEq, Option.some.injEq] at hm
                  rw [← hm]
            simp only [List.filter_cons, hne, if_true, scan, hd', hm', ih1, bind, Except.bind]
            cases rep with
            | none =>
              simp only [pure, Except.pure, Except.ok.injEq] at hr ⊢
              subst hr
              exact ⟨by simp [hne], ih2⟩
            | some rp =>
              simp only at hr ⊢
              cases hres : evaluateMatchReport rp with
              | none =>
                rw [hres] at hr
                simp only [pure, Except.pure, Except.ok.injEq] at hr ⊢
                subst hr
                exact ⟨rfl, ih2⟩
              | inapplicable =>
                rw [hres] at hr
                simp only [pure, Except.pure, Except.ok.injEq] at hr ⊢
                subst hr
                exact ⟨rfl, ih2⟩
              | full =>
                rw [hres] at hr
                simp only [pure, Except.pure, Except.ok.injEq] at hr ⊢
                subst hr
                refine ⟨rfl, ?_⟩
                intro rp' hrp'
                simp only [List.mem_cons] at hrp'
                rcases hrp' with rfl | hrp'
                · rw [hrepexp _ rfl]; exact hie
                · exact ih2 rp' hrp'

theorem consume_without {w w' : World α} {i e : Nat} (h : w.consume i = .ok w') :
    (w.without e).consume i = .ok (w'.without e) := by
  unfold World.consume at h ⊢
  have hd : (w.without e).deref i = w.deref i := rfl
  have hs : (w.without e).seqs = w.seqs := rfl
  rw [hd, hs]
  simp only [bind, Except.bind] at h ⊢
  cases hd' : w.deref i with
  | error y => rw [hd'] at h; simp at h
  | ok x =>
    rw [hd'] at h
    simp only at h ⊢
    cases hc : x.control.consume w.seqs with
    | error y => rw [hc] at h; simp at h
    | ok r =>
      rw [hc] at h
      simp only [pure, Except.pure, Except.ok.injEq] at h ⊢
      rw [← h]
      rfl

theorem handleCall_without {w w' : World α} {m : Nat} {a : α} {ev : List Event} {r : Option Nat}
    (hs : w.handleCall m a = .ok (w', ev, r)) {e : Nat} {x : Exp α} (hx : w.exps[e]? = some x)
    (hth : ∃ p ∈ x.policies, p.accepts a = none) :
    (w.without e).handleCall m a =
      .ok (w'.without e, ev.filter (fun y => y != .unhandled e), r) := by
  have hbk : ∀ (l : List Nat), (l.filter (fun i => i != e)).map Event.unhandled =
      (l.map Event.unhandled).filter (fun y => y != .unhandled e) := by
    intro l
    rw [List.filter_map]
    congr 1
    apply List.filter_congr
    intro i _
    by_cases hie : i = e
    · simp [hie]
    · have : Event.unhandled i ≠ Event.unhandled e := by simpa using hie
      simp only [Function.comp, bne_iff_ne.mpr hie, bne_iff_ne.mpr this]
  unfold World.handleCall at hs
  split at hs
  · simp at hs
  · rename_i es hes
    simp only [bind, Except.bind] at hs
    have hes' : (w.without e).colls[m]? = some (es.filter (fun i => i != e)) := by
      simp [World.without, hes]
    split at hs
    · simp at hs
    · rename_i sc hsc
      obtain ⟨h1, h2⟩ := scan_without w a e x hx hth _ hsc
      unfold World.handleCall
      rw [hes']
      simp only [bind, Except.bind, ← List.filter_reverse, h1]
      split at hs
      · rename_i hfull
        simp only [hfull, if_true]
        split at hs
        · simp at hs
        · rename_i best hb
          split at hs
          · simp at hs
          · rename_i w1 hw1
            rw [consume_without hw1]
            simp only [pure, Except.pure, Except.ok.injEq, Prod.mk.injEq] at hs ⊢
            obtain ⟨rfl, rfl, rfl⟩ := hs
            refine ⟨rfl, ?_, rfl⟩
            rw [List.filter_append, ← hbk]
            congr 1
      · rename_i hfull
        simp only [hfull]
        split at hs
        · rename_i hin
          simp only [pure, Except.pure, Except.ok.injEq, Prod.mk.injEq] at hs
          obtain ⟨rfl, rfl, rfl⟩ := hs
          simp only [hin, if_true, pure, Except.pure, List.filter_append, ← hbk]
          rfl
        · rename_i hin
          simp only [pure, Except.pure, Except.ok.injEq, Prod.mk.injEq] at hs
          obtain ⟨rfl, rfl, rfl⟩ := hs
          simp only [hin, pure, Except.pure, List.filter_append, ← hbk]
          rfl

end Mimic
