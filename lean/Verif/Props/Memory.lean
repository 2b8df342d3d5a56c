import Verif.Proofs.Memory
import Verif.Proofs.Own
import Verif.Props.Selection
import Verif.Props.SequenceEnd

/-!
# C90: running out of memory
-/

set_option autoImplicit false

namespace Mimic.Memory

variable {α : Type}

/-- C90: whatever memory does, everything goes on as in a program in which memory is no concern: calls that ended with
`std::bad_alloc` did not happen, expectations that could not be asked threw, and so on (`asIf`). So all theorems about
histories apply. -/
theorem C90_as_if {tr : MTrace α} {w : World α} (h : MReach tr w) : ∃ W, Reach (asIf tr) W := ⟨_, h.sim⟩

/-- C90: with memory enough, everything is as usual. -/
theorem C90_plenty (w : World α) (op : Op α) :
    step w (plenty op) = (w.step op).map (fun r => (r.1, End.done r.2)) := by
  have hends : ∀ r : World α × List Event, ends ⟨false, false⟩ r = .ok r := by
    intro r; simp [ends]
  cases op with
  | newSequence st => rfl
  | newMock => rfl
  | dropSequence s =>
    simp only [plenty, step, bind, Except.bind]
    cases w.step (.dropSequence s) with
    | error e => rfl
    | ok r => simp only [hends]; rfl
  | destroy e =>
    simp only [plenty, step, destroy, World.step, bind, Except.bind]
    cases w.destroyExp e with
    | error e => rfl
    | ok r => simp only [hends]; rfl
  | expect m min max ss ps =>
    simp only [plenty, step, expect, World.step]
    unfold World.expect
    cases hc : w.colls[m]? with
    | none => rfl
    | some es =>
      simp only
      split
      · cases ht : TimesConfig.make min max with
        | none => rfl
        | some t =>
          cases hs : seqConfig ss with
          | none => rfl
          | some ss' =>
            simp only [Bool.false_and, Bool.false_eq_true, if_false, bind, Except.bind]
            cases Control.make t ss' w.seqs with
            | error e => rfl
            | ok r =>
              simp only [check]
              by_cases hcon : (!es.contains w.exps.length) = true
              · rw [if_pos hcon]; rfl
              · rw [if_neg hcon]; rfl
      · rfl
  | call m a =>
    have hscan : ∀ es, scan w a .good es = (Mimic.scan w a es).map .all := by
      intro es
      induction es with
      | nil => rfl
      | cons e rest ih =>
        simp only [scan, Mimic.scan, bind, Except.bind]
        cases w.deref e with
        | error s => rfl
        | ok x =>
          simp only
          cases x.matchReport e w.seqs a with
          | error s => rfl
          | ok rep =>
            simp only [CallPoints.good, Bool.false_eq_true, if_false]
            rw [show scan w a ⟨fun _ => false, fun _ => false, fun _ => false, false, false⟩ rest =
              (Mimic.scan w a rest).map .all from ih]
            cases rep with
            | none =>
              simp only
              cases Mimic.scan w a rest <;> rfl
            | some rep =>
              simp only
              cases Mimic.scan w a rest with
              | error s => rfl
              | ok r =>
                simp only [Except.map, pure, Except.pure]
                cases evaluateMatchReport rep <;> rfl
    simp only [plenty, step, handleCall, World.step, World.handleCall]
    cases w.colls[m]? with
    | none => rfl
    | some es =>
      simp only [bind, Except.bind, hscan]
      cases Mimic.scan w a es.reverse with
      | error s => rfl
      | ok r =>
        simp only [Except.map, CallPoints.good, Bool.false_eq_true, if_false, Bool.or_false]
        split
        · cases pickBestMatch r.full with
          | error s => rfl
          | ok b =>
            simp only
            cases w.consume b.exp <;> rfl
        · split <;> rfl

/-- C90: how a call ends: as usual; or `std::bad_alloc` comes out, nothing is changed, and nothing is reported but
expectations that threw or could not be asked; or the program terminates, because memory ran out while this was reported,
or while the match was. -/
theorem C90_call {tr : MTrace α} {w : World α} (h : MReach tr w) {m : Nat} (hm : Event.mockCreated m ∈ events tr) (a : α)
    (p : CallPoints) :
    (∃ w' ev, step w (.call m a p) = .ok (w', .done ev)) ∨
    (∃ t : List Nat, step w (.call m a p) = .ok (w, .threw (t.map Event.unhandled)) ∧
      (∀ e ∈ t, throws tr m a e ∨ (live tr e ∧ p.asking e = true)) ∧
      (p.report = true ∨ p.reporter = true ∨ ∃ e d, live tr e ∧ declOf tr e = some d ∧ d.mock = m ∧ p.keeping e = true)) ∨
    (∃ why, step w (.call m a p) = .error (.terminate why)) ∧
      ((∃ e, (throws tr m a e ∨ (live tr e ∧ p.asking e = true)) ∧ p.telling e = true) ∨
       (p.reporter = true ∧ ∃ e, accepts tr m a e ∧ p.asking e = false)) := by
  have hc := h.corr
  have hr := h.sim
  have hml : m < w.colls.length := (hr.view.2.mocks m).mp ((hc.mocks m).mpr hm)
  obtain ⟨W, ev, o, h1, h2⟩ := lift_call hr m a p.asking hml
  obtain ⟨us, last, hev, hus, hcase⟩ := C10_outcome hr h2
  have hun : ∀ e, Event.unhandled e ∈ ev → throws tr m a e ∨ (live tr e ∧ p.asking e = true) := by
    intro e he
    rw [hev, List.mem_append] at he
    have : e ∈ us := by
      rcases he with he | he
      · obtain ⟨x, hx, hxe⟩ := List.mem_map.mp he
        injection hxe with hxe
        exact hxe ▸ hx
      · rw [List.mem_singleton] at he
        rcases hcase with ⟨_, _, hl⟩ | ⟨_, _, _, hl, _⟩ | ⟨_, _, hl, _⟩ <;> rw [hl] at he <;> cases he
    have := (hc.throws_iff m a p.asking e).mp ((hus.2 e).mp this)
    rcases this with h3 | ⟨h3, _, h4⟩
    · exact Or.inl h3
    · exact Or.inr ⟨h3, h4⟩
  rcases call_cases w m a p h1 with ⟨w2, h3, _⟩ | ⟨t, h3, h4, h5, _⟩ | ⟨⟨why, h3⟩, h5⟩
  · exact Or.inl ⟨w2, ev, h3⟩
  · right; left
    refine ⟨t, h3, fun e he => hun e (h4 e he), ?_⟩
    rcases h5 with h5 | ⟨h5, _⟩ | ⟨es, hes, e, he, hk⟩
    · exact Or.inl h5
    · exact Or.inr (Or.inl h5)
    · right; right
      have hes' : (liftWorld w).colls[m]? = some es := hes
      have h6 := hr.view.1.colls m es hes'
      rw [h6] at he
      obtain ⟨x, hx, hid⟩ := List.mem_map.mp he
      obtain ⟨hxm, hxp⟩ := List.mem_filter.mp hx
      obtain ⟨D, hD, hxD⟩ := hr.view.2.get hxm
      simp only [Bool.and_eq_true, beq_iff_eq, decide_eq_true_eq] at hxp
      have hl : (asIf tr).live x.id := (hr.view.2.live_iff x.id).mpr ⟨x, hxm, rfl, hxp.1⟩
      obtain ⟨d, hd, rfl⟩ := hc.live_decl hl hD
      subst hid
      refine ⟨x.id, d, (hc.live_iff _).mp hl, hd, ?_, hk⟩
      have : x.mock = d.mock := by rw [hxD]; rfl
      rw [hxp.2] at this
      exact this.symm
  · right; right
    refine ⟨⟨why, h3⟩, ?_⟩
    rcases h5 with ⟨e, he, ht⟩ | ⟨_, hrp, ho⟩
    · exact Or.inl ⟨e, hun e he, ht⟩
    · right
      refine ⟨hrp, ?_⟩
      cases o with
      | none => exact absurd rfl ho
      | some e =>
        have hfm : Event.fullMatch e ∈ ev := (Own.handleCall_full h1 e).1.mpr rfl
        rcases hcase with ⟨e', hcand, hl⟩ | ⟨_, _, _, hl, _⟩ | ⟨_, _, hl, _⟩
        · exact ⟨e', (hc.accepts_iff m a p.asking e').mp hcand.1⟩
        all_goals
          rw [hev, hl] at hfm
          simp at hfm

/-- C90: exactly when a call terminates the program, if all reports can be kept. -/
theorem C90_terminates {tr : MTrace α} {w : World α} (h : MReach tr w) {m : Nat} (hm : Event.mockCreated m ∈ events tr)
    (a : α) (p : CallPoints) (hk : ∀ e, p.keeping e = false) :
    (∃ why, step w (.call m a p) = .error (.terminate why)) ↔
      (∃ e, (throws tr m a e ∨ (live tr e ∧ (∃ d, declOf tr e = some d ∧ d.mock = m) ∧ p.asking e = true)) ∧
        p.telling e = true) ∨
      (p.report = false ∧ p.reporter = true ∧
        ∃ e, accepts tr m a e ∧ p.asking e = false ∧ (asIf tr).applicable e) := by
  have hc := h.corr
  have hr := h.sim
  have hml : m < w.colls.length := (hr.view.2.mocks m).mp ((hc.mocks m).mpr hm)
  obtain ⟨W, ev, o, h1, h2⟩ := lift_call hr m a p.asking hml
  obtain ⟨us, last, hev, hus, hcase⟩ := C10_outcome hr h2
  have hun : ∀ e, Event.unhandled e ∈ ev ↔
      throws tr m a e ∨ (live tr e ∧ (∃ d, declOf tr e = some d ∧ d.mock = m) ∧ p.asking e = true) := by
    intro e
    rw [← hc.throws_iff m a p.asking e, ← hus.2 e, hev]
    have hl : last ≠ Event.unhandled e := by
      rcases hcase with ⟨_, _, hl⟩ | ⟨_, _, _, hl, _⟩ | ⟨_, _, hl, _⟩ <;> rw [hl] <;> simp
    simp [Ne.symm hl]
  have hcand : (∃ e, accepts tr m a e ∧ p.asking e = false ∧ (asIf tr).applicable e) ↔ o ≠ none := by
    have h3 : (∃ e, accepts tr m a e ∧ p.asking e = false ∧ (asIf tr).applicable e) ↔
        ∃ e, (asIf tr).candidate m (a, p.asking) e := by
      refine exists_congr fun e => ?_
      unfold Trace.candidate
      rw [hc.accepts_iff, and_assoc]
    rw [h3]
    constructor
    · rintro ⟨e, he⟩ rfl
      rcases hcase with ⟨e', _, hl⟩ | ⟨hno, _⟩ | ⟨hno, _⟩
      · have := (Own.handleCall_full h1 e').1.mp (by rw [hev, hl]; simp)
        simp at this
      · exact hno e he
      · exact hno e he.1
    · intro ho
      obtain ⟨e, rfl⟩ := Option.ne_none_iff_exists'.mp ho
      have hfm : Event.fullMatch e ∈ ev := (Own.handleCall_full h1 e).1.mpr rfl
      rcases hcase with ⟨e', hcd, _⟩ | ⟨_, _, _, hl, _⟩ | ⟨_, _, hl, _⟩
      · exact ⟨e', hcd⟩
      all_goals
        rw [hev, hl] at hfm
        simp at hfm
  rw [hcand]
  have hex : (∃ e, (throws tr m a e ∨ (live tr e ∧ (∃ d, declOf tr e = some d ∧ d.mock = m) ∧ p.asking e = true)) ∧
      p.telling e = true) ↔ ∃ e, Event.unhandled e ∈ ev ∧ p.telling e = true :=
    exists_congr fun e => by rw [hun e]
  rw [hex]
  rcases call_cases w m a p h1 with ⟨w2, h3, _, h4, h5⟩ | ⟨t, h3, _, _, h4⟩ | ⟨⟨why, h3⟩, h4⟩
  · rw [h3]
    simp only [reduceCtorEq, exists_false, false_iff]
    rintro (⟨e, he, ht⟩ | ⟨_, h6, h7⟩)
    · rw [h4 e he] at ht; simp at ht
    · rw [h5 h7] at h6; simp at h6
  · rw [h3]
    simp only [reduceCtorEq, exists_false, false_iff]
    rcases h4 with ⟨e, he⟩ | ⟨h4, h5⟩
    · rw [hk e] at he; simp at he
    · rintro (⟨e, he, ht⟩ | ⟨h6, _, h7⟩)
      · rw [h4 e he] at ht; simp at ht
      · rcases h5 with h5 | h5
        · rw [h5] at h6; simp at h6
        · exact h7 h5
  · exact ⟨fun _ => h4, fun _ => ⟨why, h3⟩⟩

/-- C90: a call that ends as usual does so according to the rules applied to the expectations that could be asked. Those
that could not are reported like those that threw. -/
theorem C90_answer {tr : MTrace α} {w w' : World α} (h : MReach tr w) {m : Nat} {a : α} {p : CallPoints} {ev : List Event}
    (hs : step w (.call m a p) = .ok (w', .done ev)) :
    ∃ us last, ev = us.map Event.unhandled ++ [last] ∧
      YoungestFirst (fun e => throws tr m a e ∨ (live tr e ∧ (∃ d, declOf tr e = some d ∧ d.mock = m) ∧ p.asking e = true))
        us ∧
      ((∃ x older e, YoungestFirst (fun e => accepts tr m a e ∧ p.asking e = false ∧ (asIf tr).applicable e) (x :: older) ∧
          (asIf tr).Chosen x older e ∧ last = .fullMatch e) ∨
       ((∀ e, accepts tr m a e → p.asking e = false → ¬ (asIf tr).applicable e) ∧
          ∃ es, last = .inapplicable es ∨ last = .noMatch es)) := by
  have hc := h.corr
  have hr := h.sim
  have hst : (liftWorld w).step (.call m (a, p.asking)) = .ok (liftWorld w', ev) := by
    have hml : m < w.colls.length := by
      cases hcm : w.colls[m]? with
      | none => simp [step, handleCall, hcm] at hs
      | some es => exact (List.getElem?_eq_some_iff.mp hcm).1
    obtain ⟨W, ev', o, h1, h2⟩ := lift_call hr m a p.asking hml
    rcases call_cases w m a p h1 with ⟨w2, h3, rfl, _⟩ | ⟨t, h3, _⟩ | ⟨⟨why, h3⟩, _⟩
    · rw [hs] at h3
      simp only [Except.ok.injEq, Prod.mk.injEq, End.done.injEq] at h3
      obtain ⟨rfl, rfl⟩ := h3
      exact h2
    · rw [hs] at h3; simp at h3
    · rw [hs] at h3; simp at h3
  have hcand : (asIf tr).candidate m (a, p.asking) =
      fun e => accepts tr m a e ∧ p.asking e = false ∧ (asIf tr).applicable e := by
    funext e
    apply propext
    unfold Trace.candidate
    rw [hc.accepts_iff, and_assoc]
  have hthr : (asIf tr).throws m (a, p.asking) =
      fun e => throws tr m a e ∨ (live tr e ∧ (∃ d, declOf tr e = some d ∧ d.mock = m) ∧ p.asking e = true) := by
    funext e
    exact propext (hc.throws_iff m a p.asking e)
  obtain ⟨us, last, hev, hus, hcase⟩ := C10_outcome hr hst
  refine ⟨us, last, hev, hthr ▸ hus, ?_⟩
  have hno : ∀ e, Event.fullMatch e ∈ ev ↔ last = .fullMatch e := by
    intro e; rw [hev]; simp [eq_comm]
  rcases C08_selection hr hst with ⟨h1, h2⟩ | ⟨x, older, e, h1, h2, h3⟩
  · right
    refine ⟨fun e ha hk hap => h1 e (by rw [hcand]; exact ⟨ha, hk, hap⟩), ?_⟩
    rcases hcase with ⟨e, hce, _⟩ | ⟨_, _, es, hl, _⟩ | ⟨_, es, hl, _⟩
    · exact absurd hce (h1 e)
    · exact ⟨es, Or.inl hl⟩
    · exact ⟨es, Or.inr hl⟩
  · left
    exact ⟨x, older, e, hcand ▸ h1, h2, (hno e).mp ((h3 e).mpr rfl)⟩

/-- C90: no shortage of memory makes an expectation resolve a call it does not accept, nor more calls than its limit
allows. -/
theorem C90_sound {tr : MTrace α} {w : World α} (h : MReach tr w) {e : Nat} {d : Decl α} (hd : declOf tr e = some d) :
    (matched tr e : Int) ≤ d.max ∧
    ∀ (m : Nat) (a : α) (p : CallPoints) (w' : World α) (out : End), step w (.call m a p) = .ok (w', out) →
      Event.fullMatch e ∈ out.observed → accepts tr m a e ∧ (matched tr e : Int) < d.max := by
  have hc := h.corr
  have hr := h.sim
  refine ⟨?_, ?_⟩
  · have := C02_upper_limit hr (hc.decl_of hd)
    rw [hc.matched e] at this
    exact this
  · intro m a p w' out hs hm
    cases out with
    | failed e' => simp [End.observed] at hm
    | threw ev =>
      have hml : m < w.colls.length := by
        cases hcm : w.colls[m]? with
        | none => simp [step, handleCall, hcm] at hs
        | some es => exact (List.getElem?_eq_some_iff.mp hcm).1
      rcases C90_call h ((hc.mocks m).mp ((hr.view.2.mocks m).mpr hml)) a p with ⟨w2, ev2, h3⟩ | ⟨t, h3, _⟩ | ⟨⟨why, h3⟩, _⟩
      · rw [hs] at h3; simp at h3
      · rw [hs] at h3
        simp only [Except.ok.injEq, Prod.mk.injEq, End.threw.injEq] at h3
        rw [h3.2] at hm
        simp [End.observed] at hm
      · rw [hs] at h3; simp at h3
    | done ev =>
      obtain ⟨us, last, hev, _, hcase⟩ := C90_answer h hs
      have hl : last = .fullMatch e := by
        simp only [End.observed, hev, List.mem_append, List.mem_map, reduceCtorEq, and_false, exists_false, false_or,
          List.mem_singleton] at hm
        exact hm.symm
      rcases hcase with ⟨x, older, e', hy, hch, hl'⟩ | ⟨_, es, hl' | hl'⟩
      · rw [hl] at hl'
        injection hl' with hl'
        subst hl'
        have hmem : e ∈ x :: older := by
          clear hy hl hev hd hm
          induction hch with
          | done x => simp
          | move _ _ ih => exact List.mem_cons_of_mem _ ih
          | stay _ _ ih =>
            rcases List.mem_cons.mp ih with rfl | ih
            · simp
            · exact List.mem_cons_of_mem _ (List.mem_cons_of_mem _ ih)
        obtain ⟨ha, _, ⟨D, hD, hlt⟩, _⟩ := (hy.2 e).mp hmem
        rw [hc.decl_of hd, Option.some.injEq] at hD
        subst hD
        rw [hc.matched e] at hlt
        exact ⟨ha, hlt⟩
      · rw [hl] at hl'; cases hl'
      · rw [hl] at hl'; cases hl'

/-- C90: a call that nothing accepts never returns as if it had been expected, whatever memory does. -/
theorem C90_unexpected {tr : MTrace α} {w w' : World α} (h : MReach tr w) {m : Nat} {a : α} {p : CallPoints} {out : End}
    (hs : step w (.call m a p) = .ok (w', out)) (hno : ∀ e, ¬ accepts tr m a e) : ∀ e, Event.fullMatch e ∉ out.observed := by
  intro e he
  have hc := (h.step hs).corr
  have hr := h.sim
  cases hd : declOf tr e with
  | some d => exact hno e ((C90_sound h hd).2 m a p w' out hs he).1
  | none =>
    cases out with
    | failed e' => simp [End.observed] at he
    | threw ev =>
      have hml : m < w.colls.length := by
        cases hcm : w.colls[m]? with
        | none => simp [step, handleCall, hcm] at hs
        | some es => exact (List.getElem?_eq_some_iff.mp hcm).1
      rcases C90_call h ((h.corr.mocks m).mp ((hr.view.2.mocks m).mpr hml)) a p with ⟨w2, ev2, h3⟩ | ⟨t, h3, _⟩ | ⟨⟨why, h3⟩, _⟩
      · rw [hs] at h3; simp at h3
      · rw [hs] at h3
        simp only [Except.ok.injEq, Prod.mk.injEq, End.threw.injEq] at h3
        rw [h3.2] at he
        simp [End.observed] at he
      · rw [hs] at h3; simp at h3
    | done ev =>
      obtain ⟨us, last, hev, _, hcase⟩ := C90_answer h hs
      rcases hcase with ⟨x, older, e', hy, _, _⟩ | ⟨_, es, hl | hl⟩
      · exact hno x ((hy.2 x).mp (by simp)).1
      · rw [hl] at hev; rw [hev] at he; simp [End.observed] at he
      · rw [hl] at hev; rw [hev] at he; simp [End.observed] at he

/-- C90: how the creation of an expectation ends, if there is nothing wrong with it (`asIf tr` says what exists): the
program terminates if the expectation cannot be attached to a sequence or no handle can be made; if the object cannot be
made, `std::bad_alloc` comes out. -/
theorem C90_create {tr : MTrace α} {w : World α} (h : MReach tr w) {m : Nat} {min max : Int} {ss : List Nat}
    (ps : List (Policy α)) (p : CreatePoints) (hv : (asIf tr).valid (.expect m min max ss [])) (hlim : 0 ≤ min ∧ min ≤ max)
    (hnd : ss.Nodup) (hcap : ∀ s ∈ ss, ¬ (asIf tr).atCapacity s) :
    ((p.attaching = true ∧ ss ≠ [] ∨ p.object = false ∧ p.handle = true) ∧
      ∃ why, step w (.expect m min max ss ps p) = .error (.terminate why)) ∨
    (¬ (p.attaching = true ∧ ss ≠ []) ∧ p.object = true ∧
      ∃ w' e, step w (.expect m min max ss ps p) = .ok (w', .failed e)) ∨
    (¬ (p.attaching = true ∧ ss ≠ []) ∧ p.object = false ∧ p.handle = false ∧
      ∃ w' e, step w (.expect m min max ss ps p) = .ok (w', .done [.created e])) := by
  have hr := h.sim
  have hok : ∃ r, w.expect m min max ss ps = .ok r := by
    have hv' : (asIf tr).valid (.expect m min max ss (guard w.exps.length :: ps.map lift)) := hv
    have hno : ¬ (asIf tr).overflows (.expect m min max ss (guard w.exps.length :: ps.map lift)) := by
      rintro ⟨_, _, s, hs, hc⟩
      exact hcap s hs hc
    obtain ⟨W, ev, hW⟩ := (C17_progress hr _).1 hv' hno
    have := lift_expect w m min max ss ps
    rw [show (liftWorld w).expect m min max ss (guard w.exps.length :: ps.map lift) = .ok (W, ev) from hW] at this
    cases he : w.expect m min max ss ps with
    | error e => rw [he] at this; simp [Except.map] at this
    | ok r => exact ⟨r, rfl⟩
  obtain ⟨⟨w1, ev⟩, he⟩ := hok
  have htm : TimesConfig.make min max = some ⟨min, max⟩ := by
    unfold TimesConfig.make
    rw [if_neg (by omega)]
  have hsc : seqConfig ss = some ss := by rw [seqConfig_eq, if_pos hnd]
  have hinner := he
  unfold World.expect at hinner
  simp only [step, expect]
  cases hc : w.colls[m]? with
  | none => simp [hc] at hinner
  | some es =>
    simp only [hc, htm, hsc] at hinner ⊢
    by_cases hall : (ss.all w.hasHandle && isInt min && isInt max) = true
    · rw [if_pos hall] at hinner ⊢
      by_cases h1 : (p.attaching && !ss.isEmpty) = true
      · rw [if_pos h1]
        left
        simp only [Bool.and_eq_true, Bool.not_eq_true', List.isEmpty_eq_false_iff] at h1
        exact ⟨Or.inl h1, _, rfl⟩
      · rw [if_neg h1]
        have h1' : ¬ (p.attaching = true ∧ ss ≠ []) := by
          simpa only [Bool.and_eq_true, Bool.not_eq_true', List.isEmpty_eq_false_iff] using h1
        cases hm : Control.make ⟨min, max⟩ ss w.seqs with
        | error e => simp [hm, bind, Except.bind] at hinner
        | ok r =>
          by_cases h2 : p.object = true
          · rw [if_pos h2]
            right; left
            exact ⟨h1', h2, _, _, by simp only [Fragile.finalizeThrows, hm, bind, Except.bind]; rfl⟩
          · rw [if_neg h2]
            have h2' : p.object = false := by simpa using h2
            by_cases h3 : p.handle = true
            · rw [if_pos h3]
              exact Or.inl ⟨Or.inr ⟨h2', h3⟩, _, rfl⟩
            · rw [if_neg h3]
              right; right
              refine ⟨h1', h2', by simpa using h3, ?_⟩
              have hev : ev = [.created w.exps.length] := by
                simp only [hm, check, bind, Except.bind] at hinner
                split at hinner
                · simp at hinner
                · simp only [pure, Except.pure, Except.ok.injEq, Prod.mk.injEq] at hinner
                  exact hinner.2.symm
              exact ⟨w1, w.exps.length, by simp only [he, bind, Except.bind, hev]; rfl⟩
    · rw [if_neg hall] at hinner; simp at hinner

/-- C90: what a failed creation leaves behind: if it asked for at least one call and for a sequence, no expectation that is
attached to this sequence later can ever resolve a call (see C55). -/
theorem C90_blocks {tr : MTrace α} {w : World α} (h : MReach tr w) {e0 e s : Nat} {d0 d : Decl α}
    (hf : failedOf tr e0 = some d0) (hmin : 1 ≤ d0.min) (hs : s ∈ d0.seqs) (hd : declOf tr e = some d) (hsd : s ∈ d.seqs)
    (hlt : e0 < e) : matched tr e = 0 := by
  have hc := h.corr
  have hr := h.sim
  have hn : declOf tr e0 = none := by
    cases hd' : declOf tr e0 with
    | none => rfl
    | some d' =>
      have := hc.excl e0 (by simp [hd'])
      rw [hf] at this; simp at this
  have hd0 : (asIf tr).decl e0 = some (liftDecl e0 d0) := by rw [hc.decl e0, hn, hf]; rfl
  have hm0 : (asIf tr).matched e0 = 0 := by rw [hc.matched]; exact hc.dead e0 (by simp [hf])
  have hda : (asIf tr).attached e s := ⟨_, hc.decl_of hd, hsd⟩
  rw [← hc.matched]
  apply Classical.byContradiction
  intro hne
  have hmem : Event.fullMatch e ∈ (asIf tr).events := List.count_pos_iff.mp (Nat.pos_of_ne_zero hne)
  obtain ⟨st, hst, hin⟩ := List.mem_flatMap.mp hmem
  obtain ⟨pre, post, hsplit⟩ := List.append_of_mem hst
  rw [hsplit] at hr
  obtain ⟨h1, h2, _⟩ := C05_order (op := st.1) (ev := st.2) hr hin hlt
    (by rw [← hsplit]; exact ⟨_, hd0, hs⟩) (by rw [← hsplit]; exact hda)
  obtain ⟨dd, hdd, _⟩ := h1
  apply h2
  have hdd' : Trace.decl (asIf tr) e0 = some dd := by rw [hsplit]; exact decl_mono hdd
  rw [hd0, Option.some.injEq] at hdd'
  subst hdd'
  refine ⟨_, hdd, ?_⟩
  have hle : Trace.matched pre e0 ≤ (asIf tr).matched e0 := by
    rw [hsplit]
    unfold Trace.matched Trace.events
    rw [List.flatMap_append, List.count_append]
    omega
  have : (liftDecl e0 d0).min = d0.min := rfl
  omega

/-- C90: the end of an expectation that exists. It is gone afterwards in any case; if it has resolved too few calls (or a
policy is not satisfied), this is reported, or `std::bad_alloc` comes out: it never goes unnoticed. -/
theorem C90_end {tr : MTrace α} {w : World α} (h : MReach tr w) {e : Nat} (hl : live tr e) (p : EndPoints) :
    ∃ d, declOf tr e = some d ∧
      ((∃ why, step w (.destroy e p) = .error (.terminate why) ∧ p.ending = true) ∨
       ∃ w' out, step w (.destroy e p) = .ok (w', out) ∧ Event.destroyed e ∈ out.observed ∧
        (((matched tr e : Int) < d.min ∨ ∃ q ∈ d.policies, q.isSatisfied = false) →
          if p.telling then ∃ ev, out = .threw ev else ∃ ev, out = .done ev ∧ Event.unfulfilled e ∈ ev) ∧
        (¬ ((matched tr e : Int) < d.min ∨ ∃ q ∈ d.policies, q.isSatisfied = false) →
          ∃ ev, out = .done ev ∧ ∀ e', Event.unfulfilled e' ∉ ev)) := by
  have hc := h.corr
  have hr := h.sim
  obtain ⟨⟨d, hd⟩, hnd⟩ := hl
  have hl' : (asIf tr).live e := (hc.live_iff e).mpr ⟨⟨d, hd⟩, hnd⟩
  refine ⟨d, hd, ?_⟩
  obtain ⟨W, ev, hW⟩ := (C17_progress hr (.destroy e)).1 hl' (by simp [Trace.overflows])
  have hlift := lift_destroyExp w e
  rw [show (liftWorld w).destroyExp e = .ok (W, ev) from hW] at hlift
  cases hd1 : w.destroyExp e with
  | error s => rw [hd1] at hlift; simp [Except.map] at hlift
  | ok r =>
    obtain ⟨w1, ev1⟩ := r
    rw [hd1] at hlift
    simp only [Except.map, liftResult, Except.ok.injEq, Prod.mk.injEq] at hlift
    obtain ⟨rfl, rfl⟩ := hlift
    cases hst : step w (.destroy e p) with
    | error s =>
      left
      simp only [step, destroy, hd1, bind, Except.bind, ends] at hst
      by_cases hend : (p.ending && ev.any isSequenceError) = true
      · rw [if_pos hend] at hst
        simp only [Except.error.injEq] at hst
        exact ⟨_, by rw [← hst], (Bool.and_eq_true _ _ ▸ hend).1⟩
      · rw [if_neg hend] at hst
        simp only at hst
        split at hst <;> simp [pure, Except.pure] at hst
    | ok r =>
      right
      obtain ⟨w2, out⟩ := r
      obtain ⟨b, rest, h1, h2, _, h3⟩ := destroy_cases (show destroy w e p = .ok (w2, out) from hst)
      have h1' : w.destroyExp e = _ := h1
      rw [hd1] at h1'
      simp only [Except.ok.injEq, Prod.mk.injEq] at h1'
      obtain ⟨rfl, rfl⟩ := h1'
      obtain ⟨D, hD, hiff⟩ := C03_unfulfilled_iff hr hW
      rw [hc.decl_of hd, Option.some.injEq] at hD
      subst hD
      have hb : b = true ↔ ((matched tr e : Int) < d.min ∨ ∃ q ∈ d.policies, q.isSatisfied = false) := by
        have hnr : Event.unfulfilled e ∉ rest := by
          intro hm; have := h2 _ hm; simp [seqEvent] at this
        have hl : b = true ↔ Event.unfulfilled e ∈ .destroyed e :: ((if b then [Event.unfulfilled e] else []) ++ rest) := by
          cases b <;> simp [hnr]
        rw [hl, hiff, hc.matched e]
        have : (liftDecl e d).min = d.min := rfl
        rw [this]
        refine or_congr_right ?_
        simp only [liftDecl, List.mem_cons, List.mem_map]
        constructor
        · rintro ⟨q, rfl | ⟨q', hq', rfl⟩, hq⟩
          · simp [guard] at hq
          · exact ⟨q', hq', hq⟩
        · rintro ⟨q, hq, hs⟩
          exact ⟨lift q, Or.inr ⟨q, hq, rfl⟩, hs⟩
      refine ⟨w1, out, rfl, ?_, ?_, ?_⟩
      · rcases h3 with ⟨_, rfl⟩ | ⟨_, _, rfl⟩ <;> simp [End.observed]
      · intro hbad
        have hbt := hb.mpr hbad
        subst hbt
        rcases h3 with ⟨h4, rfl⟩ | ⟨h4, _, rfl⟩
        · have : p.telling = false := by simpa using h4
          rw [this]
          exact ⟨_, rfl, by simp⟩
        · rw [h4]; exact ⟨_, rfl⟩
      · intro hgood
        have hbf : b = false := by
          cases b with
          | false => rfl
          | true => exact absurd (hb.mp rfl) hgood
        subst hbf
        rcases h3 with ⟨_, rfl⟩ | ⟨_, h4, _⟩
        · refine ⟨_, rfl, ?_⟩
          intro e' hm
          simp only [Bool.false_eq_true, if_false, List.nil_append, List.mem_cons, reduceCtorEq, false_or] at hm
          have := h2 _ hm
          simp [seqEvent] at this
        · simp at h4

/-- C90: every operation on things that exist is carried out or terminates the program: there is no undefined behaviour
and no assertion fails, wherever memory runs out. -/
theorem C90_safe {tr : MTrace α} {w : World α} (h : MReach tr w) (op : MOp α) (hv : (asIf tr).valid (request op)) :
    (∃ w' out, step w op = .ok (w', out)) ∨ ∃ why, step w op = .error (.terminate why) := by
  have hr := h.sim
  have hc := h.corr
  cases op with
  | newSequence st fails =>
    left
    simp only [step]
    split
    · exact ⟨_, _, rfl⟩
    · exact ⟨_, _, rfl⟩
  | newMock fails =>
    left
    simp only [step]
    split
    · exact ⟨_, _, rfl⟩
    · exact ⟨_, _, rfl⟩
  | dropSequence s p =>
    have hh : w.hasHandle s = true := by
      have := (hr.view.2.hasHandle_iff s).mpr hv
      rw [hasHandle_abs] at this
      exact this
    obtain ⟨W, ev, hW⟩ := (C17_progress hr (.dropSequence s)).1 hv (by simp [Trace.overflows])
    cases hst : w.step (.dropSequence s) with
    | error x =>
      exfalso
      simp only [World.step, hh, if_true] at hst
      have := lift_release { w with seqs := w.seqs.modify s (fun c => { c with handle := false }) } s
      rw [hst] at this
      have hh' : (liftWorld w).hasHandle s = true := hh
      simp only [World.step, hh', if_true] at hW
      rw [show ({ liftWorld w with seqs := (liftWorld w).seqs.modify s (fun c => { c with handle := false }) } :
          World (Starved α)).release s = _ from this] at hW
      simp [Except.map] at hW
    | ok r =>
      simp only [step, hst, bind, Except.bind, ends]
      by_cases hend : (p.ending && r.2.any isSequenceError) = true
      · rw [if_pos hend]; exact Or.inr ⟨_, rfl⟩
      · rw [if_neg hend]; exact Or.inl ⟨_, _, rfl⟩
  | expect m min max ss ps p =>
    have hv' : (asIf tr).valid (.expect m min max ss (guard w.exps.length :: ps.map lift)) := hv
    have hbase : (∃ r, w.expect m min max ss ps = .ok r) ∨ ∃ why, w.expect m min max ss ps = .error (.terminate why) := by
      have hl := lift_expect w m min max ss ps
      by_cases hno : (asIf tr).overflows (.expect m min max ss (guard w.exps.length :: ps.map lift))
      · obtain ⟨why, hW⟩ := (C17_progress hr _).2.1 hv' hno
        rw [show (liftWorld w).expect m min max ss (guard w.exps.length :: ps.map lift) = _ from hW] at hl
        cases he : w.expect m min max ss ps with
        | error e => rw [he] at hl; simp only [Except.map, Except.error.injEq] at hl; exact Or.inr ⟨why, by rw [← hl]⟩
        | ok r => exact Or.inl ⟨r, rfl⟩
      · obtain ⟨W, ev, hW⟩ := (C17_progress hr _).1 hv' hno
        rw [show (liftWorld w).expect m min max ss (guard w.exps.length :: ps.map lift) = _ from hW] at hl
        cases he : w.expect m min max ss ps with
        | error e => rw [he] at hl; simp [Except.map] at hl
        | ok r => exact Or.inl ⟨r, rfl⟩
    have hin := hbase
    unfold World.expect at hin
    simp only [step, expect]
    cases hcm : w.colls[m]? with
    | none => simp [hcm] at hin
    | some es =>
      simp only [hcm] at hin ⊢
      by_cases hall : (ss.all w.hasHandle && isInt min && isInt max) = true
      · rw [if_pos hall] at hin ⊢
        cases ht : TimesConfig.make min max with
        | none => exact Or.inl ⟨_, _, rfl⟩
        | some t =>
          cases hsq : seqConfig ss with
          | none => exact Or.inl ⟨_, _, rfl⟩
          | some ss' =>
            simp only [ht, hsq] at hin ⊢
            by_cases h1 : (p.attaching && !ss'.isEmpty) = true
            · rw [if_pos h1]; exact Or.inr ⟨_, rfl⟩
            · rw [if_neg h1]
              by_cases h2 : p.object = true
              · rw [if_pos h2]
                simp only [Fragile.finalizeThrows, bind, Except.bind] at hin ⊢
                cases hm : Control.make t ss' w.seqs with
                | ok r => exact Or.inl ⟨_, _, rfl⟩
                | error e =>
                  simp only [hm, reduceCtorEq, exists_false, false_or, Except.error.injEq] at hin
                  obtain ⟨why, rfl⟩ := hin
                  exact Or.inr ⟨why, rfl⟩
              · rw [if_neg h2]
                by_cases h3 : p.handle = true
                · rw [if_pos h3]; exact Or.inr ⟨_, rfl⟩
                · rw [if_neg h3]
                  rcases hbase with ⟨r, hb⟩ | ⟨why, hb⟩
                  · rw [hb]; exact Or.inl ⟨_, _, rfl⟩
                  · rw [hb]; exact Or.inr ⟨why, rfl⟩
      · rw [if_neg hall] at hin
        simp at hin
  | call m a p =>
    rcases C90_call h ((hc.mocks m).mp hv) a p with ⟨w', ev, h1⟩ | ⟨t, h1, _⟩ | ⟨h1, _⟩
    · exact Or.inl ⟨_, _, h1⟩
    · exact Or.inl ⟨_, _, h1⟩
    · exact Or.inr h1
  | destroy e p =>
    obtain ⟨d, _, ⟨why, h1, _⟩ | ⟨w', out, h1, _⟩⟩ := C90_end h ((hc.live_iff e).mp hv) p
    · exact Or.inr ⟨_, h1⟩
    · exact Or.inl ⟨_, _, h1⟩

/-! ### Examples -/

/-- Accepts everything. -/
def anything : Policy Nat := { accepts := fun _ => some true }

/-- Memory runs out while expectation `e` is asked. -/
def starving (e : Nat) : CallPoints := { CallPoints.good with asking := fun x => x == e }

/-- A mock with two expectations for any call, the younger one for exactly one call. -/
def twoExpectations : List (MOp Nat) :=
  [.newMock false, .expect 0 0 9 [] [anything] ⟨false, false, false⟩, .expect 0 1 1 [] [anything] ⟨false, false, false⟩]

/-- Carrying out operations one after the other. -/
def runM {α : Type} (w : World α) : List (MOp α) → M (World α × MTrace α)
  | [] => .ok (w, [])
  | op :: ops => do
    let (w', out) ← step w op
    let (w'', tr) ← runM w' ops
    return (w'', (op, out) :: tr)

theorem runM_reach {tr : MTrace α} {w : World α} (h : MReach tr w) (ops : List (MOp α)) {w' : World α} {tr' : MTrace α}
    (hr : runM w ops = .ok (w', tr')) : MReach (tr ++ tr') w' := by
  induction ops generalizing tr w tr' with
  | nil =>
    simp only [runM, Except.ok.injEq, Prod.mk.injEq] at hr
    obtain ⟨rfl, rfl⟩ := hr
    simpa using h
  | cons op ops ih =>
    simp only [runM, bind, Except.bind] at hr
    cases hs : step w op with
    | error e => simp [hs] at hr
    | ok r =>
      obtain ⟨w1, out⟩ := r
      simp only [hs] at hr
      cases hr1 : runM w1 ops with
      | error e => simp [hr1] at hr
      | ok r1 =>
        obtain ⟨w2, tr2⟩ := r1
        simp only [hr1, pure, Except.pure, Except.ok.injEq, Prod.mk.injEq] at hr
        obtain ⟨rfl, rfl⟩ := hr
        have := ih (h.step hs) hr1
        simpa using this

/-- How the operations of a program end. -/
def endings (ops : List (MOp Nat)) : Option (List End) := (runM World.init ops).toOption.map (fun r => r.2.map (·.2))

/-- C90 (remark): running out of memory may give a call to another expectation: without it, the younger one takes the call;
if memory runs out while it is asked, the older one does, and the younger one remains unfulfilled. -/
theorem C90_other :
    endings (twoExpectations ++ [.call 0 5 .good, .destroy 1 ⟨false, false⟩]) =
      some [.done [.mockCreated 0], .done [.created 0], .done [.created 1], .done [.fullMatch 1], .done [.destroyed 1]] ∧
    endings (twoExpectations ++ [.call 0 5 (starving 1), .destroy 1 ⟨false, false⟩]) =
      some [.done [.mockCreated 0], .done [.created 0], .done [.created 1], .done [.unhandled 1, .fullMatch 0],
        .done [.destroyed 1, .unfulfilled 1]] := by
  decide +kernel

/-- The other ways things can end: the report of a throwing expectation fails, a report cannot be kept, the call report
cannot be made, the reporter runs out of memory (for a match and otherwise), a report about an unfulfilled expectation
cannot be made. -/
example :
    endings (twoExpectations ++ [.call 0 5 { starving 1 with telling := fun _ => true }]) = none ∧
    endings (twoExpectations ++ [.call 0 5 { starving 1 with keeping := fun e => e == 0 }, .destroy 1 ⟨true, false⟩]) =
      some [.done [.mockCreated 0], .done [.created 0], .done [.created 1], .threw [.unhandled 1],
        .threw [.destroyed 1]] ∧
    endings (twoExpectations ++ [.call 0 5 { CallPoints.good with report := true }, .call 0 5 .good]) =
      some [.done [.mockCreated 0], .done [.created 0], .done [.created 1], .threw [], .done [.fullMatch 1]] ∧
    endings (twoExpectations ++ [.call 0 5 { CallPoints.good with reporter := true }]) = none ∧
    endings [.newMock true, .newMock false, .call 0 5 { CallPoints.good with reporter := true }] =
      some [.threw [], .done [.mockCreated 0], .threw []] := by
  decide +kernel

/-- C90 (remark): an attempt that failed blocks the sequence; the expectation made afterwards never gets a call, and the
end of the sequence reports an error. -/
theorem C90_blocked :
    endings [.newMock false, .newSequence .lazy false, .expect 0 1 1 [0] [anything] ⟨false, true, false⟩,
      .expect 0 1 1 [0] [anything] ⟨false, false, false⟩, .call 0 5 .good, .destroy 1 ⟨false, false⟩,
      .dropSequence 0 ⟨false, false⟩] =
      some [.done [.mockCreated 0], .done [.sequenceCreated 0 .lazy], .failed 0, .done [.created 1],
        .done [.inapplicable [1]], .done [.destroyed 1, .unfulfilled 1],
        .done [.sequenceError 0 0 2, .sequenceDestroyed 0]] := by
  decide +kernel

/-- The theorems apply to such a history: here to the one above, of which the first five operations have been carried out. -/
example : ∃ tr w, MReach (α := Nat) tr w ∧ live tr 1 ∧ (∃ d, failedOf tr 0 = some d ∧ 1 ≤ d.min ∧ 0 ∈ d.seqs) ∧
    matched tr 1 = 0 ∧ Event.mockCreated 0 ∈ events tr ∧ accepts tr 0 5 1 := by
  have hr : ∃ r, runM (World.init : World Nat) [.newMock false, .newSequence .lazy false,
      .expect 0 1 1 [0] [anything] ⟨false, true, false⟩, .expect 0 1 1 [0] [anything] ⟨false, false, false⟩,
      .call 0 5 .good] = .ok r := ⟨_, rfl⟩
  obtain ⟨⟨w, tr⟩, hr⟩ := hr
  have h := runM_reach .init _ hr
  refine ⟨_, w, h, ?_⟩
  injection hr with hr
  injection hr with hw htr
  subst htr
  have hd : declOf (α := Nat) ([] ++ [(MOp.newMock false, End.done [.mockCreated 0]),
      (.newSequence .lazy false, .done [.sequenceCreated 0 .lazy]),
      (.expect 0 1 1 [0] [anything] ⟨false, true, false⟩, .failed 0),
      (.expect 0 1 1 [0] [anything] ⟨false, false, false⟩, .done [.created 1]),
      (.call 0 5 .good, .done [.inapplicable [1]])]) 1 = some ⟨0, 1, 1, [0], [anything]⟩ := rfl
  have hl : live (α := Nat) ([] ++ [(MOp.newMock false, End.done [.mockCreated 0]),
      (.newSequence .lazy false, .done [.sequenceCreated 0 .lazy]),
      (.expect 0 1 1 [0] [anything] ⟨false, true, false⟩, .failed 0),
      (.expect 0 1 1 [0] [anything] ⟨false, false, false⟩, .done [.created 1]),
      (.call 0 5 .good, .done [.inapplicable [1]])]) 1 := ⟨⟨_, hd⟩, by decide +kernel⟩
  exact ⟨hl, ⟨⟨0, 1, 1, [0], [anything]⟩, rfl, by decide, by decide⟩, by decide +kernel, by decide +kernel,
    hl, _, hd, rfl, by simp [anything]⟩

end Mimic.Memory
