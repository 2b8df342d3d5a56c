import Verif.Proofs.Descriptions
import Verif.Props.Limits
import Verif.Props.Safety

/-!
# C46: descriptions
-/

set_option autoImplicit false

namespace Mimic

variable {α T A : Type}

/-- C46: what `matches::predicate(p, descr)` makes of its two arguments. Whether it accepts depends on the predicate alone;
its description is not the given text, but the given text as a format string, and `describe()` throws iff the text
contains braces that are not doubled. -/
theorem C46_predicate (proj : α → Option T) (d : String → String) (p : T → Option Bool) (descr inv : String) :
    (∀ a, (requirementD proj d (matchPredicate p descr inv)).accepts a = (proj a).bind p) ∧
    ((requirementD proj d (matchPredicate p descr inv)).describe ≠ none ↔ Escaped descr.toList) ∧
    ((∀ c ∈ descr.toList, c ≠ '{' ∧ c ≠ '}') →
      (requirementD proj d (matchPredicate p descr inv)).describe = some (some (d descr))) := by
  have hd : (requirementD proj d (matchPredicate p descr inv)).describe =
      (vformat descr []).map (fun x => some (d x)) := by
    simp [requirementD, PMatcher.describe, matchPredicate]
  refine ⟨fun a => ?_, ?_, fun h => ?_⟩
  · simp only [requirementD]
    cases proj a <;> rfl
  · rw [hd, ← vformatChars_escaped]
    simp [vformat]
  · have key : ∀ l : List Char, (∀ c ∈ l, c ≠ '{' ∧ c ≠ '}') → vformatChars l [] = some l := by
      intro l
      induction l with
      | nil => intro _; rfl
      | cons c l ih =>
        intro hl
        have hc := hl c (by simp)
        have := ih (fun d hd => hl d (by simp [hd]))
        unfold vformatChars
        split <;> simp_all
    rw [hd]
    simp [vformat, key descr.toList h]

/-- Doubled braces are fine, single ones are not. -/
example : Escaped "is one of {{1, 2}}".toList ∧ ¬ Escaped "is one of {1, 2}".toList := by
  constructor <;> rw [← vformatChars_escaped] <;> decide

/-- C46: what is reported about an expectation that looked at a call: the answers of its policies with their descriptions, or, if one of
them threw, their descriptions; one for each policy, in order. -/
theorem C46_reported (a : α) (ps : List (DPolicy α)) :
    (∀ rs, lookAt a ps = .report rs → ps.map (fun p => (p.accepts a, p.describe)) = rs.map fun r => (some r.1, some r.2)) ∧
    (∀ ds, lookAt a ps = .unhandled ds → ps.map (·.describe) = ds.map some ∧ ∃ p ∈ ps, p.accepts a = none) := by
  have h1 : ∀ (ps : List (DPolicy α)) rs, matchAndDescribe a ps = some rs →
      ps.map (fun p => (p.accepts a, p.describe)) = rs.map fun r => (some r.1, some r.2) := by
    intro ps
    induction ps with
    | nil => intro rs h; simp [matchAndDescribe] at h; simp [← h]
    | cons p ps ih =>
      intro rs h
      unfold matchAndDescribe at h
      split at h
      · cases h
      · split at h
        · cases h
        · split at h
          · cases h
          · rename_i b hb _ d hd _ rs' hr
            simp only [Option.some.injEq] at h
            subst h
            simp [hb, hd, ih _ hr]
  have h2 : ∀ (ps : List (DPolicy α)) ds, describeAll ps = some ds → ps.map (·.describe) = ds.map some := by
    intro ps
    induction ps with
    | nil => intro ds h; simp [describeAll] at h; simp [← h]
    | cons p ps ih =>
      intro ds h
      unfold describeAll at h
      split at h
      · cases h
      · split at h
        · cases h
        · rename_i d hd _ ds' hr
          simp only [Option.some.injEq] at h
          subst h
          simp [hd, ih _ hr]
  unfold lookAt
  constructor
  · intro rs h
    split at h
    · rename_i rs' hm
      cases h
      exact h1 ps _ hm
    · split at h <;> cases h
  · intro ds h
    split at h
    · cases h
    · rename_i hm
      split at h
      · rename_i ds' hd
        cases h
        refine ⟨h2 ps _ hd, ?_⟩
        obtain ⟨p, hp, h3 | h3⟩ := (matchAndDescribe_none a ps).mp hm
        · exact ⟨p, hp, h3⟩
        · have := (describeAll_none ps).mpr ⟨p, hp, h3⟩
          rw [hd] at this
          cases this
      · cases h

/-- C46: as long as no description throws, descriptions have no influence: the history is one of the world without
descriptions (so that all theorems about such histories apply), nothing but the reports described there is seen, and
every further operation that brings in no throwing description behaves as it does there. -/
theorem C46_no_influence_partial {tr : DTrace α} {dw : DWorld α} (h : DReach tr dw) (hb : ∀ e, ¬ tr.broken e) :
    Reach tr.base dw.w ∧ (∀ t ∈ tr, t.2.threw = false ∧ t.2.seen = t.2.ev) ∧
    ∀ op, (dw.step op).map (fun r => (r.1.w, r.2.seen)) = dw.w.step op.base := by
  have hi := h.inv
  have hop : ∀ (dw : DWorld α) (tr : DTrace α), DInv tr dw → (∀ e, ¬ tr.broken e) → ∀ op,
      (dw.step op).map (fun r => (r.1.w, r.2.seen)) = dw.w.step op.base ∧
      ∀ dw' l, dw.step op = .ok (dw', l) → l.threw = false := by
    intro dw tr hi hb op
    have hq : ∀ e a, lookAt a (dw.policiesOf e) ≠ .terminates := by
      intro e a
      rw [Ne, lookAt_terminates, ← hi.broken_iff]
      exact hb e
    have hd : ∀ e, (describeAll (dw.policiesOf e)).isNone = false := by
      intro e
      cases hh : describeAll (dw.policiesOf e) with
      | some _ => rfl
      | none => rw [describeAll_none, ← hi.broken_iff] at hh; exact absurd hh (hb e)
    cases op with
    | expect c mn mx tags ps =>
      simp only [DWorld.step, DOp.base, bind, Except.bind, pure, Except.pure]
      cases hh : dw.w.step (.expect c mn mx tags (ps.map DPolicy.toPolicy)) with
      | error x => simp [Except.map]
      | ok r => simp [Except.map, DLog.seen]
    | call c a =>
      have hfalse : (((dw.w.colls[c]?).getD []).any (fun e => lookAt a (dw.policiesOf e) = .terminates)) = false := by
        rw [List.any_eq_false]
        intro e _
        simpa using hq e a
      simp only [DWorld.step, DOp.base, hfalse, bind, Except.bind, pure, Except.pure]
      cases hh : dw.w.step (.call c a) with
      | error x => simp [Except.map]
      | ok r => simp [Except.map, DLog.seen]
    | destroy e u =>
      simp only [DWorld.step, DOp.base, hd, bind, Except.bind, pure, Except.pure]
      cases hh : dw.w.step (.destroy e) with
      | error x => simp [Except.map]
      | ok r => simp [Except.map, DLog.seen]
    | newSequence st =>
      simp only [DWorld.step, DOp.base, bind, Except.bind, pure, Except.pure]
      cases hh : dw.w.step (.newSequence st) with
      | error x => simp [Except.map]
      | ok r => simp [Except.map, DLog.seen]
    | dropSequence s =>
      simp only [DWorld.step, DOp.base, bind, Except.bind, pure, Except.pure]
      cases hh : dw.w.step (.dropSequence s) with
      | error x => simp [Except.map]
      | ok r => simp [Except.map, DLog.seen]
    | newMock =>
      simp only [DWorld.step, DOp.base, bind, Except.bind, pure, Except.pure]
      cases hh : dw.w.step .newMock with
      | error x => simp [Except.map]
      | ok r => simp [Except.map, DLog.seen]
  refine ⟨hi.reach, ?_, fun op => (hop dw tr hi hb op).1⟩
  clear hi
  induction h with
  | init => simp
  | @step tr dw dw' op l hr hs ih =>
    have hb' : ∀ e, ¬ DTrace.broken tr e := by
      rintro e ⟨ps, hc, hp⟩
      exact hb e ⟨ps, (created_snoc tr op l e ps).mpr (Or.inl hc), hp⟩
    intro t ht
    rw [List.mem_append, List.mem_singleton] at ht
    rcases ht with ht | rfl
    · exact ih hb' t ht
    · have := (hop dw tr hr.inv hb' op).2 dw' l hs
      exact ⟨this, by simp [DLog.seen, this]⟩

/-- C46 fails in general. A call terminates the program iff some living expectation of the mock has a throwing
description, whatever its policies say about the call and whichever expectation would have resolved it; otherwise
descriptions have no influence on the call. -/
theorem C46_call {tr : DTrace α} {dw : DWorld α} (h : DReach tr dw) {m : Nat} (hm : Event.mockCreated m ∈ tr.base.events)
    (a : α) :
    ((∃ why, dw.step (.call m a) = .error (.terminate why)) ↔
      ∃ e, tr.base.live e ∧ (∃ d, tr.base.decl e = some d ∧ d.mock = m) ∧ tr.broken e) ∧
    ((∀ why, dw.step (.call m a) ≠ .error (.terminate why)) →
      ∃ w' ev, dw.w.step (.call m a) = .ok (w', ev) ∧ dw.step (.call m a) = .ok ({ dw with w := w' }, ⟨ev, false⟩)) := by
  have hi := h.inv
  have hlt : m < dw.w.colls.length := by
    have := (hi.reach.view.2.mocks m).mp hm
    exact this
  have hget := List.getElem?_eq_getElem hlt
  have hmem := mem_storage hi.reach hget
  obtain ⟨w', ev, hst⟩ := (C17_progress hi.reach (.call m a)).1 hm (by simp [Trace.overflows])
  have hany : ((dw.w.colls[m]?).getD []).any (fun e => lookAt a (dw.policiesOf e) = .terminates) = true ↔
      ∃ e, tr.base.live e ∧ (∃ d, tr.base.decl e = some d ∧ d.mock = m) ∧ tr.broken e := by
    rw [hget, Option.getD_some, List.any_eq_true]
    simp only [decide_eq_true_eq, lookAt_terminates, ← hi.broken_iff, hmem, and_assoc]
  rw [← hany]
  have heq : dw.step (.call m a) =
      if ((dw.w.colls[m]?).getD []).any (fun e => lookAt a (dw.policiesOf e) = .terminates) = true then
        .error (.terminate "exception leaves make_match_report")
      else .ok ({ dw with w := w' }, ⟨ev, false⟩) := by
    simp only [DWorld.step, hst, bind, Except.bind, pure, Except.pure]
  rw [heq]
  split
  · rename_i hc
    exact ⟨⟨fun _ => hc, fun _ => ⟨_, rfl⟩⟩, fun hn => absurd rfl (hn _)⟩
  · rename_i hc
    refine ⟨⟨fun ⟨_, hw⟩ => by simp at hw, fun hx => absurd hx hc⟩, fun _ => ⟨w', ev, hst, rfl⟩⟩

/-- C46 fails in general: an unfulfilled expectation with a throwing description is never reported. At the end of its life
another exception leaves the destructor, everything else happens as it would with a harmless description; if an exception is
already on its way, the program is terminated. -/
theorem C46_lost {tr : DTrace α} {dw : DWorld α} (h : DReach tr dw) {e : Nat} (hl : tr.base.live e) (hb : tr.broken e)
    {d : Decl α} (hd : tr.base.decl e = some d) {ps : List (DPolicy α)} (hps : tr.created e ps) :
    ((tr.base.matched e : Int) < d.min ∨ (∃ p ∈ ps, p.isSatisfied = false) →
      (∃ dw' l w' ev, dw.step (.destroy e false) = .ok (dw', l) ∧ l.threw = true ∧ dw.w.step (.destroy e) = .ok (w', ev) ∧
        dw'.w = w' ∧ ∀ x, x ∈ l.seen ↔ x ∈ ev ∧ ∀ y, x ≠ .unfulfilled y) ∧
      ∃ why, dw.step (.destroy e true) = .error (.terminate why)) ∧
    (¬ ((tr.base.matched e : Int) < d.min ∨ ∃ p ∈ ps, p.isSatisfied = false) →
      ∀ u, ∃ dw' l w', dw.step (.destroy e u) = .ok (dw', l) ∧ l.threw = false ∧ dw'.w = w' ∧
        dw.w.step (.destroy e) = .ok (w', l.seen)) := by
  have hi := h.inv
  obtain ⟨w', ev, hst⟩ := (C17_progress hi.reach (.destroy e)).1 hl (by simp [Trace.overflows])
  obtain ⟨d', hd', hiff⟩ := C03_unfulfilled_iff hi.reach hst
  rw [hd] at hd'
  simp only [Option.some.injEq] at hd'
  subst hd'
  have hda : describeAll (dw.policiesOf e) = none := by
    rw [describeAll_none, ← hi.broken_iff]; exact hb
  obtain ⟨d', hd', hp⟩ := DInv.created_decl h hps
  rw [hd] at hd'
  simp only [Option.some.injEq] at hd'
  subst hd'
  have hsat : (∃ p ∈ ps, p.isSatisfied = false) ↔ ∃ p ∈ d.policies, p.isSatisfied = false := by
    rw [hp]
    constructor
    · rintro ⟨p, hp, hf⟩
      exact ⟨p.toPolicy, List.mem_map_of_mem hp, hf⟩
    · rintro ⟨q, hq, hf⟩
      obtain ⟨p, hp, rfl⟩ := List.mem_map.mp hq
      exact ⟨p, hp, hf⟩
  rw [hsat, ← hiff]
  constructor
  · intro hu
    have hc : ev.contains (.unfulfilled e) = true := by simpa using hu
    refine ⟨⟨{ dw with w := w' }, ⟨ev, true⟩, w', ev, ?_, rfl, hst, rfl, ?_⟩, "exception leaves a destructor during stack unwinding", ?_⟩
    · simp only [DWorld.step, hst, bind, Except.bind, pure, Except.pure, hc, hda, Option.isNone_none, Bool.and_self, if_true,
        Bool.false_eq_true, if_false]
    · intro x
      cases x <;> simp [DLog.seen]
    · simp only [DWorld.step, hst, bind, Except.bind, pure, Except.pure, hc, hda, Option.isNone_none, Bool.and_self, if_true]
  · intro hu u
    have hc : ev.contains (.unfulfilled e) = false := by simpa using hu
    refine ⟨{ dw with w := w' }, ⟨ev, false⟩, w', ?_, rfl, rfl, by simpa [DLog.seen] using hst⟩
    simp only [DWorld.step, hst, bind, Except.bind, pure, Except.pure, hc, Bool.false_and, Bool.false_eq_true, if_false]

/-- A predicate that accepts everything, with the given description. -/
def always (descr : String) : DPolicy Nat :=
  requirementD (fun a => some a) (argDescriber 0) (matchPredicate (fun _ => some true) descr)

/-- Carries out operations from the start. -/
def DWorld.run (dw : DWorld α) : List (DOp α) → M (DTrace α)
  | [] => .ok []
  | op :: ops => do
    let (dw', l) ← dw.step op
    let tr ← dw'.run ops
    return (op, l) :: tr

/-- C46, the violation: two programs that differ in nothing but the description of a predicate. One resolves the call, the
other is terminated, although an expectation without any description would resolve the call. -/
theorem C46_braces :
    ((DWorld.init.run [.newMock, .expect 0 1 1 [] [always "is one of 1, 2"], .expect 0 1 1 [] [], .call 0 5]).toOption.map
      (·.map (·.2.seen)) = some [[.mockCreated 0], [.created 0], [.created 1], [.fullMatch 1]]) ∧
    DWorld.init.run [.newMock, .expect 0 1 1 [] [always "is one of {1, 2}"], .expect 0 1 1 [] [], .call 0 5] =
      .error (.terminate "exception leaves make_match_report") := by
  constructor
  · decide
  · rfl

/-- The same for the end of an unfulfilled expectation: reported or not. -/
example :
    ((DWorld.init.run [.newMock, .expect 0 1 1 [] [always "is one of 1, 2"], .destroy 0 false]).toOption.map
      (·.map (·.2.seen)) = some [[.mockCreated 0], [.created 0], [.destroyed 0, .unfulfilled 0]]) ∧
    ((DWorld.init.run [.newMock, .expect 0 1 1 [] [always "is one of {1, 2}"], .destroy 0 false]).toOption.map
      (·.map (·.2.seen)) = some [[.mockCreated 0], [.created 0], [.destroyed 0]]) := by
  decide

/-- A reachable state with a throwing description; and one without, in which a call was resolved. -/
example : (∃ tr dw, DReach (α := Nat) tr dw ∧ tr.broken 0 ∧ tr.base.live 0) ∧
    ∃ tr dw, DReach (α := Nat) tr dw ∧ (∀ e, ¬ tr.broken e) ∧ tr.base.events = [.mockCreated 0, .created 0, .fullMatch 0] := by
  constructor
  · refine ⟨_, _, .step (op := .expect 0 1 1 [] [always "{"]) (.step (op := .newMock) .init rfl) rfl, ?_, ?_⟩
    · exact ⟨_, ⟨0, 1, 1, [], ⟨[.created 0], false⟩, by exact List.mem_cons_of_mem _ (List.mem_cons_self ..), by simp⟩,
        _, by exact List.mem_cons_self .., rfl⟩
    · exact ⟨⟨_, rfl⟩, by decide⟩
  · have hr : DReach (α := Nat) _ _ := .step (op := .call 0 5) (.step (op := .expect 0 1 1 [] [always "ok"])
      (.step (op := .newMock) .init rfl) rfl) rfl
    refine ⟨_, _, hr, ?_, rfl⟩
    intro e
    rw [hr.inv.broken_iff]
    rintro ⟨p, hp, hn⟩
    match e, hp with
    | 0, hp =>
      have : p = always "ok" := by simpa [DWorld.policiesOf, DWorld.init] using hp
      subst this
      exact absurd hn (by decide)
    | e + 1, hp => simp [DWorld.policiesOf, DWorld.init] at hp

end Mimic
