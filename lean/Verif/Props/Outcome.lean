import Verif.Proofs.Outcome

/-!
# C10-C13: the outcome of a call
-/

set_option autoImplicit false

namespace Mimic

variable {α : Type}

/-! ### C10 -/

/-- C10: every call reports the throwing expectations and then exactly one outcome, with complete lists. -/
theorem C10_outcome {tr : Trace α} {w w' : World α} (h : Reach tr w) {m : Nat} {a : α}
    {ev : List Event} (hs : w.step (.call m a) = .ok (w', ev)) :
    ∃ us last, ev = us.map Event.unhandled ++ [last] ∧ YoungestFirst (tr.throws m a) us ∧
      ((∃ e, tr.candidate m a e ∧ last = .fullMatch e) ∨
       ((∀ e, ¬ tr.candidate m a e) ∧ (∃ e, tr.accepts m a e) ∧
          ∃ es, last = .inapplicable es ∧ YoungestFirst (tr.accepts m a) es) ∨
       ((∀ e, ¬ tr.accepts m a e) ∧
          ∃ es, last = .noMatch es ∧ YoungestFirst
            (fun e => (tr.live e ∧ ∃ d, tr.decl e = some d ∧ d.mock = m) ∧ ¬ tr.throws m a e) es)) := by
  obtain ⟨hev, _, hm⟩ := call_spec h hs
  have hv := h.view.2
  obtain ⟨us, last, hev', hus, hcase⟩ := call_events (abs w) m a
  have hsort := hv.candidates_sorted m
  refine ⟨us, last, by rw [hev, hev'], ?_, ?_⟩
  · rw [hus]
    exact youngestFirst_map (hsort.filter _) (hv.throws_iff m a)
  · rcases hcase with ⟨x, older, hc, hl, _⟩ | ⟨hc, he, hl, _⟩ | ⟨hc, he, hl, _⟩
    · left
      refine ⟨((abs w).select x older).id, ?_, hl⟩
      rw [hv.candidate_iff, hc]
      exact ⟨_, select_mem' _ _ _, rfl⟩
    · right; right
      refine ⟨fun e hac => ?_, _, hl, ?_⟩
      · rw [hv.accepts_iff, he] at hac
        simp at hac
      · apply youngestFirst_map (hsort.filter _)
        intro e
        rw [hv.candidates_iff, hv.throws_iff]
        constructor
        · rintro ⟨⟨x, hx, rfl⟩, hn⟩
          refine ⟨x, List.mem_filter.mpr ⟨hx, ?_⟩, rfl⟩
          cases hth : x.throws a with
          | false => rfl
          | true => exact absurd ⟨x, List.mem_filter.mpr ⟨hx, hth⟩, rfl⟩ hn
        · rintro ⟨x, hx, rfl⟩
          rw [List.mem_filter] at hx
          refine ⟨⟨x, hx.1, rfl⟩, ?_⟩
          rintro ⟨y, hy, hyx⟩
          rw [List.mem_filter] at hy
          have : y = x := sorted_mem_id hv.sorted (candidates_mem.mp hy.1).1 (candidates_mem.mp hx.1).1 hyx
          subst this
          simp [hy.2] at hx
    · right; left
      refine ⟨fun e hca => ?_, ?_, _, hl, youngestFirst_map (hsort.filter _) (hv.accepts_iff m a)⟩
      · rw [hv.candidate_iff, hc] at hca
        simp at hca
      · cases hl' : (abs w).candidates m |>.filter (·.accepts a) with
        | nil => exact absurd hl' he
        | cons x l =>
          refine ⟨x.id, (hv.accepts_iff m a _).mpr ⟨x, ?_, rfl⟩⟩
          rw [hl']; simp

/-- C10: every call of an existing mock has an outcome. -/
theorem C10_total {tr : Trace α} {w : World α} (h : Reach tr w) {m : Nat} (a : α)
    (hm : Event.mockCreated m ∈ tr.events) : ∃ w' ev, w.step (.call m a) = .ok (w', ev) := by
  have hv := h.view.2
  rw [hv.mocks m] at hm
  have hm' : m < w.colls.length := hm
  obtain ⟨w', e1, _⟩ := h.view.1.handleCall hm' a
  refine ⟨w', ((abs w).call m a).2.1, ?_⟩
  simp only [World.step, e1, bind, Except.bind, pure, Except.pure]

/-- The three kinds of outcome in one history: two calls resolved, one inapplicable, one unmatched. -/
example : ∃ (tr : Trace Nat) (w : World Nat), Reach tr w ∧ tr.map (·.2) =
    [[.mockCreated 0], [.created 0], [.created 1], [.created 2],
     [.unhandled 2, .fullMatch 1], [.unhandled 2, .inapplicable [1]], [.unhandled 2, .noMatch [1, 0]],
     [.unhandled 2, .fullMatch 0]] :=
  ⟨_, _, reach_final [.newMock, .expect 0 1 1 [] [onlyArg 5], .expect 0 1 1 [] [onlyArg 7],
    .expect 0 1 1 [] [throwing], .call 0 7, .call 0 7, .call 0 9, .call 0 5], by decide⟩

/-! ### C11 -/

/-- C11: a call without a full match changes nothing. -/
theorem C11_unresolved_frame {w w' : World α} {m : Nat} {a : α} {ev : List Event}
    (hs : w.handleCall m a = .ok (w', ev, none)) : w' = w := by
  unfold World.handleCall at hs
  split at hs
  · simp at hs
  · simp only [bind, Except.bind] at hs
    split at hs
    · simp at hs
    · split at hs
      · split at hs
        · simp at hs
        · split at hs
          · simp at hs
          · simp [pure, Except.pure] at hs
      · split at hs
        · simp [pure, Except.pure] at hs; exact hs.1.symm
        · simp [pure, Except.pure] at hs; exact hs.1.symm

/-- C11: a call resolved by `e` adds one to the count of `e`, and changes no other expectation, no
storage, and no sequence `e` is not attached to. -/
theorem C11_resolved_frame {tr : Trace α} {w w' : World α} (h : Reach tr w) {m : Nat} {a : α}
    {ev : List Event} {e : Nat} (hs : w.handleCall m a = .ok (w', ev, some e)) :
    w'.colls = w.colls ∧
    (∀ e', e' ≠ e → w'.exps[e']? = w.exps[e']?) ∧
    (∀ s, ¬ tr.attached e s → w'.seqs[s]? = w.seqs[s]?) ∧
    (∃ x, w.exps[e]? = some x ∧
      w'.exps[e]? = some { x with control := { x.control with count := x.control.count + 1 } }) := by
  have hc := handleCall_consume hs
  obtain ⟨x, hx⟩ := consume_some hc
  exact consume_frame h hx hc

/-- A call resolved by expectation 1, which shares a sequence with expectation 0. -/
example : ∃ (tr : Trace Nat) (w w' : World Nat) (ev : List Event), Reach tr w ∧
    w.handleCall 0 7 = .ok (w', ev, some 1) ∧ tr.matched 0 = 1 :=
  ⟨_, _, _, _, reach_final [.newMock, .newSequence .lazy, .expect 0 1 1 [0] [onlyArg 5],
    .expect 0 1 1 [0] [onlyArg 7], .call 0 5], rfl, by decide⟩

/-! ### C12 -/

/-- C12: an expectation one of whose policies throws for this call has no influence on it: without
that expectation (`World.without`: never pushed to the storage of its mock) the call has the same
result, the same effect and the same reports, except for the unhandled-exception report itself. -/
theorem C12_contained {tr : Trace α} {w w' : World α} (h : Reach tr w) {m : Nat} {a : α}
    {ev : List Event} {r : Option Nat} (hs : w.handleCall m a = .ok (w', ev, r))
    {e : Nat} (ht : tr.throws m a e) :
    (w.without e).handleCall m a =
      .ok (w'.without e, ev.filter (fun y => y != .unhandled e), r) := by
  obtain ⟨hl, d, hd, _, p, hp, hpn⟩ := ht
  obtain ⟨x, hx, hxd⟩ := (abs_mem_iff w _).mp (h.view.2.mem hd)
  have hps : x.policies = d.policies := by
    have : (absExp (viewExp tr e d).id x).policies = (viewExp tr e d).policies := by rw [← hxd]
    exact this
  exact handleCall_without hs hx ⟨p, by rw [hps]; exact hp, hpn⟩

/-- C12: it is reported exactly once in that call. -/
theorem C12_reported_once {tr : Trace α} {w w' : World α} (h : Reach tr w) {m : Nat} {a : α}
    {ev : List Event} (hs : w.step (.call m a) = .ok (w', ev)) (e : Nat) :
    (tr.throws m a e → ev.count (.unhandled e) = 1) ∧ (¬ tr.throws m a e → Event.unhandled e ∉ ev) := by
  obtain ⟨us, last, hev, hus, hcase⟩ := C10_outcome h hs
  have hlast : last ≠ .unhandled e := by
    rcases hcase with ⟨_, _, hl⟩ | ⟨_, _, _, hl, _⟩ | ⟨_, _, hl, _⟩ <;> rw [hl] <;> simp
  have hnd : us.Nodup := by
    rw [List.nodup_iff_pairwise_ne]
    exact hus.1.imp (fun hgt => by omega)
  rw [hev]
  constructor
  · intro ht
    have hm := (hus.2 e).mpr ht
    rw [List.count_append, List.count_eq_zero_of_not_mem (a := Event.unhandled e) (l := [last])
      (by simp; exact fun hh => hlast hh.symm)]
    have hinj : (us.map Event.unhandled).Nodup := by
      rw [List.nodup_iff_pairwise_ne, List.pairwise_map]
      exact (List.nodup_iff_pairwise_ne.mp hnd).imp (fun hne => by simpa using hne)
    rw [List.Nodup.count hinj]
    simp [hm]
  · intro hn hc
    rw [List.mem_append] at hc
    rcases hc with hc | hc
    · rw [List.mem_map] at hc
      obtain ⟨i, hi, hie⟩ := hc
      simp at hie
      exact hn ((hus.2 e).mp (hie ▸ hi))
    · simp at hc; exact hlast hc.symm

example : ∃ (tr : Trace Nat) (w w' : World Nat) (ev : List Event), Reach tr w ∧
    w.handleCall 0 7 = .ok (w', ev, some 0) ∧ tr.throws 0 7 1 ∧ ev = [.unhandled 1, .fullMatch 0] := by
  refine ⟨_, _, _, _, reach_final [.newMock, .expect 0 1 1 [] [onlyArg 7],
    .expect 0 1 1 [] [onlyArg 7, throwing]], rfl, ?_, rfl⟩
  refine ⟨⟨⟨_, rfl⟩, by decide⟩, _, rfl, rfl, throwing, ?_, rfl⟩
  exact List.mem_cons_of_mem _ (List.mem_singleton.mpr rfl)

/-! ### C13 -/

/-- C13: only calls of its own mock between the creation of an expectation and the end of its scope
are resolved by it. -/
theorem C13_in_force {pre post : Trace α} {op : Op α} {ev : List Event} {w : World α}
    (h : Reach (pre ++ (op, ev) :: post) w) {e : Nat} (he : Event.fullMatch e ∈ ev) :
    ∃ m a d, op = .call m a ∧ pre.decl e = some d ∧ d.mock = m ∧ Event.destroyed e ∉ pre.events := by
  obtain ⟨w0, w1, h0, hs⟩ := h.split
  obtain ⟨m, a, hop, hc⟩ := fullMatch_source h0 hs he
  obtain ⟨⟨hl, d, hd, hm, _⟩, _⟩ := hc
  exact ⟨m, a, d, hop, hd, hm, hl.2⟩

/-- C13: an expectation out of scope, fulfilled or not, is never mentioned by a call again. -/
theorem C13_withdrawn {pre post : Trace α} {op : Op α} {ev : List Event} {w : World α}
    (h : Reach (pre ++ (op, ev) :: post) w) {m : Nat} {a : α} (hop : op = .call m a) {e : Nat}
    (hd : Event.destroyed e ∈ pre.events) :
    Event.fullMatch e ∉ ev ∧ Event.unhandled e ∉ ev ∧
    (∀ es, Event.inapplicable es ∈ ev → e ∉ es) ∧ (∀ es, Event.noMatch es ∈ ev → e ∉ es) := by
  obtain ⟨w0, w1, h0, hs⟩ := h.split
  subst hop
  obtain ⟨us, last, hev, hus, hcase⟩ := C10_outcome h0 hs
  have hnl : ¬ pre.live e := fun hh => hh.2 hd
  have hu : Event.unhandled e ∉ us.map Event.unhandled := by
    intro hc
    rw [List.mem_map] at hc
    obtain ⟨i, hi, hie⟩ := hc
    simp at hie
    subst hie
    exact hnl ((hus.2 i).mp hi).1
  have hmem : ∀ x, x ∈ ev → (∃ i, x = Event.unhandled i ∧ x ∈ us.map Event.unhandled) ∨ x = last := by
    intro x hx
    rw [hev, List.mem_append] at hx
    rcases hx with hx | hx
    · left
      obtain ⟨i, _, hi⟩ := List.mem_map.mp hx
      exact ⟨i, hi.symm, hx⟩
    · right; simpa using hx
  rcases hcase with ⟨e', hc, hl⟩ | ⟨_, _, es, hl, hyf⟩ | ⟨_, es, hl, hyf⟩
  · refine ⟨fun hh => ?_, fun hh => ?_, fun es hh => ?_, fun es hh => ?_⟩
    · rcases hmem _ hh with ⟨i, hi, _⟩ | hi
      · simp at hi
      · rw [hl] at hi; simp at hi; subst hi; exact hnl hc.1.1
    · rcases hmem _ hh with ⟨i, _, hi⟩ | hi
      · exact hu hi
      · rw [hl] at hi; simp at hi
    · rcases hmem _ hh with ⟨i, hi, _⟩ | hi
      · simp at hi
      · rw [hl] at hi; simp at hi
    · rcases hmem _ hh with ⟨i, hi, _⟩ | hi
      · simp at hi
      · rw [hl] at hi; simp at hi
  · refine ⟨fun hh => ?_, fun hh => ?_, fun es' hh => ?_, fun es' hh => ?_⟩
    · rcases hmem _ hh with ⟨i, hi, _⟩ | hi
      · simp at hi
      · rw [hl] at hi; simp at hi
    · rcases hmem _ hh with ⟨i, _, hi⟩ | hi
      · exact hu hi
      · rw [hl] at hi; simp at hi
    · rcases hmem _ hh with ⟨i, hi, _⟩ | hi
      · simp at hi
      · rw [hl] at hi; simp at hi; subst hi
        exact fun hm => hnl ((hyf.2 e).mp hm).1
    · rcases hmem _ hh with ⟨i, hi, _⟩ | hi
      · simp at hi
      · rw [hl] at hi; simp at hi
  · refine ⟨fun hh => ?_, fun hh => ?_, fun es' hh => ?_, fun es' hh => ?_⟩
    · rcases hmem _ hh with ⟨i, hi, _⟩ | hi
      · simp at hi
      · rw [hl] at hi; simp at hi
    · rcases hmem _ hh with ⟨i, _, hi⟩ | hi
      · exact hu hi
      · rw [hl] at hi; simp at hi
    · rcases hmem _ hh with ⟨i, hi, _⟩ | hi
      · simp at hi
      · rw [hl] at hi; simp at hi
    · rcases hmem _ hh with ⟨i, hi, _⟩ | hi
      · simp at hi
      · rw [hl] at hi; simp at hi; subst hi
        exact fun hm => hnl ((hyf.2 e).mp hm).1.1

/-- A history in which an expectation is withdrawn while unfulfilled and its mock is called later. -/
example : ∃ (pre : Trace Nat) (ev : List Event) (w : World Nat),
    Reach (pre ++ (.call 0 7, ev) :: []) w ∧ Event.destroyed 0 ∈ pre.events ∧
    Event.unfulfilled 0 ∈ pre.events ∧ ev = [.noMatch []] :=
  ⟨(World.final [.newMock, .expect 0 1 1 [] [], .destroy 0]).2, _, _,
    .step (reach_final [.newMock, .expect 0 1 1 [] [], .destroy 0]) rfl, by decide, by decide, rfl⟩

end Mimic
