import Verif.Props.Outcome

/-!
# C04, C05: applicability and order in sequences
-/

set_option autoImplicit false

namespace Mimic

variable {α : Type}

/-! ### C04 -/

/-- C04: the library's own notion of applicability (upper limit, cursors and entry states of all attached
sequences) agrees with the history rule `Trace.applicable` for every living expectation after every
history, and computing it never fails. -/
theorem C04_applicable_iff {tr : Trace α} {w : World α} (h : Reach tr w) {e : Nat} {x : Exp α}
    (hx : w.exps[e]? = some x) (ha : x.alive = true) :
    ∃ b, x.control.isApplicable w.seqs = .ok b ∧ (b = true ↔ tr.applicable e) := by
  obtain ⟨d, hd, hxd⟩ := h.view.2.get (abs_mem hx)
  have hid : (absExp e x).id = e := rfl
  rw [hid] at hd hxd
  refine ⟨_, h.view.1.isApplicable hx ha, ?_⟩
  rw [hxd]
  exact h.view.2.applicable_iff hd

/-- C04: the same for the state that is stored in match reports. -/
theorem C04_state_iff {tr : Trace α} {w : World α} (h : Reach tr w) {e : Nat} {x : Exp α}
    (hx : w.exps[e]? = some x) (ha : x.alive = true) :
    ∃ st, x.control.state w.seqs = .ok st ∧ (st.isApplicable = true ↔ tr.applicable e) := by
  obtain ⟨d, hd, hxd⟩ := h.view.2.get (abs_mem hx)
  have hid : (absExp e x).id = e := rfl
  rw [hid] at hd hxd
  obtain ⟨st, hst, h1, h2⟩ := h.view.1.state hx ha
  refine ⟨st, hst, ?_⟩
  rw [h1, hxd]
  exact h.view.2.applicable_iff hd

/-- C04, as observed by the client: if `e` is the only expectation accepting a call, the call is resolved
iff the history rule holds for `e`, and is reported as inapplicable otherwise. -/
theorem C04_observed {tr : Trace α} {w w' : World α} (h : Reach tr w) {m : Nat} {a : α} {e : Nat}
    {ev : List Event} (hs : w.step (.call m a) = .ok (w', ev))
    (he : ∀ e', tr.accepts m a e' ↔ e' = e) :
    (tr.applicable e → Event.fullMatch e ∈ ev) ∧ (¬ tr.applicable e → Event.inapplicable [e] ∈ ev) := by
  obtain ⟨us, last, hev, _, hcase⟩ := C10_outcome h hs
  rcases hcase with ⟨e', hc, hl⟩ | ⟨hn, hac, es, hl, hyf⟩ | ⟨hn, _⟩
  · have := (he e').mp hc.1
    subst this
    exact ⟨fun _ => by rw [hev, hl]; simp, fun hh => absurd hc.2 hh⟩
  · refine ⟨fun hap => absurd ⟨(he e).mpr rfl, hap⟩ (hn e), fun _ => ?_⟩
    have : es = [e] := by
      have h1 : ∀ i, i ∈ es ↔ i = e := fun i => (hyf.2 i).trans (he i)
      have h2 := hyf.1
      match es, h1, h2 with
      | [], h1, _ => exact absurd ((h1 e).mpr rfl) (by simp)
      | [i], h1, _ => rw [(h1 i).mp (by simp)]
      | i :: j :: l, h1, h2 =>
        have hi := (h1 i).mp (by simp)
        have hj := (h1 j).mp (by simp)
        rw [List.pairwise_cons] at h2
        have := h2.1 j (by simp)
        omega
    rw [hev, hl, this]; simp
  · exact absurd ((he e).mpr rfl) (hn e)

/-- Three expectations in a lazy and a greedy sequence shared by two mocks; the second one is applicable
because the first one is satisfied and the third one untouched. -/
example : ∃ (tr : Trace Nat) (w : World Nat) (x : Exp Nat), Reach tr w ∧ w.exps[1]? = some x ∧
    x.alive = true ∧ x.control.isApplicable w.seqs = .ok true :=
  ⟨_, _, _, reach_final [.newMock, .newMock, .newSequence .lazy, .newSequence .greedy,
    .expect 0 1 2 [0, 1] [], .expect 1 1 1 [1, 0] [], .expect 0 1 1 [0] [onlyArg 3], .call 0 5],
    rfl, rfl, rfl⟩

/-! ### C05 -/

/-- C05: when `b` resolves a call, everything attached earlier to one of its sequences has reached its
lower limit, and never resolves a call again. -/
theorem C05_order {pre post : Trace α} {op : Op α} {ev : List Event} {w : World α}
    (h : Reach (pre ++ (op, ev) :: post) w) {a b s : Nat} (hb : Event.fullMatch b ∈ ev)
    (hab : a < b) (has : Trace.attached (pre ++ (op, ev) :: post) a s)
    (hbs : Trace.attached (pre ++ (op, ev) :: post) b s) :
    pre.attached a s ∧ ¬ pre.tooFew a ∧ ∀ st ∈ post, Event.fullMatch a ∉ st.2 := by
  obtain ⟨w0, w1, h0, hs⟩ := h.split
  obtain ⟨m, c, hop, hcand⟩ := fullMatch_source h0 hs hb
  obtain ⟨⟨hl, db, hdb, _⟩, hap⟩ := hcand
  have hbs' : pre.attached b s := by
    obtain ⟨d, hd, hds⟩ := hbs
    rw [decl_mono hdb] at hd
    injection hd with hd
    exact ⟨db, hdb, hd ▸ hds⟩
  obtain ⟨da, hda, hda'⟩ := decl_of_later (post := (op, ev) :: post) h0 hab hdb
  have has' : pre.attached a s := by
    obtain ⟨d, hd, hds⟩ := has
    rw [hda'] at hd
    injection hd with hd
    exact ⟨da, hda, hd ▸ hds⟩
  refine ⟨has', (hap.2 s hbs').1 a hab has', ?_⟩
  intro st hst hfm
  obtain ⟨p1, p2, rfl⟩ := List.append_of_mem hst
  have heq : pre ++ (op, ev) :: (p1 ++ st :: p2) = (pre ++ (op, ev) :: p1) ++ (st.1, st.2) :: p2 := by simp
  rw [heq] at h
  obtain ⟨w2, w3, h2, hs2⟩ := h.split
  obtain ⟨m', c', _, hcand'⟩ := fullMatch_source h2 hs2 hfm
  have hturn := hcand'.2.2 s (attached_mono has')
  have := hturn.2 b hab (attached_mono hbs')
  have hmem : Event.fullMatch b ∈ Trace.events (pre ++ (op, ev) :: p1) := by
    rw [mem_events]
    exact ⟨(op, ev), by simp, hb⟩
  exact matched_pos hmem this

/-- The expectation that resolved a call, if the event says so. -/
def Event.resolvedBy : Event → Option Nat
  | .fullMatch e => some e
  | _ => none

/-- The expectations that resolved the calls of a history, in the order of the calls. -/
def Trace.resolved (tr : Trace α) : List Nat := tr.events.filterMap Event.resolvedBy

theorem mem_resolved {tr : Trace α} {e : Nat} : e ∈ tr.resolved ↔ Event.fullMatch e ∈ tr.events := by
  unfold Trace.resolved
  rw [List.mem_filterMap]
  constructor
  · rintro ⟨x, hx, hxe⟩
    cases x <;> simp [Event.resolvedBy] at hxe
    subst hxe
    exact hx
  · intro h; exact ⟨_, h, rfl⟩

/-- C05: the calls resolved by the expectations of one sequence occur in attachment order, over any
number of mocks. (`es` are any of the expectations attached to `s`; the resolving expectations
restricted to them form an ascending list.) -/
theorem C05_attachment_order {tr : Trace α} {w : World α} (h : Reach tr w) (s : Nat) (es : List Nat)
    (hes : ∀ e ∈ es, tr.attached e s) :
    (tr.resolved.filter (fun e => es.contains e)).Pairwise (· ≤ ·) := by
  suffices hgen : ∀ {tr : Trace α} {w : World α}, Reach tr w →
      (tr.resolved.filter (fun e => es.contains e)).Pairwise
        (fun x y => (∀ post, (∃ w', Reach (tr ++ post) w') → Trace.attached (tr ++ post) x s →
          Trace.attached (tr ++ post) y s → x ≤ y)) by
    have hp := hgen h
    rw [List.pairwise_iff_forall_sublist] at hp ⊢
    intro x y hxy
    have hx : x ∈ es := by
      have : x ∈ tr.resolved.filter (fun e => es.contains e) := hxy.subset (by simp)
      rw [List.mem_filter, List.contains_iff_mem] at this
      exact this.2
    have hy : y ∈ es := by
      have : y ∈ tr.resolved.filter (fun e => es.contains e) := hxy.subset (by simp)
      rw [List.mem_filter, List.contains_iff_mem] at this
      exact this.2
    have := hp hxy []
    rw [List.append_nil] at this
    exact this ⟨w, h⟩ (hes x hx) (hes y hy)
  intro tr w h
  induction h with
  | init => simp [Trace.resolved, Trace.events]
  | @step tr w w' op ev hr hs ih =>
    have hres : Trace.resolved (tr ++ [(op, ev)]) = tr.resolved ++ ev.filterMap Event.resolvedBy := by
      simp [Trace.resolved, events_snoc]
    rw [hres, List.filter_append, List.pairwise_append]
    refine ⟨?_, ?_, ?_⟩
    · refine ih.imp ?_
      intro x y hxy post
      have := hxy ((op, ev) :: post)
      simpa using this
    · -- one operation resolves at most one call
      have hone : (ev.filterMap Event.resolvedBy).length ≤ 1 := by
        by_cases hex : ∃ e, Event.fullMatch e ∈ ev
        · obtain ⟨e, he⟩ := hex
          obtain ⟨m, a, rfl, _⟩ := fullMatch_source hr hs he
          obtain ⟨us, last, hev, _, _⟩ := C10_outcome hr hs
          rw [hev, List.filterMap_append]
          have : (us.map Event.unhandled).filterMap Event.resolvedBy = [] := by
            rw [List.filterMap_eq_nil_iff]
            intro x hx
            obtain ⟨i, _, rfl⟩ := List.mem_map.mp hx
            rfl
          rw [this, List.nil_append]
          exact List.length_filterMap_le _ _
        · have : ev.filterMap Event.resolvedBy = [] := by
            rw [List.filterMap_eq_nil_iff]
            intro x hx
            cases x <;> simp [Event.resolvedBy]
            exact hex ⟨_, hx⟩
          rw [this]; simp
      have := Nat.le_trans (List.length_filter_le (fun e => es.contains e) (ev.filterMap Event.resolvedBy)) hone
      match (ev.filterMap Event.resolvedBy).filter (fun e => es.contains e), this with
      | [], _ => exact List.Pairwise.nil
      | [_], _ => simp
      | _ :: _ :: _, hlen => simp at hlen
    · intro x hx y hy post hpost hxs hys
      have hx' : Event.fullMatch x ∈ tr.events := mem_resolved.mp (List.mem_filter.mp hx).1
      have hy' : Event.fullMatch y ∈ ev := by
        have := (List.mem_filter.mp hy).1
        rw [List.mem_filterMap] at this
        obtain ⟨z, hz, hzy⟩ := this
        cases z <;> simp [Event.resolvedBy] at hzy
        subst hzy
        exact hz
      refine Nat.le_of_not_lt (fun hlt => ?_)
      obtain ⟨w2, h2⟩ := hpost
      have heq : tr ++ [(op, ev)] ++ post = tr ++ (op, ev) :: post := by simp
      rw [heq] at h2 hxs hys
      -- `y < x`, `x` matched before
      rw [mem_events] at hx'
      obtain ⟨st, hst, hxst⟩ := hx'
      obtain ⟨p1, p2, hp⟩ := List.append_of_mem hst
      have heq2 : tr ++ (op, ev) :: post = p1 ++ (st.1, st.2) :: (p2 ++ (op, ev) :: post) := by
        rw [hp]; simp
      rw [heq2] at h2 hxs hys
      exact (C05_order h2 hxst hlt hys hxs).2.2 (op, ev) (by simp) hy'

/-- Two mocks sharing a sequence: the calls are resolved in the order 0, 0, 1, 2. -/
example : ∃ (tr : Trace Nat) (w : World Nat), Reach tr w ∧ tr.resolved = [0, 0, 1, 2] ∧
    (∀ e ∈ [0, 1, 2], tr.attached e 0) := by
  refine ⟨_, _, reach_final [.newMock, .newMock, .newSequence .lazy,
    .expect 0 1 2 [0] [], .expect 1 1 1 [0] [], .expect 0 0 4 [0] [onlyArg 3],
    .call 0 5, .call 0 3, .call 1 3, .call 0 3], rfl, ?_⟩
  intro e he
  simp only [List.mem_cons, List.not_mem_nil, or_false] at he
  rcases he with rfl | rfl | rfl
  · exact ⟨_, rfl, List.mem_singleton.mpr rfl⟩
  · exact ⟨_, rfl, List.mem_singleton.mpr rfl⟩
  · exact ⟨_, rfl, List.mem_singleton.mpr rfl⟩

end Mimic
