import Verif.Proofs.Watched
import Verif.Props.Watchers

/-!
# Helper lemmas about assignments of watched objects
-/

set_option autoImplicit false

namespace Mimic

variable {α : Type} {a0 : Trigger α}

theorem moveAssign_mocks {ww ww' : WWorld α} {d s : Nat} {log : List (WEvent α)}
    (hs : ww.step a0 (.moveAssign d s) = .ok (ww', log)) (ht : thrown log = false) (hne : d ≠ s) (o : Nat) :
    mockAt ww'.objs o = if o = s then none else if o = d then mockAt ww.objs s else mockAt ww.objs o := by
  cases WStep.of_step hs with
  | make hop => simp at hop
  | refused _ _ _ hop => simp at hop
  | moveAssignSelfL => exact absurd rfl hne
  | moveAssignSelfR => exact absurd rfl hne
  | moveAssignL hx hy =>
    have := obj_some hx
    have := obj_some hy
    simp only [mockAt_set]
    grind
  | moveAssignR hx hy =>
    have := obj_some hx
    have := obj_some hy
    simp only [mockAt_set]
    grind
  | moveAssignRfail => simp [thrown] at ht

/-- Assignments between corresponding watchers. -/
structure Pairing (ps : List (Nat × Nat)) : Prop where
  dst : (ps.map (·.1)).Nodup
  src : (ps.map (·.2)).Nodup
  apart : ∀ p ∈ ps, ∀ q ∈ ps, p.1 ≠ q.2

theorem Pairing.tail {p : Nat × Nat} {ps : List (Nat × Nat)} (h : Pairing (p :: ps)) : Pairing ps :=
  ⟨(List.nodup_cons.mp h.dst).2, (List.nodup_cons.mp h.src).2, fun a ha b hb => h.apart a (by simp [ha]) b (by simp [hb])⟩

theorem runs_moveAssigns {ww ww' : WWorld α} {tr : WTrace α} (hr : WRuns a0 ww tr ww') {ps : List (Nat × Nat)}
    (hp : tr.map (·.1) = ps.map (fun p => .moveAssign p.1 p.2)) (hq : quiet tr) (hn : Pairing ps) :
    (∀ p ∈ ps, mockAt ww'.objs p.1 = mockAt ww.objs p.2 ∧ mockAt ww'.objs p.2 = none) ∧
    ∀ o, (∀ p ∈ ps, o ≠ p.1 ∧ o ≠ p.2) → mockAt ww'.objs o = mockAt ww.objs o := by
  induction hr generalizing ps with
  | nil ww =>
    have : ps = [] := by simpa using hp.symm
    subst this
    simp
  | @cons ww ww1 ww2 op log tr hs hr ih =>
    cases ps with
    | nil => simp at hp
    | cons p ps =>
      simp only [List.map_cons, List.cons.injEq] at hp
      obtain ⟨rfl, hp⟩ := hp
      have ht : thrown log = false := hq (WOp.moveAssign p.1 p.2, log) (by simp)
      have hne : p.1 ≠ p.2 := hn.apart p (by simp) p (by simp)
      have hm := moveAssign_mocks hs ht hne
      obtain ⟨ih1, ih2⟩ := ih hp (fun st hst => hq st (by simp [hst])) hn.tail
      have hout : ∀ q ∈ ps, p.1 ≠ q.1 ∧ p.1 ≠ q.2 ∧ p.2 ≠ q.1 ∧ p.2 ≠ q.2 := by
        intro q hq
        have h1 := (List.nodup_cons.mp hn.dst).1
        have h2 := (List.nodup_cons.mp hn.src).1
        refine ⟨fun h => h1 ?_, hn.apart p (by simp) q (by simp [hq]), fun h => hn.apart q (by simp [hq]) p (by simp) h.symm, fun h => h2 ?_⟩
        · exact List.mem_map.mpr ⟨q, hq, h.symm⟩
        · exact List.mem_map.mpr ⟨q, hq, h.symm⟩
      refine ⟨?_, ?_⟩
      · intro q hqm
        rcases List.mem_cons.mp hqm with rfl | hqm
        · rw [ih2 q.1 (fun r hr => ⟨(hout r hr).1, (hout r hr).2.1⟩), ih2 q.2 (fun r hr => ⟨(hout r hr).2.2.1, (hout r hr).2.2.2⟩),
            hm, hm, if_neg hne, if_pos rfl, if_pos rfl]
          exact ⟨rfl, rfl⟩
        · have h3 := hout q hqm
          rw [(ih1 q hqm).1, hm, if_neg (Ne.symm h3.2.2.2), if_neg (Ne.symm h3.2.1)]
          exact ⟨rfl, (ih1 q hqm).2⟩
      · intro o ho
        have h0 := ho p (by simp)
        rw [ih2 o (fun q hq => ho q (by simp [hq])), hm, if_neg h0.2, if_neg h0.1]

theorem runs_moveAssigns_trigger {tr inner : WTrace α} {ww ww' : WWorld α} (h : WReach a0 tr ww) (hr : WRuns a0 ww inner ww')
    {ps : List (Nat × Nat)} (hp : inner.map (·.1) = ps.map (fun p => .moveAssign p.1 p.2)) (hq : quiet inner) (hn : Pairing ps)
    {o k : Nat} {kd : Watcher} (hc : mockAt ww.objs o = some k) (hk : tr.isKind o kd) :
    WTrace.triggers inner k = if o ∈ ps.map (·.2) ∧ kd = .relocation then 1 else 0 := by
  induction hr generalizing ps tr o with
  | nil ww =>
    have : ps = [] := by simpa using hp.symm
    subst this
    simp [WTrace.triggers]
  | @cons ww ww1 ww2 op log inner hs hr ih =>
    cases ps with
    | nil => simp at hp
    | cons p ps =>
      simp only [List.map_cons, List.cons.injEq] at hp
      obtain ⟨rfl, hp⟩ := hp
      have ht : thrown log = false := hq (WOp.moveAssign p.1 p.2, log) (by simp)
      have hne : p.1 ≠ p.2 := hn.apart p (by simp) p (by simp)
      have hm := moveAssign_mocks hs ht hne
      have hcc := (h.inv.carries o k).mpr hc
      have h1 := C34_trigger h hs (carries_watch hcc)
      rw [triggers_cons]
      simp only
      have hsrc := (List.nodup_cons.mp hn.src).1
      have hrep : (∃ o', tr.carries o' k ∧ tr.reportable (.moveAssign p.1 p.2) o') ↔ o = p.2 ∧ kd = .relocation := by
        constructor
        · rintro ⟨o', ho', (⟨_, hx⟩ | ⟨hx, hx2⟩)⟩
          · simp [ends] at hx
          · have := (C34_carrier h).1 _ _ _ hcc ho'
            subst this
            have h3 := (h.inv2.kind _ _).mp hx
            rw [(h.inv2.kind _ _).mp hk] at h3
            simp [movesFrom] at h3 hx2
            exact ⟨hx2.symm, h3⟩
        · rintro ⟨rfl, rfl⟩
          exact ⟨p.2, hcc, Or.inr ⟨hk, Or.inr ⟨p.1, rfl⟩⟩⟩
      by_cases hop : o = p.2
      · subst hop
        have hcar : (tr ++ [(WOp.moveAssign p.1 p.2, log)] : WTrace α).carries p.1 k := by
          rw [(WReach.step h hs).inv.carries, hm, if_neg hne, if_pos rfl, hc]
        have hkd := ih (.step h hs) hp (fun st hst => hq st (by simp [hst])) hn.tail (o := p.1)
          (by rw [hm, if_neg hne, if_pos rfl, hc]) (carrier_kind h hs hcc hk hcar)
        rw [if_neg] at hkd
        · rw [hkd, h1]
          simp [hrep]
        · rintro ⟨hx, _⟩
          obtain ⟨q, hq, hqe⟩ := List.mem_map.mp hx
          exact hn.apart p (by simp) q (by simp [hq]) hqe.symm
      · by_cases hop1 : o = p.1
        · subst hop1
          have hun : ∀ o', ¬ (tr ++ [(WOp.moveAssign p.1 p.2, log)] : WTrace α).carries o' k := by
            intro o' ho'
            rw [(WReach.step h hs).inv.carries, hm] at ho'
            split at ho'
            · simp at ho'
            · split at ho'
              · exact hop (h.inv.inj _ _ _ hc ho')
              · rename_i h2
                exact h2 (h.inv.inj _ _ _ ho' hc)
          have := (uncarried_forever (hr.reach (.step h hs)) (k := k) (watch_snoc.mpr (Or.inl (carries_watch hcc))) hun).2
          rw [this, h1, if_neg, if_neg]
          · rintro ⟨hx, _⟩
            obtain ⟨q, hq, hqe⟩ := List.mem_map.mp hx
            exact hn.apart p (by simp) q hq hqe.symm
          · rw [hrep]; exact fun hx => hop hx.1
        · have h2 := ih (.step h hs) hp (fun st hst => hq st (by simp [hst])) hn.tail (o := o)
            (by rw [hm, if_neg hop, if_neg hop1, hc]) (isKind_append hk)
          have h3 : o ∈ (p :: ps).map (·.2) ↔ o ∈ ps.map (·.2) := by
            rw [List.map_cons, List.mem_cons]
            exact ⟨fun hx => hx.resolve_left hop, Or.inr⟩
          have h4 : triggers log k = 0 := by rw [h1, if_neg]; rw [hrep]; exact fun hx => hop hx.1
          rw [h2, h4, Nat.zero_add]
          simp only [h3]

end Mimic
