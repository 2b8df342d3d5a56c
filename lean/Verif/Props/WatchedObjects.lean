import Verif.Proofs.WatchedAssign
import Verif.Props.Watchers

/-!
# C49, C50: watched objects
-/

set_option autoImplicit false
set_option linter.unusedSimpArgs false

namespace Mimic

variable {α : Type} {a0 : Trigger α}

/-- C49: whatever is done with watched objects is a history of operations on single watchers, so all that holds for those
(C34, C35, C36) holds here too. -/
theorem C49_watchers {tr : CTrace α} {cw : CWorld α} (h : CReach a0 tr cw) : WReach a0 tr.flat cw.ww := h.inv.reach

/-- C49: a new object has the watchers that its type names, in this order; each has a watch of its own. -/
theorem C49_create {tr : CTrace α} {cw cw' : CWorld α} (h : CReach a0 tr cw) {base : BaseSpec} {kinds : List Watcher}
    {log : CLog α} (hs : cw.step a0 (.create base kinds false) = .ok (cw', log)) :
    ∃ c ps, log.made = some c ∧ tr.parts c = none ∧
      (tr ++ [(.create base kinds false, log)] : CTrace α).parts c = some ps ∧ ps.map (·.2) = kinds ∧
      (ps.map (·.1)).Nodup := by
  have hi' := (CReach.step h hs).inv
  have hi := h.inv
  simp only [CWorld.step] at hs
  rcases construct_spec (by intro op hop; simp at hop; obtain ⟨k, _, rfl⟩ := hop; trivial) hs with
    ⟨_, _, hmade, hr, hops, hq, hlen, hobjs⟩ |
    ⟨_, _, _, _, ops1, ops2, t1, t2, t3, ww1, ww2, hops, _, _, _, _, _, r2, _, _, _, hcase⟩
  · obtain ⟨ps, h1, h2, h3⟩ := hi'.parts cw.objs.length _ (by rw [hobjs]; simp; rfl)
    refine ⟨cw.objs.length, ps, hmade, hi.fresh _ (Nat.le_refl _), h1, h3, ?_⟩
    rw [h2]
    exact List.nodup_range'
  · exfalso
    rcases hcase with ⟨_, hf, _⟩ | ⟨op, rest, l, rfl, rfl, ht⟩
    · simp at hf
    · have hop : op ∈ kinds.map (WOp.create (α := α)) := by rw [hops]; simp
      simp at hop
      obtain ⟨k, _, rfl⟩ := hop
      cases r2 with
      | cons hst _ =>
        obtain ⟨_, _, s, hx, _⟩ := makes_fail (by trivial) hst ht
        simp at hx

/-- C49: moving a watched object moves all its watches to the corresponding watchers of the new object; each relocation
watch is triggered once and no lifetime watch is triggered. -/
theorem C49_move {tr : CTrace α} {cw cw' : CWorld α} (h : CReach a0 tr cw) {c : Nat} {fails : Bool} {log : CLog α}
    (hs : cw.step a0 (.move c fails) = .ok (cw', log)) (ht : log.threw = false) {ps : List (Nat × Watcher)}
    (hp : tr.parts c = some ps) :
    ∃ c' ps', log.made = some c' ∧ tr.parts c' = none ∧
      (tr ++ [(.move c fails, log)] : CTrace α).parts c' = some ps' ∧ ps'.map (·.2) = ps.map (·.2) ∧
      ∀ (i : Nat) o kd k, ps[i]? = some (o, kd) → tr.flat.carries o k →
        (∃ o', ps'[i]? = some (o', kd) ∧ (tr ++ [(.move c fails, log)] : CTrace α).flat.carries o' k) ∧
        (∀ k', ¬ (tr ++ [(.move c fails, log)] : CTrace α).flat.carries o k') ∧
        WTrace.triggers log.inner k = if kd = .relocation then 1 else 0 := by
  have hi' := (CReach.step h hs).inv
  have hi := h.inv
  simp only [CWorld.step] at hs
  split at hs
  · simp at hs
  · rename_i x hx
    have hx' := (cobj_some hx).1
    obtain ⟨ps0, hp0, hp1, hp2⟩ := hi.parts c x hx'
    rw [hp] at hp0
    simp only [Option.some.injEq] at hp0
    subst hp0
    rcases construct_spec (by intro op hop; simp at hop; obtain ⟨k, _, rfl⟩ := hop; trivial) hs with
      ⟨_, _, hmade, hr, hops, hq, hlen, hobjs⟩ | ⟨hf, _⟩
    · have hget : cw'.objs[cw.objs.length]? = some ⟨x.base, x.kinds,
          List.range' cw.ww.objs.length (x.parts.map (WOp.move (α := α))).length, true⟩ := by rw [hobjs]; simp
      obtain ⟨ps', h1, h2, h3⟩ := hi'.parts cw.objs.length _ hget
      simp only [List.length_map] at h2
      have hn := hi.nodup c x hx'
      have hlt := hi.lt c x hx'
      have hmv := runs_moves hr hops hq hn hlt
      refine ⟨cw.objs.length, ps', hmade, hi.fresh _ (Nat.le_refl _), h1, by rw [h3, hp2], ?_⟩
      intro i o kd k hio hc
      have hmem : (o, kd) ∈ ps := List.mem_of_getElem? hio
      have hoi : x.parts[i]? = some o := by rw [← hp1, List.getElem?_map, hio]; rfl
      have hom : o ∈ x.parts := List.mem_of_getElem? hoi
      have hil : i < x.parts.length := (List.getElem?_eq_some_iff.mp hoi).1
      have hck := (hi.reach.inv.carries o k).mp hc
      simp only [hi'.reach.inv.carries]
      refine ⟨⟨cw.ww.objs.length + i, ?_, ?_⟩, fun k' => ?_, ?_⟩
      · have e1 : (ps'.map (·.1))[i]? = some (cw.ww.objs.length + i) := by
          rw [h2, List.getElem?_range' hil]; simp
        have e2 : (ps'.map (·.2))[i]? = some kd := by
          rw [h3, ← hp2, List.getElem?_map, hio]; rfl
        rw [List.getElem?_map] at e1 e2
        cases hps : ps'[i]? with
        | none => rw [hps] at e1; simp at e1
        | some q =>
          rw [hps] at e1 e2
          simp only [Option.map_some, Option.some.injEq] at e1 e2
          rw [← e1, ← e2]
      · rw [hmv, if_neg (by omega), Nat.add_sub_cancel_left, hoi]
        exact hck
      · rw [hmv, if_pos (hlt o hom), if_pos hom]; simp
      · have := runs_moves_trigger hi.reach hr hops hq hn hlt hck (hi.kind c ps hp _ hmem)
        rw [this]
        simp [hom]
    · rw [ht] at hf; simp at hf

/-- C50: if a move does not succeed, then there are some first watchers that had been moved before: these watches are gone
for ever, and the lifetime watches among them were triggered, although no watched object was destroyed. The other watches stay
where they are. Either the watcher that failed is a relocation watcher, or all were moved and `Base` failed. -/
theorem C50_failed_move {tr : CTrace α} {cw cw' : CWorld α} (h : CReach a0 tr cw) {c : Nat} {fails : Bool} {log : CLog α}
    (hs : cw.step a0 (.move c fails) = .ok (cw', log)) (ht : log.threw = true) {ps : List (Nat × Watcher)}
    (hp : tr.parts c = some ps) :
    log.made = none ∧
    ∃ n : Nat, ((n = ps.length ∧ fails = true) ∨ ∃ o, ps[n]? = some (o, Watcher.relocation)) ∧
      ∀ (i : Nat) o kd k, ps[i]? = some (o, kd) → tr.flat.carries o k →
        if i < n then
          (∀ o', ¬ (tr ++ [(.move c fails, log)] : CTrace α).flat.carries o' k) ∧
          (kd = .lifetime → WTrace.triggers log.inner k = 1)
        else
          (tr ++ [(.move c fails, log)] : CTrace α).flat.carries o k ∧
          (kd = .lifetime → WTrace.triggers log.inner k = 0) := by
  have hi' := (CReach.step h hs).inv
  have hi := h.inv
  simp only [CWorld.step] at hs
  split at hs
  · simp at hs
  · rename_i x hx
    have hx' := (cobj_some hx).1
    obtain ⟨ps0, hp0, hp1, hp2⟩ := hi.parts c x hx'
    rw [hp] at hp0
    simp only [Option.some.injEq] at hp0
    subst hp0
    rcases construct_spec (by intro op hop; simp at hop; obtain ⟨k, _, rfl⟩ := hop; trivial) hs with
      ⟨hf, _⟩ | ⟨_, _, hmade, hobjs, ops1, ops2, t1, t2, t3, ww1, ww2, hops, hin, r1, m1, q1, l1, r2, r3, q3, m3, hcase⟩
    · rw [ht] at hf; simp at hf
    · have hn := hi.nodup c x hx'
      have hlt := hi.lt c x hx'
      -- the first operations move the first parts
      obtain ⟨qs1, qs2, hqs, e1, e2⟩ := List.map_eq_append_iff.mp hops
      have hn1 : qs1.Nodup := by rw [hqs] at hn; exact (List.nodup_append.mp hn).1
      have hn2 := (List.nodup_append.mp (hqs ▸ hn)).2.2
      have hlt1 : ∀ o ∈ qs1, o < cw.ww.objs.length := fun o ho => hlt o (by rw [hqs]; simp [ho])
      have hlen1 : ops1.length = qs1.length := by rw [← e1]; simp
      have mm1 := runs_moves r1 (by rw [m1, e1]) q1 hn1 hlt1
      -- the failing operation changes nothing
      have w12 : ww2.objs = ww1.objs := by
        rcases hcase with ⟨_, _, rfl⟩ | ⟨op, rest, l, rfl, rfl, hth⟩
        · cases r2; rfl
        · cases r2 with
          | cons hst hnil =>
            cases hnil
            have hop : op ∈ x.parts.map (WOp.move (α := α)) := by rw [hops]; simp
            simp at hop
            obtain ⟨k, _, rfl⟩ := hop
            exact (makes_fail (by trivial) hst hth).1
      obtain ⟨mm3, _⟩ := runs_drops r3 m3
      have hreach1 := r1.reach hi.reach
      have hreach2 := r2.reach hreach1
      have hfinal : ∀ o, mockAt cw'.ww.objs o = if o < cw.ww.objs.length then
          (if o ∈ qs1 then none else mockAt cw.ww.objs o) else none := by
        intro o
        rw [mm3, w12, mm1]
        simp only [List.mem_reverse, List.mem_range'_1, hlen1]
        by_cases h1 : o < cw.ww.objs.length
        · rw [if_neg (by omega)]
          simp [h1]
        · rw [if_neg h1]
          by_cases h2 : o < cw.ww.objs.length + qs1.length
          · rw [if_pos (by omega)]
            simp [h1]
          · rw [if_neg (by omega), if_neg h1, List.getElem?_eq_none (by omega)]
            simp
      refine ⟨hmade, qs1.length, ?_, ?_⟩
      · rcases hcase with ⟨rfl, hf, rfl⟩ | ⟨op, rest, l, rfl, rfl, hth⟩
        · left
          have : qs2 = [] := by simpa using e2
          subst this
          have hl := congrArg List.length hp1
          rw [hqs] at hl
          simp at hl
          exact ⟨hl.symm, hf⟩
        · right
          cases r2 with
          | cons hst hnil =>
            cases hqs2 : qs2 with
            | nil => rw [hqs2] at e2; simp at e2
            | cons q qs3 =>
              rw [hqs2] at e2 hqs
              simp only [List.map_cons, List.cons.injEq] at e2
              obtain ⟨rfl, _⟩ := e2
              obtain ⟨_, _, s, hse, hk⟩ := makes_fail (by trivial) hst hth
              simp only [WOp.move.injEq] at hse
              subst hse
              have hg : (ps.map (·.1))[qs1.length]? = some q := by rw [hp1, hqs]; simp
              rw [List.getElem?_map] at hg
              cases hpq : ps[qs1.length]? with
              | none => rw [hpq] at hg; simp at hg
              | some p =>
                obtain ⟨po, pk⟩ := p
                rw [hpq] at hg
                simp only [Option.map_some, Option.some.injEq] at hg
                subst hg
                have hkk := hi.kind c ps hp _ (List.mem_of_getElem? hpq)
                have h3 := (hreach1.inv2.kind _ _).mp (isKind_append (post := t1) hkk)
                rw [hk] at h3
                simp only [Option.some.injEq] at h3
                exact ⟨po, by rw [h3]⟩
      · intro i o kd k hio hc
        have hmem : (o, kd) ∈ ps := List.mem_of_getElem? hio
        have hoi : x.parts[i]? = some o := by rw [← hp1, List.getElem?_map, hio]; rfl
        have hom : o ∈ x.parts := List.mem_of_getElem? hoi
        have hck := (hi.reach.inv.carries o k).mp hc
        have hkind := hi.kind c ps hp _ hmem
        have hfl : WReach a0 (tr.flat ++ log.inner) cw'.ww := by
          have := hi'.reach; rw [cflat_snoc] at this; exact this
        have hmost : kd = .lifetime → WTrace.triggers log.inner k ≤ 1 := by
          rintro rfl
          exact C34_at_most_once hfl hc hkind
        simp only [hi'.reach.inv.carries]
        split
        · rename_i hin1
          have hoq : qs1[i]? = some o := by
            rw [hqs, List.getElem?_append_left hin1] at hoi; exact hoi
          have hoq1 : o ∈ qs1 := List.mem_of_getElem? hoq
          refine ⟨fun o' => ?_, ?_⟩
          · rw [hfinal]
            split
            · split
              · simp
              · intro hc'
                have := hi.reach.inv.inj o o' k hck hc'
                subst this
                contradiction
            · simp
          · rintro rfl
            have hm2 : mockAt ww2.objs (cw.ww.objs.length + i) = some k := by
              rw [w12, mm1, if_neg (by omega), Nat.add_sub_cancel_left, hoq]
              exact hck
            have hk2 : (tr.flat ++ t1 ++ t2 : WTrace α).isKind (cw.ww.objs.length + i) .lifetime := by
              have hcar1 : (tr.flat ++ t1 : WTrace α).carries (cw.ww.objs.length + i) k := by
                rw [hreach1.inv.carries, mm1, if_neg (by omega), Nat.add_sub_cancel_left, hoq]; exact hck
              exact isKind_append (carrier_kind_runs hi.reach r1 hc hkind hcar1)
            have := runs_drops_trigger hreach2 r3 m3 (o := cw.ww.objs.length + i)
              (by simp [List.mem_range'_1, hlen1]; omega) hm2 hk2
            have h2 := hmost rfl
            rw [hin] at h2 ⊢
            rw [triggers_append] at h2 ⊢
            omega
        · rename_i hin1
          have hoq : o ∉ qs1 := by
            intro hc'
            rw [hqs, List.getElem?_append_right (by omega)] at hoi
            exact hn2 o hc' o (List.mem_of_getElem? hoi) rfl
          have hfo : mockAt cw'.ww.objs o = some k := by
            rw [hfinal, if_pos (hlt o hom), if_neg hoq, hck]
          refine ⟨hfo, ?_⟩
          rintro rfl
          rcases Nat.lt_or_ge 0 (WTrace.triggers log.inner k) with h0 | h0
          · exfalso
            exact triggered_not_carried hfl hc hkind h0 ((hfl.inv.carries o k).mpr hfo)
          · omega

/-- C50: with the relocation watcher first an unexpected relocation leaves everything as it was. -/
theorem C50_relocation_first_partial {tr : CTrace α} {cw cw' : CWorld α} (h : CReach a0 tr cw) {c : Nat} {log : CLog α}
    (hs : cw.step a0 (.move c false) = .ok (cw', log)) (ht : log.threw = true) {r l : Nat}
    (hp : tr.parts c = some [(r, .relocation), (l, .lifetime)]) {k : Nat} (hc : tr.flat.carries l k) :
    (tr ++ [(.move c false, log)] : CTrace α).flat.carries l k ∧ WTrace.triggers log.inner k = 0 := by
  obtain ⟨_, n, hn, hall⟩ := C50_failed_move h hs ht hp
  have := hall 1 l .lifetime k rfl hc
  rcases hn with ⟨_, hf⟩ | ⟨o, ho⟩
  · simp at hf
  · cases n with
    | zero => simpa using this
    | succ n =>
      cases n with
      | zero => simp at ho
      | succ n => simp at ho

/-- C50: with the lifetime watcher first an unexpected relocation uses up the destruction watch: it is triggered and gone,
although the object was not destroyed. -/
theorem C50_lifetime_first {tr : CTrace α} {cw cw' : CWorld α} (h : CReach a0 tr cw) {c : Nat} {log : CLog α}
    (hs : cw.step a0 (.move c false) = .ok (cw', log)) (ht : log.threw = true) {r l : Nat}
    (hp : tr.parts c = some [(l, .lifetime), (r, .relocation)]) {k : Nat} (hc : tr.flat.carries l k) :
    (∀ o, ¬ (tr ++ [(.move c false, log)] : CTrace α).flat.carries o k) ∧ WTrace.triggers log.inner k = 1 := by
  obtain ⟨_, n, hn, hall⟩ := C50_failed_move h hs ht hp
  have := hall 0 l .lifetime k rfl hc
  rcases hn with ⟨_, hf⟩ | ⟨o, ho⟩
  · simp at hf
  · cases n with
    | zero => simp at ho
    | succ n => simpa using this

/-- C49: no exception leaves a move construction of an object whose `Base` promises this, nor its move assignment, nor its
destructor (the program is terminated instead). -/
theorem C49_noexcept {cw cw' : CWorld α} {op : COp α} {log : CLog α} (hs : cw.step a0 op = .ok (cw', log)) {c : Nat}
    {x : Watched} (hx : cw.obj c = some x)
    (hop : (∃ f, op = .move c f ∧ x.base.nothrowMove = true) ∨
      (∃ d f, op = .moveAssign d c f ∧ x.base.nothrowMoveAssign = true) ∨ (op = .drop c ∧ x.base.nothrowDtor = true)) :
    log.threw = false := by
  rcases hop with ⟨f, rfl, hb⟩ | ⟨d, f, rfl, hb⟩ | ⟨rfl, hb⟩
  · simp only [CWorld.step, hx] at hs
    rcases construct_spec (by intro op hop; simp at hop; obtain ⟨k, _, rfl⟩ := hop; trivial) hs with ⟨hf, _⟩ | ⟨_, hn, _⟩
    · exact hf
    · rw [hb] at hn; simp at hn
  · simp only [CWorld.step, hx] at hs
    split at hs
    · rename_i y z hy hz
      simp only [Option.some.injEq] at hz
      subst hz
      split at hs
      · split at hs
        · simp at hs
        · rename_i ww' t r ha
          split at hs
          · simp at hs
          · rename_i hnf
            simp only [Except.ok.injEq, Prod.mk.injEq] at hs
            obtain ⟨rfl, rfl⟩ := hs
            obtain ⟨_, _, h3⟩ := assign_runs ha
            cases r with
            | false => simp only [hb] at hnf; simpa using hnf
            | true => have := (h3 rfl).1; rw [hb] at this; simp at this
      · simp at hs
    · simp at hs
  · simp only [CWorld.step, hx] at hs
    split at hs
    · simp at hs
    · rename_i ww' t r hd
      simp only [Except.ok.injEq, Prod.mk.injEq] at hs
      obtain ⟨rfl, rfl⟩ := hs
      obtain ⟨_, _, h3, h4⟩ := dropParts_runs hd
      have hq := h4 hb
      cases r with
      | false => rfl
      | true =>
        have := h3.mp rfl
        simp at this
        obtain ⟨a, b, hab, hth⟩ := this
        have := hq _ hab
        rw [hth] at this
        simp at this

/-- C49: destroying a watched object triggers each lifetime watch that it carries exactly once, whatever happens, and an
exception leaves the destructor exactly if one of the reports was not resolved. -/
theorem C49_drop {tr : CTrace α} {cw cw' : CWorld α} (h : CReach a0 tr cw) {c : Nat} {log : CLog α}
    (hs : cw.step a0 (.drop c) = .ok (cw', log)) {ps : List (Nat × Watcher)} (hp : tr.parts c = some ps) :
    (∀ o k, (o, Watcher.lifetime) ∈ ps → tr.flat.carries o k → WTrace.triggers log.inner k = 1) ∧
    (log.threw = true ↔ ∃ st ∈ log.inner, ¬ completed st.2) ∧
    log.inner.map (·.1) = (ps.map (·.1)).reverse.map .drop := by
  have hi' := (CReach.step h hs).inv
  have hi := h.inv
  simp only [CWorld.step] at hs
  split at hs
  · simp at hs
  · rename_i x hx
    have hx' := (cobj_some hx).1
    obtain ⟨ps0, hp0, hp1, hp2⟩ := hi.parts c x hx'
    rw [hp] at hp0
    simp only [Option.some.injEq] at hp0
    subst hp0
    split at hs
    · simp at hs
    · rename_i ww' t r hd
      simp only [Except.ok.injEq, Prod.mk.injEq] at hs
      obtain ⟨rfl, rfl⟩ := hs
      obtain ⟨h1, h2, h3, h4⟩ := dropParts_runs hd
      refine ⟨fun o k hm hc => ?_, ?_, by rw [h2, hp1]⟩
      · have hkind := hi.kind c ps hp _ hm
        have ho : o ∈ x.parts := by rw [← hp1]; exact List.mem_map_of_mem hm
        have hlow := runs_drops_trigger hi.reach h1 h2 (o := o) (by simpa using ho) ((hi.reach.inv.carries o k).mp hc) hkind
        have hfl : WReach a0 (tr.flat ++ t) ww' := h1.reach hi.reach
        have := C34_at_most_once hfl hc hkind
        simp only
        omega
      · rw [h3]
        simp [thrown_iff]

/-- C49: of the operations on its watchers that one operation on a watched object consists of, at most one ends with an
exception in a program that goes on: a second one, during the unwinding or in the destructors of the other watchers,
terminates the program. -/
theorem C49_one_exception {cw cw' : CWorld α} {op : COp α} {log : CLog α} (hs : cw.step a0 op = .ok (cw', log)) {i j : Nat}
    {st st' : WOp α × List (WEvent α)} (hi : log.inner[i]? = some st) (hj : log.inner[j]? = some st')
    (ht : ¬ completed st.2) (ht' : ¬ completed st'.2) : i = j := by
  have hf : failures log.inner ≤ 1 := by
    cases op with
    | plain op =>
      simp only [CWorld.step] at hs
      split at hs
      · cases hs
      · cases hs
        simp only [failures, List.countP_singleton]
        split <;> omega
    | create base kinds fails => exact construct_failures hs
    | copy src fails =>
      simp only [CWorld.step] at hs
      split at hs
      · cases hs
      · exact construct_failures hs
    | move src fails =>
      simp only [CWorld.step] at hs
      split at hs
      · cases hs
      · exact construct_failures hs
    | copyAssign dst src fails =>
      simp only [CWorld.step] at hs
      split at hs
      · split at hs
        · split at hs
          · cases hs
          · rename_i ha
            cases hs
            exact assign_failures ha
        · cases hs
      · cases hs
    | moveAssign dst src fails =>
      simp only [CWorld.step] at hs
      split at hs
      · split at hs
        · split at hs
          · cases hs
          · rename_i ha
            split at hs
            · cases hs
            · cases hs
              exact assign_failures ha
        · cases hs
      · cases hs
    | drop c =>
      simp only [CWorld.step] at hs
      split at hs
      · cases hs
      · split at hs
        · cases hs
        · rename_i hd
          cases hs
          simpa using dropParts_failures hd
    | expect c i min max tags policies =>
      simp only [CWorld.step] at hs
      split at hs
      · cases hs
      · split at hs
        · cases hs
        · split at hs
          · cases hs
          · cases hs
            simp only [failures, List.countP_singleton]
            split <;> omega
  rw [← thrown_iff] at ht ht'
  generalize log.inner = tr at hi hj hf
  clear hs
  induction tr generalizing i j with
  | nil => simp at hi
  | cons x tr ih =>
    simp only [failures, List.countP_cons] at hf
    have pos : ∀ {n : Nat} {y : WOp α × List (WEvent α)}, tr[n]? = some y → thrown y.2 = true →
        0 < tr.countP (fun st => thrown st.2) := fun hn hy =>
      List.countP_pos_iff.mpr ⟨_, List.mem_of_getElem? hn, hy⟩
    cases i with
    | zero =>
      cases j with
      | zero => rfl
      | succ j =>
        simp only [List.getElem?_cons_zero, Option.some.injEq, List.getElem?_cons_succ] at hi hj
        subst hi
        have := pos hj ht'
        simp only [ht, if_true] at hf
        omega
    | succ i =>
      cases j with
      | zero =>
        simp only [List.getElem?_cons_zero, Option.some.injEq, List.getElem?_cons_succ] at hi hj
        subst hj
        have := pos hi ht
        simp only [ht', if_true] at hf
        omega
      | succ j =>
        simp only [List.getElem?_cons_succ] at hi hj
        rw [ih hi hj (by simp only [failures]; omega)]

/-- C49: assigning one watched object to another assigns their watchers to each other, pairwise and in order, up to the first
exception; an exception reaches the client iff one of these ended with an exception or the assignment of `Base` did. So what
`C34_copy`, `C35_discard` and `C36_travel` say applies to each pair. -/
theorem C49_assign {tr : CTrace α} {cw cw' : CWorld α} (h : CReach a0 tr cw) {d s : Nat} {fails : Bool} {log : CLog α}
    {op : COp α} {f : Nat → Nat → WOp α}
    (hop : (op = .copyAssign d s fails ∧ f = .copyAssign) ∨ (op = .moveAssign d s fails ∧ f = .moveAssign))
    (hs : cw.step a0 op = .ok (cw', log)) {ps qs : List (Nat × Watcher)} (hp : tr.parts d = some ps) (hq : tr.parts s = some qs) :
    ps.map (·.2) = qs.map (·.2) ∧ log.made = none ∧
    log.inner.map (·.1) <+: List.zipWith f (ps.map (·.1)) (qs.map (·.1)) ∧
    (log.inner.length < ps.length → ∃ st ∈ log.inner, ¬ completed st.2) ∧
    (log.threw = true ↔ fails = true ∨ ∃ st ∈ log.inner, ¬ completed st.2) := by
  have hi := h.inv
  have key : ∀ {nothrow : Bool} {x y : Watched} {ww' : WWorld α} {t : WTrace α} {r : Bool}, cw.obj d = some x → cw.obj s = some y →
      x.kinds = y.kinds → assign a0 nothrow cw.ww (List.zipWith f x.parts y.parts) = .ok (ww', t, r) →
      ps.map (·.2) = qs.map (·.2) ∧ t.map (·.1) <+: List.zipWith f (ps.map (·.1)) (qs.map (·.1)) ∧
      (t.length < ps.length → ∃ st ∈ t, ¬ completed st.2) ∧
      (r = true ↔ ∃ st ∈ t, ¬ completed st.2) := by
    intro nothrow x y ww' t r hx hy hk ha
    obtain ⟨ps0, hp0, hp1, hp2⟩ := hi.parts d x (cobj_some hx).1
    obtain ⟨qs0, hq0, hq1, hq2⟩ := hi.parts s y (cobj_some hy).1
    rw [hp, Option.some.injEq] at hp0
    rw [hq, Option.some.injEq] at hq0
    subst hp0
    subst hq0
    obtain ⟨h1, h2, h3⟩ := assign_runs ha
    have hlen : x.parts.length = y.parts.length := by
      have e1 := congrArg List.length hp1
      have e2 := congrArg List.length hp2
      have e3 := congrArg List.length hq1
      have e4 := congrArg List.length hq2
      rw [hk] at e2
      simp only [List.length_map] at e1 e2 e3 e4
      omega
    have hl : ps.length = x.parts.length := by rw [← hp1]; simp
    refine ⟨by rw [hp2, hq2, hk], ?_, ?_, ?_⟩
    · rw [hp1, hq1]
      cases r with
      | false => rw [(h2 rfl).1]; exact List.prefix_refl _
      | true =>
        obtain ⟨_, ops1, op, ops2, t1, lg, h4, rfl, rfl, _, _⟩ := h3 rfl
        rw [h4]
        exact ⟨ops2, by simp⟩
    · intro hlt
      cases r with
      | false =>
        have := congrArg List.length (h2 rfl).1
        simp [hlen] at this
        omega
      | true =>
        obtain ⟨_, ops1, op, ops2, t1, lg, h4, rfl, rfl, _, hth⟩ := h3 rfl
        exact ⟨(op, lg), by simp, thrown_iff.mp hth⟩
    · cases r with
      | false =>
        simp only [Bool.false_eq_true, false_iff, not_exists, not_and, Classical.not_not]
        intro st hst
        exact thrown_false.mp ((h2 rfl).2 st hst)
      | true =>
        obtain ⟨_, ops1, op, ops2, t1, lg, h4, rfl, rfl, _, hth⟩ := h3 rfl
        simp only [true_iff]
        exact ⟨(op, lg), by simp, thrown_iff.mp hth⟩
  rcases hop with ⟨rfl, rfl⟩ | ⟨rfl, rfl⟩
  · simp only [CWorld.step] at hs
    split at hs
    · rename_i x y hx hy
      split at hs
      · rename_i hc
        split at hs
        · simp at hs
        · rename_i ww' t r ha
          simp only [Except.ok.injEq, Prod.mk.injEq] at hs
          obtain ⟨rfl, rfl⟩ := hs
          obtain ⟨k1, k2, k3, k4⟩ := key hx hy hc.2 ha
          refine ⟨k1, rfl, k2, k3, ?_⟩
          rw [← k4]
          simp [or_comm]
      · simp at hs
    · simp at hs
  · simp only [CWorld.step] at hs
    split at hs
    · rename_i x y hx hy
      split at hs
      · rename_i hc
        split at hs
        · simp at hs
        · rename_i ww' t r ha
          split at hs
          · simp at hs
          · simp only [Except.ok.injEq, Prod.mk.injEq] at hs
            obtain ⟨rfl, rfl⟩ := hs
            obtain ⟨k1, k2, k3, k4⟩ := key hx hy hc.2 ha
            refine ⟨k1, rfl, k2, k3, ?_⟩
            rw [← k4]
            simp [or_comm]
      · simp at hs
    · simp at hs

/-- C49: move assignment moves all watches of the source to the corresponding watchers of the target, whose own watches are
discarded without being triggered; each relocation watch of the source is triggered once and no lifetime watch is. -/
theorem C49_move_assign {tr : CTrace α} {cw cw' : CWorld α} (h : CReach a0 tr cw) {d s : Nat} (hds : d ≠ s) {fails : Bool}
    {log : CLog α} (hs : cw.step a0 (.moveAssign d s fails) = .ok (cw', log)) (ht : log.threw = false)
    {ps qs : List (Nat × Watcher)} (hp : tr.parts d = some ps) (hq : tr.parts s = some qs) :
    ∀ (i : Nat) o o' kd k, ps[i]? = some (o, kd) → qs[i]? = some (o', kd) →
      (tr.flat.carries o' k →
        (tr ++ [(.moveAssign d s fails, log)] : CTrace α).flat.carries o k ∧
        (∀ k', ¬ (tr ++ [(.moveAssign d s fails, log)] : CTrace α).flat.carries o' k') ∧
        WTrace.triggers log.inner k = if kd = .relocation then 1 else 0) ∧
      (tr.flat.carries o k →
        (∀ o'', ¬ (tr ++ [(.moveAssign d s fails, log)] : CTrace α).flat.carries o'' k) ∧
        WTrace.triggers log.inner k = 0) := by
  have hi' := (CReach.step h hs).inv
  have hi := h.inv
  obtain ⟨hkk, _, hpre, hlt, hth⟩ := C49_assign h (Or.inr ⟨rfl, rfl⟩) hs hp hq
  rw [ht] at hth
  simp only [Bool.false_eq_true, false_iff, not_or] at hth
  have hlen : ps.length = qs.length := by simpa using congrArg List.length hkk
  have hnl : ¬ log.inner.length < ps.length := fun h' => hth.2 (hlt h')
  have hops : log.inner.map (·.1) = ((ps.map (·.1)).zip (qs.map (·.1))).map (fun p => WOp.moveAssign p.1 p.2) := by
    have : (List.zipWith (WOp.moveAssign (α := α)) (ps.map (·.1)) (qs.map (·.1))) =
        ((ps.map (·.1)).zip (qs.map (·.1))).map (fun p => WOp.moveAssign p.1 p.2) := by
      rw [List.zip, List.map_zipWith]
    rw [← this]
    exact hpre.eq_of_length_le (by simp; omega)
  have hquiet : quiet log.inner := by
    intro st hst
    rw [thrown_false]
    exact Classical.byContradiction (fun h' => hth.2 ⟨st, hst, h'⟩)
  have hruns : WRuns a0 cw.ww log.inner cw'.ww ∧ (∃ x, cw.objs[d]? = some x) ∧ ∃ y, cw.objs[s]? = some y := by
    simp only [CWorld.step] at hs
    split at hs
    · rename_i x y hx hy
      split at hs
      · split at hs
        · simp at hs
        · rename_i ww' t r ha
          split at hs
          · simp at hs
          · simp only [Except.ok.injEq, Prod.mk.injEq] at hs
            obtain ⟨rfl, rfl⟩ := hs
            exact ⟨(assign_runs ha).1, ⟨x, (cobj_some hx).1⟩, y, (cobj_some hy).1⟩
      · simp at hs
    · simp at hs
  obtain ⟨hr, ⟨x, hx⟩, y, hy⟩ := hruns
  obtain ⟨ps0, hp0, hp1, hp2⟩ := hi.parts d x hx
  obtain ⟨qs0, hq0, hq1, hq2⟩ := hi.parts s y hy
  rw [hp, Option.some.injEq] at hp0
  rw [hq, Option.some.injEq] at hq0
  subst hp0
  subst hq0
  have hpair : Pairing ((ps.map (·.1)).zip (qs.map (·.1))) := by
    refine ⟨?_, ?_, ?_⟩
    · rw [List.map_fst_zip (by simp; omega), hp1]
      exact hi.nodup d x hx
    · rw [List.map_snd_zip (by simp; omega), hq1]
      exact hi.nodup s y hy
    · intro p hp q hq heq
      have h1 := (List.of_mem_zip hp).1
      have h2 := (List.of_mem_zip hq).2
      rw [hp1] at h1
      rw [hq1, ← heq] at h2
      exact hi.disjoint d s x y hx hy hds _ h1 h2
  obtain ⟨hm1, hm2⟩ := runs_moveAssigns hr hops hquiet hpair
  intro i o o' kd k hio hio'
  have hmem : (o, o') ∈ (ps.map (·.1)).zip (qs.map (·.1)) := by
    apply List.mem_of_getElem? (i := i)
    rw [List.getElem?_zip_eq_some]
    simp [hio, hio']
  have hko := hi.kind d ps hp _ (List.mem_of_getElem? hio)
  have hko' := hi.kind s qs hq _ (List.mem_of_getElem? hio')
  have hmm := hm1 _ hmem
  refine ⟨fun hc => ?_, fun hc => ?_⟩
  · have hck := (hi.reach.inv.carries o' k).mp hc
    simp only [hi'.reach.inv.carries]
    refine ⟨hmm.1.trans hck, fun k' => by rw [hmm.2]; simp, ?_⟩
    rw [runs_moveAssigns_trigger hi.reach hr hops hquiet hpair hck hko']
    have : o' ∈ ((ps.map (·.1)).zip (qs.map (·.1))).map (·.2) := List.mem_map.mpr ⟨_, hmem, rfl⟩
    simp [this]
  · have hck := (hi.reach.inv.carries o k).mp hc
    have htr := runs_moveAssigns_trigger hi.reach hr hops hquiet hpair hck hko
    have hno : o ∉ ((ps.map (·.1)).zip (qs.map (·.1))).map (·.2) := by
      intro hx'
      obtain ⟨q, hq', hqe⟩ := List.mem_map.mp hx'
      exact hpair.apart _ hmem _ hq' hqe.symm
    rw [if_neg (fun hx' => hno hx'.1)] at htr
    refine ⟨fun o'' => ?_, htr⟩
    simp only [hi'.reach.inv.carries]
    intro hc'
    by_cases hin : ∀ p ∈ (ps.map (·.1)).zip (qs.map (·.1)), o'' ≠ p.1 ∧ o'' ≠ p.2
    · rw [hm2 o'' hin] at hc'
      have := hi.reach.inv.inj _ _ _ hck hc'
      exact (hin _ hmem).1 this.symm
    · simp only [Classical.not_forall] at hin
      obtain ⟨p, hpm, hp3⟩ := hin
      by_cases h1 : o'' = p.1
      · rw [h1, (hm1 p hpm).1] at hc'
        have := hi.reach.inv.inj _ _ _ hck hc'
        exact hpair.apart _ hmem _ hpm this
      · by_cases h2 : o'' = p.2
        · rw [h2, (hm1 p hpm).2] at hc'
          simp at hc'
        · exact hp3 ⟨h1, h2⟩

/-- C49: copying a watched object copies its watchers in order (`C34_copy`) and leaves the object alone, as long as no exception
ends it. -/
theorem C49_copy {tr : CTrace α} {cw cw' : CWorld α} (h : CReach a0 tr cw) {c : Nat} {fails : Bool} {log : CLog α}
    (hs : cw.step a0 (.copy c fails) = .ok (cw', log)) {ps : List (Nat × Watcher)} (hp : tr.parts c = some ps) :
    (log.threw = true ↔ fails = true) ∧
    (log.threw = false → log.inner.map (·.1) = (ps.map (·.1)).map .copy ∧ ∃ c' ps', log.made = some c' ∧ tr.parts c' = none ∧
      (tr ++ [(.copy c fails, log)] : CTrace α).parts c' = some ps' ∧ ps'.map (·.2) = ps.map (·.2)) := by
  have hi' := (CReach.step h hs).inv
  have hi := h.inv
  simp only [CWorld.step] at hs
  split at hs
  · simp at hs
  · rename_i x hx
    have hx' := (cobj_some hx).1
    obtain ⟨ps0, hp0, hp1, hp2⟩ := hi.parts c x hx'
    rw [hp, Option.some.injEq] at hp0
    subst hp0
    rcases construct_spec (by intro op hop; simp at hop; obtain ⟨k, _, rfl⟩ := hop; trivial) hs with
      ⟨hf, hfails, hmade, hr, hops, hquiet, hlen, hobjs⟩ |
      ⟨hf, _, hmade, hobjs, ops1, ops2, t1, t2, t3, ww1, ww2, hops, hin, r1, m1, q1, l1, r2, r3, q3, m3, hcase⟩
    · refine ⟨by rw [hf, hfails], fun _ => ⟨by rw [hops, hp1], ?_⟩⟩
      obtain ⟨ps', h1, h2, h3⟩ := hi'.parts cw.objs.length _ (by rw [hobjs]; simp; rfl)
      exact ⟨cw.objs.length, ps', hmade, hi.fresh _ (Nat.le_refl _), h1, by rw [h3, hp2]⟩
    · refine ⟨?_, fun ht => by rw [ht] at hf; simp at hf⟩
      rw [hf]
      simp only [true_iff]
      rcases hcase with ⟨_, hfails, _⟩ | ⟨op, rest, l, rfl, rfl, hth⟩
      · exact hfails
      · exfalso
        cases r2 with
        | cons hst _ =>
          have hop : op ∈ x.parts.map (WOp.copy (α := α)) := by rw [hops]; simp
          simp at hop
          obtain ⟨k, _, rfl⟩ := hop
          obtain ⟨_, _, s, hse, _⟩ := makes_fail (by trivial) hst hth
          simp at hse

/-- C50: if the constructor of `Base` throws, the program is terminated as soon as one of the watchers is a lifetime watcher:
the exception of the client never arrives. The same holds for copies. -/
theorem C50_base_throws {tr : CTrace α} {cw : CWorld α} (h : CReach a0 tr cw) :
    (∀ base kinds, Watcher.lifetime ∈ kinds → ∃ why, cw.step a0 (.create base kinds true) = .error (.terminate why)) ∧
    (∀ c ps o, tr.parts c = some ps → ¬ tr.dropped c → (o, Watcher.lifetime) ∈ ps →
      ∃ why, cw.step a0 (.copy c true) = .error (.terminate why)) := by
  have hi := h.inv
  refine ⟨fun base kinds hk => ?_, fun c ps o hp hd hm => ?_⟩
  · have := construct_fails (a0 := a0) (cw := cw) (base := base) (kinds := kinds) (kinds.map (fun k => (WOp.create k, k)))
      (by intro p hp; simp at hp; obtain ⟨k, _, rfl⟩ := hp; exact Or.inl rfl)
      ⟨(.create .lifetime, .lifetime), by simp [hk], rfl⟩
    simpa [CWorld.step, Function.comp_def] using this
  · obtain ⟨x, hx, hp1⟩ := hi.object hp hd
    have hx' := (cobj_some hx).1
    have hparts : ∀ p ∈ ps, ∃ y, cw.ww.obj p.1 = some y ∧ y.kind = p.2 := by
      intro p hpm
      exact hi.part_obj hx hp hpm
    have := construct_fails (a0 := a0) (cw := cw) (base := x.base) (kinds := x.kinds)
      (ps.map (fun p => (WOp.copy p.1, p.2)))
      (by
        intro p hpm
        simp only [List.mem_map] at hpm
        obtain ⟨q, hq, rfl⟩ := hpm
        obtain ⟨y, h1, h2⟩ := hparts q hq
        exact Or.inr ⟨q.1, y, rfl, h1, h2⟩)
      ⟨(.copy o, .lifetime), by simp; exact hm, rfl⟩
    simp only [CWorld.step, hx]
    rw [← hp1]
    simpa [Function.comp_def] using this

namespace WatchedExamples

open WatcherExamples (Note note calm)

/-- Runs a client. -/
def run (cw : CWorld Unit) : List (COp Unit) → Option (CTrace Unit × CWorld Unit)
  | [] => some ([], cw)
  | op :: ops =>
    match cw.step calm op with
    | .error _ => none
    | .ok (cw', log) => (run cw' ops).map (fun r => ((op, log) :: r.1, r.2))

theorem run_reach {tr : CTrace Unit} {cw cw' : CWorld Unit} {ops : List (COp Unit)} {tr' : CTrace Unit}
    (h : CReach calm tr cw) (hr : run cw ops = some (tr', cw')) : CReach calm (tr ++ tr') cw' := by
  induction ops generalizing tr cw tr' with
  | nil =>
    simp only [run, Option.some.injEq, Prod.mk.injEq] at hr
    obtain ⟨rfl, rfl⟩ := hr
    simpa using h
  | cons op ops ih =>
    simp only [run] at hr
    split at hr
    · simp at hr
    · rename_i cw1 log hs
      simp only [Option.map_eq_some_iff] at hr
      obtain ⟨⟨tr1, cw2⟩, h1, h2⟩ := hr
      simp only [Prod.mk.injEq] at h2
      obtain ⟨rfl, rfl⟩ := h2
      have := ih (.step h hs) h1
      simpa using this

def short (ops : List (COp Unit)) : Option (List (List Note × Option Nat × Bool)) :=
  (run CWorld.init ops).map (fun r =>
    r.1.map (fun st => (st.2.inner.flatMap (fun i => i.2.filterMap note), st.2.made, st.2.threw)))

/-- A class that may throw everywhere. -/
def loose : BaseSpec := ⟨false, false, false⟩

/-- A class that never throws. -/
def strict : BaseSpec := ⟨true, true, true⟩

/-- C50: lifetime watcher first, no relocation expected: the destruction watch is used up by a move that fails, and the real
destruction is silent. -/
example : short [.create loose [.lifetime, .relocation] false, .expect 0 0 0 0 [] [], .move 0 false, .drop 0,
      .plain (.destroy 0)] =
    some [([.object 0, .born 0 0, .object 1, .born 1 1], some 0, false), ([.expect 0 1 1], none, false),
      ([.object 2, .trigger 1 [.noMatch []], .exception, .trigger 0 [.fullMatch 0]], none, true), ([], none, false),
      ([.destroy 0 [.destroyed 0]], none, false)] := rfl

/-- C50: relocation watcher first: the same move changes nothing. -/
example : short [.create loose [.relocation, .lifetime] false, .expect 0 1 0 0 [] [], .move 0 false, .drop 0,
      .plain (.destroy 0)] =
    some [([.object 0, .born 0 0, .object 1, .born 1 1], some 0, false), ([.expect 1 1 1], none, false),
      ([.trigger 0 [.noMatch []], .exception], none, true), ([.trigger 1 [.fullMatch 0]], none, false),
      ([.destroy 0 [.destroyed 0]], none, false)] := rfl

/-- C49: an expected relocation; both watches travel; destruction of both objects. -/
example : short [.create strict [.lifetime, .relocation] false, .expect 0 0 0 0 [] [], .expect 0 1 1 1 [] [], .move 0 false,
      .drop 0, .drop 1] =
    some [([.object 0, .born 0 0, .object 1, .born 1 1], some 0, false), ([.expect 0 1 1], none, false),
      ([.expect 1 1 1], none, false), ([.object 2, .trigger 1 [.fullMatch 1], .object 3], some 1, false), ([], none, false),
      ([.trigger 0 [.fullMatch 0]], none, false)] := rfl

/-- C49: two objects; one is moved to the other, whose own destruction watch is discarded; then a copy assignment, which ends
the target. -/
example : short [.create strict [.lifetime, .relocation] false, .create strict [.lifetime, .relocation] false,
      .expect 0 0 0 0 [] [], .expect 0 1 1 1 [] [], .moveAssign 1 0 false, .copyAssign 1 0 false] =
    some [([.object 0, .born 0 0, .object 1, .born 1 1], some 0, false), ([.object 2, .born 2 2, .object 3, .born 3 3], some 1, false),
      ([.expect 0 1 1], none, false), ([.expect 1 1 1], none, false), ([.trigger 1 [.fullMatch 1]], none, false),
      ([.trigger 0 [.fullMatch 0], .born 2 4, .born 3 5], none, false)] := rfl

/-- C49: an assignment that fails at the second watcher. -/
example : short [.create loose [.lifetime, .relocation] false, .create loose [.lifetime, .relocation] false,
      .moveAssign 1 0 false] =
    some [([.object 0, .born 0 0, .object 1, .born 1 1], some 0, false), ([.object 2, .born 2 2, .object 3, .born 3 3], some 1, false),
      ([.trigger 1 [.noMatch []], .exception], none, true)] := rfl

/-- C49: a copy. -/
example : short [.create loose [.lifetime, .relocation] false, .copy 0 false] =
    some [([.object 0, .born 0 0, .object 1, .born 1 1], some 0, false),
      ([.object 2, .born 2 2, .object 3, .born 3 3], some 1, false)] := rfl

/-- C49: a `noexcept` move with an unexpected relocation. -/
example : ∃ cw log why, CReach calm [(.create strict [.relocation] false, log)] cw ∧
    cw.step calm (.move 0 false) = .error (.terminate why) :=
  ⟨_, _, _, .step .init rfl, rfl⟩

/-- C49: destruction without expectation of two lifetime watchers: the second exception terminates the program; with one the
exception arrives. -/
example : (∃ cw log why, CReach calm [(.create loose [.lifetime, .lifetime] false, log)] cw ∧
      cw.step calm (.drop 0) = .error (.terminate why)) ∧
    (∃ cw log cw' log', CReach calm [(.create loose [.relocation, .lifetime] false, log)] cw ∧
      cw.step calm (.drop 0) = .ok (cw', log') ∧ log'.threw = true) :=
  ⟨⟨_, _, _, .step .init rfl, rfl⟩, ⟨_, _, _, _, .step .init rfl, rfl, rfl⟩⟩

/-- The hypotheses of `C50_failed_move`, `C50_lifetime_first` and `C49_drop` can be met. -/
example : ∃ tr cw, CReach calm tr cw ∧ tr.parts 0 = some [(0, .lifetime), (1, .relocation)] ∧ tr.flat.carries 0 0 ∧
    (∃ cw' log, cw.step calm (.move 0 false) = .ok (cw', log) ∧ log.threw = true) ∧
    (∃ cw' log, cw.step calm (.drop 0) = .ok (cw', log)) := by
  have h : CReach calm _ _ := run_reach (ops := [.create loose [.lifetime, .relocation] false, .expect 0 0 0 0 [] []]) .init rfl
  refine ⟨_, _, h, rfl, ?_, ⟨_, _, rfl, rfl⟩, ⟨_, _, rfl⟩⟩
  rw [h.inv.reach.inv.carries]; rfl

/-- The hypotheses of `C50_relocation_first_partial` can be met. -/
example : ∃ tr cw, CReach calm tr cw ∧ tr.parts 0 = some [(0, .relocation), (1, .lifetime)] ∧ tr.flat.carries 1 1 ∧
    (∃ cw' log, cw.step calm (.move 0 false) = .ok (cw', log) ∧ log.threw = true) := by
  have h : CReach calm _ _ := run_reach (ops := [.create loose [.relocation, .lifetime] false]) .init rfl
  refine ⟨_, _, h, rfl, ?_, ⟨_, _, rfl, rfl⟩⟩
  rw [h.inv.reach.inv.carries]; rfl

end WatchedExamples

end Mimic
