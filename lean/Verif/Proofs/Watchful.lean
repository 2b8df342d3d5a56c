import Verif.Spec.Watchful
import Verif.Proofs.Whole
import Verif.Props.WatcherProgress

/-!
# All rules for watched objects: proofs
-/

set_option autoImplicit false

namespace Mimic.Watchful

variable {α : Type} {a0 : Trigger α}

theorem next_iff {t : Trace α} {w : World α} (h : Reach t w) (op : Op α) (ev : List Event) :
    Next t op ev ↔ ∃ w', w.step op = .ok (w', ev) :=
  ⟨fun ⟨h1, h2, h3⟩ => Whole.step_prescribed h h1 h2 h3, fun ⟨_, hs⟩ => Whole.prescribed_step h hs⟩

theorem throws_iff (ev : List Event) : Throws a0 ev ↔ a0.fails ev = true := by
  unfold Throws Trigger.fails unresolved
  simp only [Bool.or_eq_true, Bool.not_eq_true', List.any_eq_false, List.any_eq_true]
  constructor
  · rintro (h | ⟨e, h1, h2⟩)
    · left
      intro x hx
      cases x with
      | fullMatch e => exact absurd hx (h e)
      | _ => simp
    · exact .inr ⟨_, h1, h2⟩
  · rintro (h | ⟨x, h1, h2⟩)
    · left
      intro e he
      have := h _ he
      simp at this
    · right
      cases x with
      | fullMatch e => exact ⟨e, h1, h2⟩
      | _ => simp at h2

theorem not_throws_iff (ev : List Event) : ¬ Throws a0 ev ↔ a0.fails ev = false := by
  rw [throws_iff]; simp

theorem newMock_next {t : Trace α} {w : World α} (h : Reach t w) (k : Nat) :
    Next t .newMock [.mockCreated k] ↔ k = w.colls.length := by
  rw [next_iff h, newMock_ok]
  constructor
  · rintro ⟨_, he⟩
    simp at he
    exact he.2.symm
  · rintro rfl; exact ⟨_, rfl⟩

theorem nextObject_iff {tr : WTrace α} {ww : WWorld α} (h : WReach a0 tr ww) (n : Nat) : NextObject tr n ↔ n = ww.objs.length := by
  have h1 : NextObject tr ww.objs.length := by
    intro k
    simp only [h.inv2.kind]
    constructor
    · rintro ⟨_, hk⟩; exact fieldAt_lt hk
    · intro hk; exact ⟨(ww.objs[k]).kind, by simp [fieldAt, hk]⟩
  exact ⟨fun h2 => Whole.nextNumber_unique h2 h1, fun he => he ▸ h1⟩

theorem is_iff {tr : WTrace α} {ww : WWorld α} (h : WReach a0 tr ww) (o : Nat) (kd : Watcher) :
    Is tr o kd ↔ ∃ x, ww.obj o = some x ∧ x.kind = kd := by
  unfold Is
  rw [h.exists_iff, h.inv2.kind]
  constructor
  · rintro ⟨⟨x, hx⟩, hk⟩
    rw [(obj_fields hx).2.1] at hk
    exact ⟨x, hx, Option.some.inj hk⟩
  · rintro ⟨x, hx, rfl⟩
    exact ⟨⟨x, hx⟩, (obj_fields hx).2.1⟩

theorem carries_iff {tr : WTrace α} {ww : WWorld α} (h : WReach a0 tr ww) {o : Nat} {x : WatchObj} (hx : ww.obj o = some x) (c : Nat) :
    tr.carries o c ↔ x.mock = some c := by
  rw [h.inv.carries, (obj_some hx).2.2.2]

theorem carries_none {tr : WTrace α} {ww : WWorld α} (h : WReach a0 tr ww) {o : Nat} {x : WatchObj} (hx : ww.obj o = some x) :
    (∀ c, ¬ tr.carries o c) ↔ x.mock = none := by
  simp only [carries_iff h hx]
  cases x.mock <;> simp

theorem armed_iff {tr : WTrace α} {ww : WWorld α} (h : WReach a0 tr ww) {o : Nat} {x : WatchObj} (hx : ww.obj o = some x)
    (hk : x.kind = .lifetime) : tr.armed o ↔ x.has = true := by
  rw [h.inv2.armed o (by rw [(obj_fields hx).2.1, hk]), (obj_fields hx).2.2.1]
  simp

/-- Every mock belongs to the client or to a watcher. -/
theorem client_mine {tr : WTrace α} {ww : WWorld α} (h : WReach a0 tr ww) : ∀ k, k < ww.w.colls.length → k ∉ ww.owned → tr.mine k := by
  induction h with
  | init => intro k hk; simp [WWorld.init, World.init] at hk
  | @step tr ww ww' op log h hs ih =>
    have hr := h.inv.reach
    have hg := grown_reach hr
    intro k hk hn
    rw [mine_snoc]
    cases WStep.of_step hs with
    | @plain op w' ev ht hst =>
      by_cases hop : op = .newMock
      · subst hop
        rw [newMock_ok] at hst
        simp only [Except.ok.injEq, Prod.mk.injEq] at hst
        obtain ⟨rfl, rfl⟩ := hst
        simp at hk
        by_cases hk2 : k < ww.w.colls.length
        · exact .inl (ih k hk2 hn)
        · exact .inr ⟨rfl, _, List.mem_singleton.mpr rfl, by simp; omega⟩
      · have := (step_lengths hr hst).2
        have h0 : op.newMocks = 0 := by cases op <;> first | rfl | exact absurd rfl hop
        simp only [h0, Nat.add_zero] at this hk
        exact .inl (ih k (by omega) hn)
    | make hop => left; simp [WWorld.grown] at hk hn; exact ih k (by omega) hn.1
    | moveR _ _ _ hst _ => left; have := colls_call hg hst; simp [WWorld.grown] at this hk hn; exact ih k (by omega) hn.1
    | moveRfail _ _ _ hst _ => left; have := colls_call hg hst; simp [WWorld.grown] at this hk hn; exact ih k (by omega) hn.1
    | copyAssign _ _ _ _ => left; simp [WWorld.grown] at hk hn; exact ih k (by omega) hn.1
    | copyAssignL _ _ _ _ _ hst _ => left; have := colls_call hr hst; simp at this hk hn; exact ih k (by omega) hn.1
    | copyAssignLfail _ _ _ _ _ hst _ => left; have := colls_call hr hst; exact ih k (by simp at hk; omega) hn
    | moveAssignSelfR _ _ _ hst _ => left; have := colls_call hr hst; exact ih k (by simp at hk; omega) hn
    | moveAssignR _ _ _ _ _ _ hst _ => left; have := colls_call hr hst; exact ih k (by simp at hk; omega) hn
    | moveAssignRfail _ _ _ _ _ hst _ => left; have := colls_call hr hst; exact ih k (by simp at hk; omega) hn
    | dropL _ _ _ hst => left; have := colls_call hr hst; exact ih k (by simp at hk; omega) hn
    | expectL _ _ _ _ hst => left; have := colls_expect hr hst; exact ih k (by simp at hk; omega) hn
    | expectR _ _ _ hst => left; have := colls_expect hr hst; exact ih k (by simp at hk; omega) hn
    | _ => exact .inl (ih k hk hn)

theorem ownMock_iff {tr : WTrace α} {ww : WWorld α} (h : WReach a0 tr ww) {op : Op α} (hv : tr.flat.valid op) :
    OwnMock tr op ↔ ww.touches op = false := by
  constructor
  · intro ho; exact untouched h ⟨hv, ho⟩
  · intro ht
    constructor
    · rintro m min max ss ps rfl
      simp [WWorld.touches] at ht
      exact client_mine h m ((h.inv.reach.view.2.mocks m).mp hv.1) ht
    · rintro m a rfl
      simp [WWorld.touches] at ht
      exact client_mine h m ((h.inv.reach.view.2.mocks m).mp hv) ht

theorem rule_of_step {tr : WTrace α} {ww ww' : WWorld α} (h : WReach a0 tr ww) {op : WOp α} {log : List (WEvent α)}
    (hs : ww.step a0 op = .ok (ww', log)) : Rule a0 tr op log := by
  have hr := h.inv.reach
  have hg := grown_reach hr
  have hn := (nextObject_iff h ww.objs.length).mpr rfl
  have hm := (newMock_next hr ww.w.colls.length).mpr rfl
  have is : ∀ {o x kd}, ww.obj o = some x → x.kind = kd → Is tr o kd := fun h1 h2 => (is_iff h _ _).mpr ⟨_, h1, h2⟩
  have nx : ∀ {op w' ev}, ww.w.step op = .ok (w', ev) → Next tr.flat op ev := fun h1 => (next_iff hr _ _).mpr ⟨_, h1⟩
  cases WStep.of_step hs with
  | @plain op w' ev ht hst => exact .plain ((ownMock_iff h (nx hst).1).mpr ht) (nx hst)
  | make hop =>
    rcases hop with rfl | ⟨s, x, rfl, hx, hk⟩
    · exact .create hn hm
    · exact .copy (is hx hk) hn hm
  | moveL hx hk => exact .moveLifetime (is hx hk) hn
  | moveR hx hk hc hst hf =>
    exact .move (is hx hk) ((carries_iff h hx _).mpr hc) hn hm ((next_iff hg _ _).mpr ⟨_, hst⟩) ((not_throws_iff _).mpr hf)
  | moveRfail hx hk hc hst hf =>
    exact .moveThrows (is hx hk) ((carries_iff h hx _).mpr hc) hm ((next_iff hg _ _).mpr ⟨_, hst⟩) ((throws_iff _).mpr hf)
  | copyAssign hx hy hk hc =>
    exact .copyAssign (is hx rfl) (is hy hk.symm) (fun he => (carries_none h hx).mpr (hc he)) hm
  | copyAssignL hx hy hk hl hc hst hf =>
    have hr2 := Reach.step hr hst
    exact .copyAssignEnds (is hx hl) (is hy (hk ▸ hl)) ((carries_iff h hx _).mpr hc) (nx hst) ((not_throws_iff _).mpr hf)
      ((newMock_next hr2 _).mpr rfl)
  | copyAssignLfail hx hy hk hl hc hst hf =>
    exact .copyAssignThrows (is hx hl) (is hy (hk ▸ hl)) ((carries_iff h hx _).mpr hc) (nx hst) ((throws_iff _).mpr hf)
  | moveAssignSelfL hx hk => exact .moveAssignLifetime (is hx hk) (is hx hk)
  | moveAssignL hx hy hk hk' _ => exact .moveAssignLifetime (is hx hk) (is hy hk')
  | moveAssignSelfR hx hk hc hst hf =>
    exact .moveAssign (is hx hk) (is hx hk) ((carries_iff h hx _).mpr hc) (nx hst) ((not_throws_iff _).mpr hf)
  | moveAssignR hx hy hk hk' hc _ hst hf =>
    exact .moveAssign (is hx hk) (is hy hk') ((carries_iff h hy _).mpr hc) (nx hst) ((not_throws_iff _).mpr hf)
  | moveAssignRfail hx hy hk hk' hc hst hf =>
    exact .moveAssignThrows (is hx hk) (is hy hk') ((carries_iff h hy _).mpr hc) (nx hst) ((throws_iff _).mpr hf)
  | dropSilent hx hc => exact .dropSilent (is hx rfl) (fun he => (carries_none h hx).mpr (hc he))
  | @dropL o c x w' ev hx hk hc hst =>
    cases hf : a0.fails ev with
    | true => simpa [hf] using Rule.dropThrows (is hx hk) ((carries_iff h hx _).mpr hc) (nx hst) ((throws_iff _).mpr hf)
    | false => simpa [hf] using Rule.drop (is hx hk) ((carries_iff h hx _).mpr hc) (nx hst) ((not_throws_iff _).mpr hf)
  | refused hx hk hh hop => exact .again (is hx hk) ((armed_iff h hx hk).mpr hh) hop
  | expectL hx hk hh hc hst =>
    exact .expectEnd (is hx hk) (fun ha => by rw [armed_iff h hx hk, hh] at ha; cases ha) ((carries_iff h hx _).mpr hc) (nx hst)
  | expectR hx hk hc hst => exact .expectMoves (is hx hk) ((carries_iff h hx _).mpr hc) (nx hst)
  | abandonL hx hk hh hc =>
    exact .abandon (is hx hk) (fun _ ha => by rw [armed_iff h hx hk, hh] at ha; cases ha) ((carries_iff h hx _).mpr hc)
  | abandonR hx hk hc => exact .abandon (is hx hk) (fun he => by cases he) ((carries_iff h hx _).mpr hc)

theorem step_of_rule {tr : WTrace α} {ww : WWorld α} (h : WReach a0 tr ww) {op : WOp α} {log : List (WEvent α)}
    (hl : Rule a0 tr op log) : ∃ ww', ww.step a0 op = .ok (ww', log) := by
  have hr := h.inv.reach
  have hg := grown_reach hr
  cases hl with
  | plain ho hn =>
    have ht := (ownMock_iff h hn.1).mp ho
    obtain ⟨w', hs⟩ := (next_iff hr _ _).mp hn
    exact ⟨_, by simp only [WWorld.step, ht, Bool.false_eq_true, if_false, WWorld.lib, hs]; rfl⟩
  | create hn hm =>
    rw [nextObject_iff h] at hn; rw [newMock_next hr] at hm; subst hn hm
    exact ⟨_, rfl⟩
  | copy hi hn hm =>
    rw [nextObject_iff h] at hn; rw [newMock_next hr] at hm; subst hn hm
    obtain ⟨x, hx, rfl⟩ := (is_iff h _ _).mp hi
    exact ⟨_, by simp only [WWorld.step, hx]; rfl⟩
  | moveLifetime hi hn =>
    rw [nextObject_iff h] at hn; subst hn
    obtain ⟨x, hx, hk⟩ := (is_iff h _ _).mp hi
    exact ⟨_, by simp only [WWorld.step, hx, hk]; rfl⟩
  | move hi hc hn hm hst hf =>
    rw [nextObject_iff h] at hn; rw [newMock_next hr] at hm; subst hn hm
    obtain ⟨x, hx, hk⟩ := (is_iff h _ _).mp hi
    rw [carries_iff h hx] at hc
    obtain ⟨w', hs⟩ := (next_iff hg _ _).mp hst
    rw [not_throws_iff] at hf
    exact ⟨_, by simp only [WWorld.step, hx, hk, WWorld.fresh_eq, hc, WWorld.lib, hs, hf]; rfl⟩
  | moveThrows hi hc hm hst hf =>
    rw [newMock_next hr] at hm; subst hm
    obtain ⟨x, hx, hk⟩ := (is_iff h _ _).mp hi
    rw [carries_iff h hx] at hc
    obtain ⟨w', hs⟩ := (next_iff hg _ _).mp hst
    rw [throws_iff] at hf
    exact ⟨_, by simp only [WWorld.step, hx, hk, WWorld.fresh_eq, hc, WWorld.lib, hs, hf]; rfl⟩
  | @copyAssign d s k kd hi hi' hc hm =>
    rw [newMock_next hr] at hm; subst hm
    obtain ⟨x, hx, hk⟩ := (is_iff h _ _).mp hi
    obtain ⟨y, hy, hk'⟩ := (is_iff h _ _).mp hi'
    cases kd with
    | lifetime =>
      have hc := (carries_none h hx).mp (hc rfl)
      exact ⟨_, by simp only [WWorld.step, hx, hy, hk, hk', if_true, hc, WWorld.renew, WWorld.fresh_eq]; rfl⟩
    | relocation => exact ⟨_, by simp only [WWorld.step, hx, hy, hk, hk', if_true, WWorld.renew, WWorld.fresh_eq]; rfl⟩
  | copyAssignEnds hi hi' hc hst hf hm =>
    obtain ⟨x, hx, hk⟩ := (is_iff h _ _).mp hi
    obtain ⟨y, hy, hk'⟩ := (is_iff h _ _).mp hi'
    rw [carries_iff h hx] at hc
    obtain ⟨w', hs⟩ := (next_iff hr _ _).mp hst
    rw [newMock_next (Reach.step hr hs)] at hm; subst hm
    rw [not_throws_iff] at hf
    exact ⟨_, by simp only [WWorld.step, hx, hy, hk, hk', if_true, hc, WWorld.lib, hs, hf, WWorld.renew, WWorld.fresh_eq]; rfl⟩
  | copyAssignThrows hi hi' hc hst hf =>
    obtain ⟨x, hx, hk⟩ := (is_iff h _ _).mp hi
    obtain ⟨y, hy, hk'⟩ := (is_iff h _ _).mp hi'
    rw [carries_iff h hx] at hc
    obtain ⟨w', hs⟩ := (next_iff hr _ _).mp hst
    rw [throws_iff] at hf
    exact ⟨_, by simp only [WWorld.step, hx, hy, hk, hk', if_true, hc, WWorld.lib, hs, hf]; rfl⟩
  | @moveAssignLifetime d s hi hi' =>
    obtain ⟨x, hx, hk⟩ := (is_iff h _ _).mp hi
    obtain ⟨y, hy, hk'⟩ := (is_iff h _ _).mp hi'
    by_cases hd : d = s
    · exact ⟨_, by simp only [WWorld.step, hx, hy, hk, hk', if_true, if_pos hd]; rfl⟩
    · exact ⟨_, by simp only [WWorld.step, hx, hy, hk, hk', if_true, if_neg hd]; rfl⟩
  | @moveAssign d s c ev hi hi' hc hst hf =>
    obtain ⟨x, hx, hk⟩ := (is_iff h _ _).mp hi
    obtain ⟨y, hy, hk'⟩ := (is_iff h _ _).mp hi'
    rw [carries_iff h hy] at hc
    obtain ⟨w', hs⟩ := (next_iff hr _ _).mp hst
    rw [not_throws_iff] at hf
    by_cases hd : d = s
    · exact ⟨_, by simp only [WWorld.step, hx, hy, hk, hk', if_true, hc, WWorld.lib, hs, hf, if_pos hd, Bool.false_eq_true, if_false]; rfl⟩
    · exact ⟨_, by simp only [WWorld.step, hx, hy, hk, hk', if_true, hc, WWorld.lib, hs, hf, if_neg hd, Bool.false_eq_true, if_false]; rfl⟩
  | moveAssignThrows hi hi' hc hst hf =>
    obtain ⟨x, hx, hk⟩ := (is_iff h _ _).mp hi
    obtain ⟨y, hy, hk'⟩ := (is_iff h _ _).mp hi'
    rw [carries_iff h hy] at hc
    obtain ⟨w', hs⟩ := (next_iff hr _ _).mp hst
    rw [throws_iff] at hf
    exact ⟨_, by simp only [WWorld.step, hx, hy, hk, hk', if_true, hc, WWorld.lib, hs, hf]; rfl⟩
  | @dropSilent o kd hi hc =>
    obtain ⟨x, hx, hk⟩ := (is_iff h _ _).mp hi
    cases kd with
    | lifetime =>
      have hc := (carries_none h hx).mp (hc rfl)
      exact ⟨_, by simp only [WWorld.step, hx, hk, hc]; rfl⟩
    | relocation => exact ⟨_, by simp only [WWorld.step, hx, hk]; rfl⟩
  | drop hi hc hst hf =>
    obtain ⟨x, hx, hk⟩ := (is_iff h _ _).mp hi
    rw [carries_iff h hx] at hc
    obtain ⟨w', hs⟩ := (next_iff hr _ _).mp hst
    rw [not_throws_iff] at hf
    exact ⟨_, by simp only [WWorld.step, hx, hk, hc, WWorld.lib, hs, hf]; rfl⟩
  | dropThrows hi hc hst hf =>
    obtain ⟨x, hx, hk⟩ := (is_iff h _ _).mp hi
    rw [carries_iff h hx] at hc
    obtain ⟨w', hs⟩ := (next_iff hr _ _).mp hst
    rw [throws_iff] at hf
    exact ⟨_, by simp only [WWorld.step, hx, hk, hc, WWorld.lib, hs, hf]; rfl⟩
  | again hi ha hop =>
    obtain ⟨x, hx, hk⟩ := (is_iff h _ _).mp hi
    rw [armed_iff h hx hk] at ha
    rcases hop with ⟨min, max, ss, ps, rfl⟩ | rfl <;> exact ⟨_, by simp only [WWorld.step, hx, hk, ha]; rfl⟩
  | expectEnd hi ha hc hst =>
    obtain ⟨x, hx, hk⟩ := (is_iff h _ _).mp hi
    rw [armed_iff h hx hk, Bool.not_eq_true] at ha
    rw [carries_iff h hx] at hc
    obtain ⟨w', hs⟩ := (next_iff hr _ _).mp hst
    exact ⟨_, by simp only [WWorld.step, hx, hk, ha, hc, WWorld.lib, hs, Bool.false_eq_true, if_false]; rfl⟩
  | expectMoves hi hc hst =>
    obtain ⟨x, hx, hk⟩ := (is_iff h _ _).mp hi
    rw [carries_iff h hx] at hc
    obtain ⟨w', hs⟩ := (next_iff hr _ _).mp hst
    exact ⟨_, by simp only [WWorld.step, hx, hk, hc, WWorld.lib, hs]; rfl⟩
  | @abandon o c kd hi ha hc =>
    obtain ⟨x, hx, hk⟩ := (is_iff h _ _).mp hi
    rw [carries_iff h hx] at hc
    cases kd with
    | lifetime =>
      have ha := ha rfl
      rw [armed_iff h hx hk, Bool.not_eq_true] at ha
      exact ⟨_, by simp only [WWorld.step, hx, hk, ha, hc, Bool.false_eq_true, if_false]; rfl⟩
    | relocation => exact ⟨_, by simp only [WWorld.step, hx, hk, hc]; rfl⟩

theorem lawful_reach_aux (l : WTrace α) : ∀ {pre : WTrace α} {ww : WWorld α}, WReach a0 pre ww → Lawful a0 (pre ++ l) →
    ∃ ww', WReach a0 (pre ++ l) ww' := by
  induction l with
  | nil => intro pre ww h _; rw [List.append_nil]; exact ⟨ww, h⟩
  | cons st l ih =>
    intro pre ww h hl
    have he : pre ++ st :: l = (pre ++ [st]) ++ l := by simp
    obtain ⟨ww', hs⟩ := step_of_rule h (hl pre st.1 st.2 l rfl)
    rw [he] at hl ⊢
    exact ih (.step h hs) hl

theorem reach_lawful {tr : WTrace α} {ww : WWorld α} (h : WReach a0 tr ww) : Lawful a0 tr := by
  induction h with
  | init => intro pre op log post he; simp at he
  | @step tr ww ww' op log h hs ih =>
    intro pre op' log' post he
    rcases List.eq_nil_or_concat post with rfl | ⟨l', st, rfl⟩
    · have h2 := List.append_inj' he rfl
      obtain ⟨rfl, h3⟩ := h2
      simp only [List.cons.injEq, Prod.mk.injEq, and_true] at h3
      obtain ⟨rfl, rfl⟩ := h3
      exact rule_of_step h hs
    · have h2 : tr ++ [(op, log)] = (pre ++ (op', log') :: l') ++ [st] := by rw [he]; simp
      exact ih pre op' log' l' (List.append_inj' h2 rfl).1

end Mimic.Watchful
