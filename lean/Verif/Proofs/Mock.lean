import Verif.Spec.Mock
import Verif.Proofs.Core
import Verif.Props.Overloads

/-!
# Mocks: simulation by flat histories
-/

set_option autoImplicit false

namespace Mimic

variable {τ β : Type}

/-! ### Searching a history -/

theorem vars_snoc (tr : MTrace τ β) (op : MOp τ β) (ev : List Event) :
    MTrace.vars (tr ++ [(op, ev)]) = varsStep tr.vars op := by
  simp [MTrace.vars]

theorem searchFrom_snoc {γ : Type} (P : List (Option Nat) → MOp τ β → List Event → Option γ) (op : MOp τ β)
    (ev : List Event) : ∀ (tr : MTrace τ β) (vs : List (Option Nat)), searchFrom P vs (tr ++ [(op, ev)]) =
      (searchFrom P vs tr).or (P (tr.foldl (fun vs st => varsStep vs st.1) vs) op ev) := by
  intro tr
  induction tr with
  | nil => intro vs; simp [searchFrom]
  | cons st tr ih =>
    intro vs
    obtain ⟨o, ev'⟩ := st
    simp only [List.cons_append, searchFrom, ih, List.foldl_cons, Option.or_assoc]

theorem plain_snoc (tr : MTrace τ β) (op : MOp τ β) (ev : List Event) :
    MTrace.plain (tr ++ [(op, ev)]) = tr.plain ++ [(op.plain, ev)] := by
  simp [MTrace.plain]

theorem MTrace.asked.snoc {tr : MTrace τ β} {e i : Nat} {args extra : List (Policy (CallInfo β))} (h : tr.asked e i args extra)
    {st : MOp τ β × List Event} : MTrace.asked (tr ++ [st]) e i args extra := by
  obtain ⟨m, mn, mx, tags, ev, h1, h2⟩ := h
  exact ⟨m, mn, mx, tags, ev, by simp [h1], h2⟩

/-- The storages of a mock with signatures `x.2` whose first storage has number `x.1`, per overload. -/
def ptrsOf [DecidableEq τ] (x : Nat × List (Sig τ)) : List (Option Nat) :=
  x.2.map (fun f => (storageIndex (storagesOf x.2) f).map (x.1 + ·))

/-- How the flat declaration of an expectation corresponds to the one through a mock. -/
def MatchDecl [DecidableEq τ] (f : Nat → Nat × List (Sig τ)) (mtr : MTrace τ β) (e : Nat) :
    Option (Decl (CallInfo β)) → Prop
  | none => mtr.plain.decl e = none ∧ mtr.origin e = none
  | some d => ∃ k i g cat con idx args extra, mtr.origin e = some (k, i) ∧ k < mtr.vars.length ∧
      (f k).2[i]? = some g ∧ g.frontend = some (cat, con) ∧ storageIndex (storagesOf (f k).2) g = some idx ∧
      mtr.plain.decl e = some ⟨0, d.min, d.max, d.seqs, args ++ extra⟩ ∧ d.mock = (f k).1 + idx ∧
      d.policies = args ++ [categoryPolicy cat, constnessPolicy con] ++ extra ∧ mtr.sigs k = some (f k).2 ∧
      mtr.asked e i args extra

structure MInv [DecidableEq τ] (f : Nat → Nat × List (Sig τ)) (mtr : MTrace τ β) (mw : MWorld τ β)
    (tr : Trace (CallInfo β)) : Prop where
  reach : Reach tr mw.w
  events : tr.events = mtr.plain.events
  len : mw.mocks.length = mtr.vars.length
  held : ∀ (m k : Nat), mtr.vars[m]? = some (some k) → k < mtr.vars.length ∧ mtr.sigs k = some (f k).2 ∧
    mw.mocks[m]? = some ⟨(f k).2, ptrsOf (f k), true⟩
  empty : ∀ (m : Nat), mtr.vars[m]? = some none →
    ∃ c, mw.mocks[m]? = some c ∧ (c.alive = true → ∀ p ∈ c.ptrs, p = none)
  sig : ∀ k, k < mtr.vars.length → (f k).2.Pairwise Overloadable ∧ ∀ g ∈ (f k).2, g.variadic = false
  bound : ∀ k, k < mtr.vars.length → (f k).1 + (storagesOf (f k).2).length ≤ mw.w.colls.length
  sep : ∀ k k', k < k' → k' < mtr.vars.length → (f k).1 + (storagesOf (f k).2).length ≤ (f k').1
  decl : ∀ e, MatchDecl f mtr e (tr.decl e)

theorem colls_mono {α : Type} {tr : Trace α} {w w' : World α} {op : Op α} {ev : List Event} (h : Reach tr w)
    (hs : w.step op = .ok (w', ev)) : w.colls.length ≤ w'.colls.length := by
  apply Nat.le_of_not_lt
  intro hlt
  have h1 := (h.view.2.mocks w'.colls.length).mpr hlt
  have h2 := ((h.step hs).view.2.mocks w'.colls.length).mp (by
    rw [events_snoc]; exact List.mem_append_left _ h1)
  exact Nat.lt_irrefl _ h2

theorem addStorages_ok (n : Nat) : ∀ {tr : Trace (CallInfo β)} {w : World (CallInfo β)}, Reach tr w →
    ∃ w' ev tr', MWorld.addStorages w n = .ok (w', ev) ∧ Reach tr' w' ∧ tr'.events = tr.events ++ ev ∧
      (∀ e, tr'.decl e = tr.decl e) ∧ w'.colls.length = w.colls.length + n ∧ ∀ e, Event.created e ∉ ev := by
  induction n with
  | zero => intro tr w h; exact ⟨w, [], tr, rfl, h, by simp, fun _ => rfl, rfl, by simp⟩
  | succ n ih =>
    intro tr w h
    have hs : w.step .newMock = .ok ({ w with colls := w.colls ++ [[]] }, [.mockCreated w.colls.length]) := rfl
    obtain ⟨w', ev, tr', h1, h2, h3, h4, h5, h6⟩ := ih (h.step hs)
    refine ⟨w', .mockCreated w.colls.length :: ev, tr', ?_, h2, ?_, ?_, ?_, ?_⟩
    · simp only [MWorld.addStorages, hs, bind, Except.bind, h1, pure, Except.pure, List.cons_append, List.nil_append]
    · rw [h3, events_snoc]; simp
    · intro e; rw [h4, decl_snoc_none rfl]
    · rw [h5]; simp; omega
    · intro e; simp [h6]

variable [DecidableEq τ]

/-- Operations that do not involve mocks, and calls. -/
theorem MInv.simple {f : Nat → Nat × List (Sig τ)} {mtr : MTrace τ β} {mw : MWorld τ β} {tr : Trace (CallInfo β)}
    (h : MInv f mtr mw tr) {op : MOp τ β} {o : Op (CallInfo β)} {w' : World (CallInfo β)} {ev : List Event}
    (hs : mw.w.step o = .ok (w', ev)) (hv : ∀ vs, varsStep vs op = vs)
    (h1 : ∀ e, declStep e o ev = none) (h2 : ∀ e, declStep e op.plain ev = none)
    (h3 : ∀ sigs, op ≠ .newMock sigs) (h4 : ∀ m i min max tags args extra, op ≠ .expect m i min max tags args extra) :
    MInv f (mtr ++ [(op, ev)]) { mw with w := w' } (tr ++ [(o, ev)]) := by
  have hvars : MTrace.vars (mtr ++ [(op, ev)]) = mtr.vars := by rw [vars_snoc, hv]
  have hsig : ∀ k, MTrace.sigs (mtr ++ [(op, ev)]) k = mtr.sigs k := by
    intro k
    unfold MTrace.sigs
    rw [searchFrom_snoc]
    cases op <;> simp
    exact absurd rfl (h3 _)
  have horg : ∀ e, MTrace.origin (mtr ++ [(op, ev)]) e = mtr.origin e := by
    intro e
    unfold MTrace.origin
    rw [searchFrom_snoc]
    cases op <;> simp
    exact absurd rfl (h4 _ _ _ _ _ _ _)
  have hpd : ∀ e, Trace.decl (MTrace.plain (mtr ++ [(op, ev)])) e = mtr.plain.decl e := by
    intro e; rw [plain_snoc, decl_snoc_none (h2 e)]
  constructor
  · exact h.reach.step hs
  · rw [events_snoc, plain_snoc, events_snoc, h.events]
  · rw [hvars]; exact h.len
  · intro m k hm
    rw [hvars] at hm
    rw [hvars, hsig]
    exact h.held m k hm
  · intro m hm
    rw [hvars] at hm
    exact h.empty m hm
  · rw [hvars]; exact h.sig
  · rw [hvars]
    intro k hk
    exact Nat.le_trans (h.bound k hk) (colls_mono h.reach hs)
  · rw [hvars]; exact h.sep
  · intro e
    rw [decl_snoc_none (h1 e)]
    have := h.decl e
    cases hd : tr.decl e with
    | none => rw [hd] at this; simp only [MatchDecl] at this ⊢; rw [hpd, horg]; exact this
    | some d =>
      rw [hd] at this
      simp only [MatchDecl] at this ⊢
      obtain ⟨k, i, g, cat, con, idx, args, extra, a1, a2, a3, a4, a5, a6, a7, a8, a9, a10⟩ := this
      simp only [hpd, horg, hvars, hsig]
      exact ⟨k, i, g, cat, con, idx, args, extra, a1, a2, a3, a4, a5, a6, a7, a8, a9, a10.snoc⟩

/-- Operations on mock variables without any effect on storages. -/
theorem MInv.pure {f : Nat → Nat × List (Sig τ)} {mtr : MTrace τ β} {mw : MWorld τ β} {tr : Trace (CallInfo β)}
    (h : MInv f mtr mw tr) {op : MOp τ β} {mocks' : List (MockCell τ)}
    (h3 : ∀ sigs, op ≠ .newMock sigs)
    (hop : ∀ e, declStep e op.plain [] = none)
    {f' : Nat → Nat × List (Sig τ)} (hf : ∀ k, k < mtr.vars.length → f' k = f k)
    (hlen : mocks'.length = (varsStep mtr.vars op).length) (hle : mtr.vars.length ≤ (varsStep mtr.vars op).length)
    (hnew : ∀ k, mtr.vars.length ≤ k → k < (varsStep mtr.vars op).length → f' k = (mw.w.colls.length, []))
    (hheld : ∀ (m k : Nat), (varsStep mtr.vars op)[m]? = some (some k) → (∃ m' : Nat, mtr.vars[m']? = some (some k)) ∧
      mocks'[m]? = some ⟨(f k).2, ptrsOf (f k), true⟩)
    (hempty : ∀ (m : Nat), (varsStep mtr.vars op)[m]? = some none →
      ∃ c, mocks'[m]? = some c ∧ (c.alive = true → ∀ p ∈ c.ptrs, p = none)) :
    MInv f' (mtr ++ [(op, [])]) { mw with mocks := mocks' } tr := by
  have hvars : MTrace.vars (mtr ++ [(op, [])]) = varsStep mtr.vars op := vars_snoc _ _ _
  have hsig : ∀ k, MTrace.sigs (mtr ++ [(op, [])]) k = mtr.sigs k := by
    intro k
    unfold MTrace.sigs
    rw [searchFrom_snoc]
    cases op <;> simp
    exact absurd rfl (h3 _)
  have horg : ∀ e, MTrace.origin (mtr ++ [(op, [])]) e = mtr.origin e := by
    intro e
    unfold MTrace.origin
    rw [searchFrom_snoc]
    cases op <;> simp
  have hpd : ∀ e, Trace.decl (MTrace.plain (mtr ++ [(op, [])])) e = mtr.plain.decl e := by
    intro e; rw [plain_snoc, decl_snoc_none (hop e)]
  constructor
  · exact h.reach
  · rw [plain_snoc, events_snoc, h.events, List.append_nil]
  · rw [hvars]; exact hlen
  · intro m k hm
    rw [hvars] at hm
    obtain ⟨⟨m', hm'⟩, hc⟩ := hheld m k hm
    obtain ⟨a, b, _⟩ := h.held m' k hm'
    rw [hvars, hsig, hf k a]
    exact ⟨Nat.lt_of_lt_of_le a hle, b, hc⟩
  · intro m hm
    rw [hvars] at hm
    exact hempty m hm
  · rw [hvars]
    intro k hk
    by_cases hk' : k < mtr.vars.length
    · rw [hf k hk']; exact h.sig k hk'
    · rw [hnew k (by omega) hk]; simp
  · rw [hvars]
    intro k hk
    by_cases hk' : k < mtr.vars.length
    · rw [hf k hk']; exact h.bound k hk'
    · rw [hnew k (by omega) hk]; simp [storagesOf, uniqueList, uniqueLoop]
  · rw [hvars]
    intro k k' hkk hk
    by_cases hk' : k' < mtr.vars.length
    · rw [hf k' hk', hf k (by omega)]; exact h.sep k k' hkk hk'
    · rw [hnew k' (by omega) hk]
      by_cases hk2 : k < mtr.vars.length
      · rw [hf k hk2]; exact h.bound k hk2
      · rw [hnew k (by omega) (by omega)]; simp [storagesOf, uniqueList, uniqueLoop]
  · intro e
    have := h.decl e
    cases hd : tr.decl e with
    | none => rw [hd] at this; simp only [MatchDecl] at this ⊢; rw [hpd, horg]; exact this
    | some d =>
      rw [hd] at this; simp only [MatchDecl] at this ⊢
      rw [hpd, horg, hvars]
      obtain ⟨k, i, g, cat, con, idx, args, extra, a1, a2, a3, a4, a5, a6, a7, a8, a9, a10⟩ := this
      refine ⟨k, i, g, cat, con, idx, args, extra, a1, Nat.lt_of_lt_of_le a2 hle, ?_⟩
      rw [hf k a2, hsig]; exact ⟨a3, a4, a5, a6, a7, a8, a9, a10.snoc⟩

omit [DecidableEq τ] in
theorem varsStep_length (vs : List (Option Nat)) (o : MOp τ β) : vs.length ≤ (varsStep vs o).length := by
  cases o <;> simp [varsStep]
  split <;> simp

omit [DecidableEq τ] in
theorem vars_length_mono (t : MTrace τ β) :
    ∀ vs : List (Option Nat), vs.length ≤ (t.foldl (fun vs st => varsStep vs st.1) vs).length := by
  induction t with
  | nil => intro vs; exact Nat.le_refl _
  | cons st t ih =>
    intro vs
    rw [List.foldl_cons]
    exact Nat.le_trans (varsStep_length vs st.1) (ih _)

omit [DecidableEq τ] in
theorem searchFrom_sigs_none (N : Nat) (t : MTrace τ β) :
    ∀ vs : List (Option Nat), (t.foldl (fun vs st => varsStep vs st.1) vs).length ≤ N →
    searchFrom (fun vs op _ => match op with
      | MOp.newMock sigs => if N = vs.length then some sigs else none
      | _ => none) vs t = none := by
  induction t with
  | nil => intro vs _; rfl
  | cons st t ih =>
    intro vs hN
    obtain ⟨o, ev⟩ := st
    rw [List.foldl_cons] at hN
    have := vars_length_mono t (varsStep vs o)
    rw [searchFrom, ih _ hN]
    cases o <;> simp only [Option.or_none]
    simp only [varsStep, List.length_append, List.length_singleton] at this hN
    rw [if_neg (by omega)]

theorem MInv.init : MInv (fun _ => (0, [])) ([] : MTrace τ β) MWorld.init [] := by
  constructor
  · exact .init
  · rfl
  · rfl
  · intro m k hm; simp [MTrace.vars] at hm
  · intro m hm; simp [MTrace.vars] at hm
  · intro k hk; simp [MTrace.vars] at hk
  · intro k hk; simp [MTrace.vars] at hk
  · intro k k' _ hk; simp [MTrace.vars] at hk
  · intro e
    have : Trace.decl ([] : Trace (CallInfo β)) e = none := rfl
    rw [this]
    exact ⟨rfl, rfl⟩

omit [DecidableEq τ] in
theorem MWorld.plain_ok {mw mw' : MWorld τ β} {o : Op (CallInfo β)} {ev : List Event}
    (hs : mw.plain o = .ok (mw', ev)) : ∃ w', mw.w.step o = .ok (w', ev) ∧ mw' = { mw with w := w' } := by
  simp only [MWorld.plain, bind, Except.bind] at hs
  cases hw : mw.w.step o with
  | error x => rw [hw] at hs; simp at hs
  | ok r =>
    rw [hw] at hs
    simp only [Pure.pure, Except.pure, Except.ok.injEq, Prod.mk.injEq] at hs
    obtain ⟨rfl, rfl⟩ := hs
    exact ⟨r.1, rfl, rfl⟩

theorem MInv.var {f : Nat → Nat × List (Sig τ)} {mtr : MTrace τ β} {mw : MWorld τ β} {tr : Trace (CallInfo β)}
    (h : MInv f mtr mw tr) {m : Nat} {c : MockCell τ} (hm : mw.mocks[m]? = some c) :
    (∃ k, mtr.vars[m]? = some (some k) ∧ k < mtr.vars.length ∧ mtr.sigs k = some (f k).2 ∧
      c = ⟨(f k).2, ptrsOf (f k), true⟩) ∨
    (mtr.vars[m]? = some none ∧ (c.alive = true → ∀ p ∈ c.ptrs, p = none)) := by
  have hlt : m < mtr.vars.length := by
    rw [← h.len]
    exact (List.getElem?_eq_some_iff.mp hm).1
  cases hv : mtr.vars[m]? with
  | none => rw [List.getElem?_eq_none_iff] at hv; omega
  | some o =>
    cases o with
    | none =>
      obtain ⟨c', h1, h2⟩ := h.empty m hv
      rw [hm] at h1
      simp only [Option.some.injEq] at h1
      subst h1
      exact Or.inr ⟨rfl, h2⟩
    | some k =>
      obtain ⟨h1, h2, h3⟩ := h.held m k hv
      rw [hm] at h3
      simp only [Option.some.injEq] at h3
      exact Or.inl ⟨k, rfl, h1, h2, h3⟩

/-- A front-end with a storage belongs to a held mock. -/
theorem MInv.frontend {f : Nat → Nat × List (Sig τ)} {mtr : MTrace τ β} {mw : MWorld τ β} {tr : Trace (CallInfo β)}
    (h : MInv f mtr mw tr) {m i c : Nat} {cat : ValueCategory} {con : Constness}
    (hf : mw.frontend m i = some (some c, cat, con)) :
    ∃ k g idx, mtr.vars[m]? = some (some k) ∧ k < mtr.vars.length ∧ mtr.sigs k = some (f k).2 ∧
      (f k).2[i]? = some g ∧ g.frontend = some (cat, con) ∧ storageIndex (storagesOf (f k).2) g = some idx ∧
      c = (f k).1 + idx := by
  unfold MWorld.frontend at hf
  split at hf
  · rename_i cell hm
    split at hf
    · rename_i ha
      split at hf
      · rename_i g p hg hp
        split at hf
        · rename_i cat' con' hfr
          simp only [Option.some.injEq, Prod.mk.injEq] at hf
          obtain ⟨rfl, rfl, rfl⟩ := hf
          rcases h.var hm with ⟨k, h1, h2, h3, rfl⟩ | ⟨_, h2⟩
          · simp only [ptrsOf, List.getElem?_map] at hg hp
            rw [hg] at hp
            simp only [Option.map_some, Option.some.injEq, Option.map_eq_some_iff] at hp
            obtain ⟨idx, hidx, rfl⟩ := hp
            exact ⟨k, g, idx, h1, h2, h3, hg, hfr, hidx, rfl⟩
          · have := h2 ha (some c) (List.mem_of_getElem? hp)
            simp at this
        · simp at hf
      · simp at hf
    · simp at hf
  · simp at hf

theorem MInv.step {f : Nat → Nat × List (Sig τ)} {mtr : MTrace τ β} {mw mw' : MWorld τ β} {tr : Trace (CallInfo β)}
    (h : MInv f mtr mw tr) {op : MOp τ β} {ev : List Event} (hs : mw.step op = .ok (mw', ev)) :
    ∃ f' tr', MInv f' (mtr ++ [(op, ev)]) mw' tr' := by
  cases op with
  | newSequence st =>
    obtain ⟨w', hw, rfl⟩ := MWorld.plain_ok hs
    exact ⟨f, _, h.simple hw (fun _ => rfl) (fun _ => rfl) (fun _ => rfl) (by simp) (by simp)⟩
  | dropSequence s =>
    obtain ⟨w', hw, rfl⟩ := MWorld.plain_ok hs
    exact ⟨f, _, h.simple hw (fun _ => rfl) (fun _ => rfl) (fun _ => rfl) (by simp) (by simp)⟩
  | destroy e =>
    obtain ⟨w', hw, rfl⟩ := MWorld.plain_ok hs
    exact ⟨f, _, h.simple hw (fun _ => rfl) (fun _ => rfl) (fun _ => rfl) (by simp) (by simp)⟩
  | call m i a =>
    simp only [MWorld.step] at hs
    split at hs
    · simp at hs
    · simp at hs
    · obtain ⟨w', hw, rfl⟩ := MWorld.plain_ok hs
      exact ⟨f, _, h.simple hw (fun _ => rfl) (fun _ => rfl) (fun _ => rfl) (by simp) (by simp)⟩
  | dropMock m =>
    simp only [MWorld.step] at hs
    split at hs
    · rename_i sigs ptrs hm
      simp only [Except.ok.injEq, Prod.mk.injEq] at hs
      obtain ⟨rfl, rfl⟩ := hs
      refine ⟨f, tr, h.pure (by simp) (fun _ => rfl) (fun _ _ => rfl) ?_ ?_ ?_ ?_ ?_⟩
      · simp [varsStep, h.len]
      · simp [varsStep]
      · intro k hk hk'; simp [varsStep] at hk'; omega
      · intro n k hn
        simp only [varsStep, List.getElem?_set] at hn
        split at hn
        · split at hn <;> simp at hn
        · rename_i hne
          refine ⟨⟨n, hn⟩, ?_⟩
          rw [List.getElem?_set_ne hne]
          exact (h.held n k hn).2.2
      · intro n hn
        simp only [varsStep, List.getElem?_set] at hn
        by_cases hmn : m = n
        · subst hmn
          have hlt := (List.getElem?_eq_some_iff.mp hm).1
          exact ⟨⟨sigs, ptrs, false⟩, by rw [List.getElem?_set_self hlt], by simp⟩
        · rw [if_neg hmn] at hn
          rw [List.getElem?_set_ne hmn]
          exact h.empty n hn
    · simp at hs
  | moveMock m =>
    simp only [MWorld.step] at hs
    split at hs
    · rename_i sigs ptrs hm
      simp only [Except.ok.injEq, Prod.mk.injEq] at hs
      obtain ⟨rfl, rfl⟩ := hs
      have hlt : m < mw.mocks.length := (List.getElem?_eq_some_iff.mp hm).1
      have hlen := h.len
      refine ⟨fun k => if k < mtr.vars.length then f k else (mw.w.colls.length, []), tr,
        h.pure (by simp) (fun _ => rfl) ?_ ?_ ?_ ?_ ?_ ?_⟩
      · intro k hk; simp [hk]
      · simp [varsStep, h.len]
      · simp [varsStep]
      · intro k hk hk'
        rw [if_neg (by omega)]
      · intro n k hn
        simp only [varsStep] at hn
        by_cases hnl : n < mtr.vars.length
        · rw [List.getElem?_append_left (by simpa using hnl), List.getElem?_set] at hn
          rw [List.getElem?_append_left (by simp; omega)]
          by_cases hmn : m = n
          · subst hmn; rw [if_pos rfl] at hn; simp [hnl] at hn
          · rw [if_neg hmn] at hn
            refine ⟨⟨n, hn⟩, ?_⟩
            rw [List.getElem?_set_ne hmn]
            exact (h.held n k hn).2.2
        · rw [List.getElem?_append_right (by simp; omega)] at hn
          rw [List.getElem?_append_right (by simp; omega)]
          simp only [List.length_set] at hn ⊢
          have hn0 : n - mtr.vars.length = 0 := by
            apply Classical.byContradiction; intro hh
            rw [List.getElem?_eq_none (by simp; omega)] at hn; simp at hn
          rw [hn0] at hn
          rw [show n - mw.mocks.length = 0 by omega]
          simp only [List.getElem?_cons_zero, Option.some.injEq] at hn ⊢
          have hv : mtr.vars[m]? = some (some k) := by
            cases hx : mtr.vars[m]? with
            | none => rw [hx] at hn; simp at hn
            | some o => rw [hx] at hn; simp at hn; rw [hn]
          refine ⟨⟨m, hv⟩, ?_⟩
          have := (h.held m k hv).2.2
          rw [hm] at this
          simpa using this
      · intro n hn
        simp only [varsStep] at hn
        by_cases hnl : n < mtr.vars.length
        · rw [List.getElem?_append_left (by simpa using hnl), List.getElem?_set] at hn
          rw [List.getElem?_append_left (by simp; omega)]
          by_cases hmn : m = n
          · subst hmn
            rw [List.getElem?_set_self hlt]
            exact ⟨_, rfl, by simp⟩
          · rw [if_neg hmn] at hn
            rw [List.getElem?_set_ne hmn]
            exact h.empty n hn
        · rw [List.getElem?_append_right (by simp; omega)] at hn
          rw [List.getElem?_append_right (by simp; omega)]
          simp only [List.length_set] at hn ⊢
          have hn0 : n - mtr.vars.length = 0 := by
            apply Classical.byContradiction; intro hh
            rw [List.getElem?_eq_none (by simp; omega)] at hn; simp at hn
          rw [hn0] at hn
          rw [show n - mw.mocks.length = 0 by omega]
          simp only [List.getElem?_cons_zero, Option.some.injEq] at hn ⊢
          refine ⟨_, rfl, ?_⟩
          rcases h.var hm with ⟨k, hk, _⟩ | ⟨_, h2⟩
          · rw [hk] at hn; simp at hn
          · exact h2
    · simp at hs
  | assignMock dst src =>
    simp only [MWorld.step] at hs
    split at hs
    · rename_i sigs ptrs sigs' ptrs' hd hsrc
      split at hs
      · rename_i hsig
        subst hsig
        have hlen := h.len
        have hlt : src < mw.mocks.length := (List.getElem?_eq_some_iff.mp hsrc).1
        have hlt' : dst < mw.mocks.length := (List.getElem?_eq_some_iff.mp hd).1
        split at hs
        · rename_i heq
          simp only [Except.ok.injEq, Prod.mk.injEq] at hs
          obtain ⟨rfl, rfl⟩ := hs
          have hvs : varsStep mtr.vars (.assignMock dst src : MOp τ β) = mtr.vars := by simp [varsStep, heq]
          have := h.pure (op := .assignMock dst src) (mocks' := mw.mocks) (f' := f) (by simp) (fun _ => rfl)
            (fun _ _ => rfl) (by rw [hvs]; exact h.len) (by rw [hvs]; exact Nat.le_refl _)
            (by rw [hvs]; intro k h1 h2; omega)
            (by rw [hvs]; intro n k hn; exact ⟨⟨n, hn⟩, (h.held n k hn).2.2⟩)
            (by rw [hvs]; exact h.empty)
          exact ⟨f, tr, this⟩
        · rename_i hne
          simp only [Except.ok.injEq, Prod.mk.injEq] at hs
          obtain ⟨rfl, rfl⟩ := hs
          have hvs : varsStep mtr.vars (.assignMock dst src : MOp τ β) =
              (mtr.vars.set dst mtr.vars[src]?.join).set src none := by simp [varsStep, hne]
          refine ⟨f, tr, h.pure (by simp) (fun _ => rfl) (fun _ _ => rfl) ?_ ?_ ?_ ?_ ?_⟩
          · rw [hvs]; simp [h.len]
          · rw [hvs]; simp
          · rw [hvs]; intro k h1 h2; simp at h2; omega
          · intro n k hn
            rw [hvs] at hn
            by_cases hns : src = n
            · subst hns
              rw [List.getElem?_set_self (by simp; omega)] at hn; simp at hn
            · rw [List.getElem?_set_ne hns] at hn ⊢
              by_cases hnd : dst = n
              · subst hnd
                rw [List.getElem?_set_self (by omega)] at hn ⊢
                simp only [Option.some.injEq] at hn
                have hv : mtr.vars[src]? = some (some k) := by
                  cases hx : mtr.vars[src]? with
                  | none => rw [hx] at hn; simp at hn
                  | some o => rw [hx] at hn; simp at hn; rw [hn]
                refine ⟨⟨src, hv⟩, ?_⟩
                have := (h.held src k hv).2.2
                rw [hsrc] at this
                simpa using this
              · rw [List.getElem?_set_ne hnd] at hn ⊢
                exact ⟨⟨n, hn⟩, (h.held n k hn).2.2⟩
          · intro n hn
            rw [hvs] at hn
            by_cases hns : src = n
            · subst hns
              rw [List.getElem?_set_self (by simp; omega)]
              exact ⟨_, rfl, by simp⟩
            · rw [List.getElem?_set_ne hns] at hn ⊢
              by_cases hnd : dst = n
              · subst hnd
                rw [List.getElem?_set_self (by omega)] at hn ⊢
                simp only [Option.some.injEq] at hn
                refine ⟨_, rfl, ?_⟩
                rcases h.var hsrc with ⟨k, hk, _⟩ | ⟨_, h2⟩
                · rw [hk] at hn; simp at hn
                · exact h2
              · rw [List.getElem?_set_ne hnd] at hn ⊢
                exact h.empty n hn
      · simp at hs
    · simp at hs
  | newMock sigs =>
    simp only [MWorld.step] at hs
    split at hs
    · rename_i hok
      obtain ⟨ho, hfr, hst⟩ := hok
      obtain ⟨w', ev', tr', h1, h2, h3, h4, h5, h6⟩ := addStorages_ok (storagesOf sigs).length h.reach
      simp only [h1, bind, Except.bind, Pure.pure, Except.pure, Except.ok.injEq, Prod.mk.injEq] at hs
      obtain ⟨rfl, rfl⟩ := hs
      have hvar : ∀ g ∈ sigs, g.variadic = false := by
        intro g hg
        have := List.all_eq_true.mp hfr g hg
        rw [frontend_eq] at this
        cases hv : g.variadic with
        | false => rfl
        | true => rw [hv] at this; simp at this
      have hne : sigs ≠ [] := by rintro rfl; simp [isOverloadSet] at ho
      have hpw := (C21_set sigs hne hvar).1.mp ho
      have hlen := h.len
      have hvars : MTrace.vars (mtr ++ [(MOp.newMock sigs, ev')]) = mtr.vars ++ [some mtr.vars.length] := vars_snoc _ _ _
      have hsigs : ∀ k, MTrace.sigs (mtr ++ [(MOp.newMock sigs, ev')]) k =
          (mtr.sigs k).or (if k = mtr.vars.length then some sigs else none) := by
        intro k
        unfold MTrace.sigs
        rw [searchFrom_snoc]
        rfl
      have hnosig : mtr.sigs mtr.vars.length = none := searchFrom_sigs_none _ mtr [] (Nat.le_refl _)
      refine ⟨fun k => if k = mtr.vars.length then (mw.w.colls.length, sigs) else f k, tr', ?_⟩
      constructor
      · exact h2
      · rw [h3, plain_snoc, events_snoc, h.events]
      · rw [hvars]; simp [h.len]
      · intro n k hn
        rw [hvars] at hn
        rw [hvars, hsigs]
        by_cases hnl : n < mtr.vars.length
        · rw [List.getElem?_append_left hnl] at hn
          obtain ⟨a, b, c⟩ := h.held n k hn
          simp only [if_neg (show k ≠ mtr.vars.length by omega)]
          refine ⟨by simp; omega, by rw [b]; rfl, ?_⟩
          rw [List.getElem?_append_left (by omega)]
          exact c
        · rw [List.getElem?_append_right (by omega)] at hn
          have hn0 : n - mtr.vars.length = 0 := by
            apply Classical.byContradiction; intro hh
            rw [List.getElem?_eq_none (by simp; omega)] at hn; simp at hn
          rw [hn0] at hn
          simp only [List.getElem?_cons_zero, Option.some.injEq] at hn
          subst hn
          simp only [if_true, hnosig]
          refine ⟨by simp, by simp, ?_⟩
          rw [List.getElem?_append_right (by omega), show n - mw.mocks.length = 0 by omega]
          rfl
      · intro n hn
        rw [hvars] at hn
        by_cases hnl : n < mtr.vars.length
        · rw [List.getElem?_append_left hnl] at hn
          rw [List.getElem?_append_left (by omega)]
          exact h.empty n hn
        · rw [List.getElem?_append_right (by omega)] at hn
          have hn0 : n - mtr.vars.length = 0 := by
            apply Classical.byContradiction; intro hh
            rw [List.getElem?_eq_none (by simp; omega)] at hn; simp at hn
          rw [hn0] at hn
          simp at hn
      · intro k hk
        rw [hvars] at hk
        simp only [List.length_append, List.length_singleton] at hk
        by_cases hkl : k = mtr.vars.length
        · rw [if_pos hkl]; exact ⟨hpw, hvar⟩
        · rw [if_neg hkl]; exact h.sig k (by omega)
      · intro k hk
        rw [hvars] at hk
        simp only [List.length_append, List.length_singleton] at hk
        rw [h5]
        by_cases hkl : k = mtr.vars.length
        · rw [if_pos hkl]; exact Nat.le_refl _
        · rw [if_neg hkl]; have := h.bound k (by omega); omega
      · intro k k' hkk hk
        rw [hvars] at hk
        simp only [List.length_append, List.length_singleton] at hk
        by_cases hkl : k' = mtr.vars.length
        · rw [if_pos hkl, if_neg (by omega)]; exact h.bound k (by omega)
        · rw [if_neg hkl, if_neg (by omega)]; exact h.sep k k' hkk (by omega)
      · intro e
        rw [h4]
        have := h.decl e
        have horg : MTrace.origin (mtr ++ [(MOp.newMock sigs, ev')]) e = mtr.origin e := by
          unfold MTrace.origin
          rw [searchFrom_snoc]; simp
        have hpd : Trace.decl (MTrace.plain (mtr ++ [(MOp.newMock sigs, ev')])) e = mtr.plain.decl e := by
          rw [plain_snoc, decl_snoc_none rfl]
        cases hd : tr.decl e with
        | none => rw [hd] at this; simp only [MatchDecl] at this ⊢; rw [hpd, horg]; exact this
        | some d =>
          rw [hd] at this; simp only [MatchDecl] at this ⊢
          rw [hpd, horg, hvars]
          obtain ⟨k, i, g, cat, con, idx, args, extra, a1, a2, a3, a4, a5, a6, a7, a8, a9, a10⟩ := this
          refine ⟨k, i, g, cat, con, idx, args, extra, a1, by simp; omega, ?_⟩
          rw [if_neg (by omega), hsigs, if_neg (by omega), Option.or_none]
          exact ⟨a3, a4, a5, a6, a7, a8, a9, a10.snoc⟩
    · simp at hs
  | expect m i min max tags args extra =>
    simp only [MWorld.step] at hs
    split at hs
    · simp at hs
    · simp at hs
    · rename_i c cat con hfr
      obtain ⟨w', hw, rfl⟩ := MWorld.plain_ok hs
      obtain ⟨k, g, idx, b1, b2, b3, b4, b5, b6, rfl⟩ := h.frontend hfr
      refine ⟨f, tr ++ [(.expect ((f k).1 + idx) min max tags (args ++ [categoryPolicy cat, constnessPolicy con] ++ extra), ev)], ?_⟩
      have hvars : MTrace.vars (mtr ++ [(MOp.expect m i min max tags args extra, ev)]) = mtr.vars := vars_snoc _ _ _
      have hsig : ∀ k, MTrace.sigs (mtr ++ [(MOp.expect m i min max tags args extra, ev)]) k = mtr.sigs k := by
        intro k
        unfold MTrace.sigs
        rw [searchFrom_snoc]; simp
      constructor
      · exact h.reach.step hw
      · rw [events_snoc, plain_snoc, events_snoc, h.events]
      · rw [hvars]; exact h.len
      · intro m k hm
        rw [hvars] at hm
        rw [hvars, hsig]
        exact h.held m k hm
      · intro m hm
        rw [hvars] at hm
        exact h.empty m hm
      · rw [hvars]; exact h.sig
      · rw [hvars]
        intro k hk
        exact Nat.le_trans (h.bound k hk) (colls_mono h.reach hw)
      · rw [hvars]; exact h.sep
      · intro e
        have horg : MTrace.origin (mtr ++ [(MOp.expect m i min max tags args extra, ev)]) e =
            (mtr.origin e).or (if Event.created e ∈ ev then some (k, i) else none) := by
          unfold MTrace.origin
          rw [searchFrom_snoc]
          show _ = _
          simp only
          rw [show (List.foldl (fun vs st => varsStep vs st.fst) [] mtr) = mtr.vars from rfl, b1]
          rfl
        have hpd : Trace.decl (MTrace.plain (mtr ++ [(MOp.expect m i min max tags args extra, ev)])) e =
            (mtr.plain.decl e).or (if Event.created e ∈ ev then some ⟨0, min, max, tags, args ++ extra⟩ else none) := by
          rw [plain_snoc, decl_snoc]; rfl
        rw [decl_snoc]
        have := h.decl e
        cases hd : tr.decl e with
        | none =>
          rw [hd] at this
          simp only [MatchDecl] at this
          rw [this.1] at hpd
          rw [this.2] at horg
          simp only [declStep, Option.none_or] at hpd horg ⊢
          by_cases hc : Event.created e ∈ ev
          · rw [if_pos hc] at hpd horg ⊢
            simp only [MatchDecl]
            rw [hvars]
            exact ⟨k, i, g, cat, con, idx, args, extra, horg, b2, b4, b5, b6, hpd, rfl, rfl, by rw [hsig]; exact b3,
              ⟨m, min, max, tags, ev, by simp, hc⟩⟩
          · rw [if_neg hc] at hpd horg ⊢
            exact ⟨hpd, horg⟩
        | some d =>
          rw [hd] at this
          simp only [MatchDecl, Option.some_or] at this ⊢
          obtain ⟨k, i, g, cat, con, idx, args, extra, a1, a2, a3, a4, a5, a6, a7, a8, a9, a10⟩ := this
          rw [hvars]
          refine ⟨k, i, g, cat, con, idx, args, extra, by rw [horg, a1]; rfl, a2, a3, a4, a5, by rw [hpd, a6]; rfl, a7, a8,
            by rw [hsig]; exact a9, a10.snoc⟩

/-- Every history with mocks corresponds to a flat one. -/
theorem MReach.inv {mtr : MTrace τ β} {mw : MWorld τ β} (h : MReach mtr mw) : ∃ f tr, MInv f mtr mw tr := by
  induction h with
  | init => exact ⟨_, _, MInv.init⟩
  | step _ hs ih =>
    obtain ⟨f, tr, hi⟩ := ih
    exact hi.step hs

theorem MInv.core {f : Nat → Nat × List (Sig τ)} {mtr : MTrace τ β} {mw : MWorld τ β} {tr : Trace (CallInfo β)}
    (h : MInv f mtr mw tr) : SameCore tr mtr.plain := by
  refine ⟨h.events, fun e => ?_⟩
  have := h.decl e
  cases hd : tr.decl e with
  | none => rw [hd] at this; rw [this.1]
  | some d =>
    rw [hd] at this
    obtain ⟨k, i, g, cat, con, idx, args, extra, a1, a2, a3, a4, a5, a6, a7⟩ := this
    rw [a6]; rfl

theorem storageIndex_lt {l : List (Sig τ)} {x : Sig τ} {y : Nat} (hh : storageIndex l x = some y) : y < l.length := by
  unfold storageIndex at hh
  split at hh
  · rename_i hcnt
    simp only [Option.some.injEq] at hh
    subst hh
    apply List.idxOf_lt_length_of_mem
    exact List.count_pos_iff.mp (by omega)
  · simp at hh

/-- Different mocks have different storages. -/
theorem MInv.sameMock {f : Nat → Nat × List (Sig τ)} {mtr : MTrace τ β} {mw : MWorld τ β} {tr : Trace (CallInfo β)}
    (h : MInv f mtr mw tr) {k k' idx idx' : Nat} {g g' : Sig τ} (hk : k < mtr.vars.length) (hk' : k' < mtr.vars.length)
    (hx : storageIndex (storagesOf (f k).2) g = some idx) (hx' : storageIndex (storagesOf (f k').2) g' = some idx')
    (heq : (f k).1 + idx = (f k').1 + idx') : k = k' := by
  have hlt1 := storageIndex_lt hx
  have hlt2 := storageIndex_lt hx'
  rcases Nat.lt_trichotomy k k' with hl | hl | hl
  · have := h.sep k k' hl hk'; omega
  · exact hl
  · have := h.sep k' k hl hk; omega

omit [DecidableEq τ] in
theorem info_of_frontend {g : Sig τ} {cat : ValueCategory} {con : Constness} (h : g.frontend = some (cat, con)) (a : β) :
    (g.info a).category = cat ∧ (g.info a).constness = con := by
  rw [frontend_eq] at h
  split at h
  · simp at h
  · simp only [Option.some.injEq, Prod.mk.injEq] at h
    obtain ⟨rfl, rfl⟩ := h
    exact ⟨rfl, rfl⟩

/-- Storages of different overloads: shared only within one mock, and then the front-ends' own policies tell the
overloads apart. -/
theorem MInv.separate {f : Nat → Nat × List (Sig τ)} {mtr : MTrace τ β} {mw : MWorld τ β} {tr : Trace (CallInfo β)}
    (h : MInv f mtr mw tr) {k k' i j idx idx' : Nat} {g g' : Sig τ} {cat cat' : ValueCategory} {con con' : Constness}
    (hk : k < mtr.vars.length) (hk' : k' < mtr.vars.length)
    (hg : (f k).2[i]? = some g) (hg' : (f k').2[j]? = some g') (hf : g.frontend = some (cat, con))
    (hf' : g'.frontend = some (cat', con')) (hx : storageIndex (storagesOf (f k).2) g = some idx)
    (hx' : storageIndex (storagesOf (f k').2) g' = some idx') (heq : (f k).1 + idx = (f k').1 + idx')
    (hc : cat'.isMatching cat = true) (hn : con'.isMatching con = true) : k = k' ∧ i = j := by
  have hkk : k = k' := h.sameMock hk hk' hx hx' heq
  subst hkk
  refine ⟨rfl, ?_⟩
  obtain ⟨hpw, hvar⟩ := h.sig k hk
  have hidx : idx = idx' := by omega
  subst hidx
  have hdec := ((C23_binding (f k).2 g (List.mem_of_getElem? hg)).2 g' (List.mem_of_getElem? hg')).mp (hx.trans hx'.symm)
  rw [(C24_laws g g').2.2.2.2.2.2.2.2] at hdec
  apply Classical.byContradiction
  intro hij
  have hov : Overloadable g g' := by
    rw [List.pairwise_iff_getElem] at hpw
    obtain ⟨hi, rfl⟩ := List.getElem?_eq_some_iff.mp hg
    obtain ⟨hj, rfl⟩ := List.getElem?_eq_some_iff.mp hg'
    rcases Nat.lt_or_gt_of_ne hij with hl | hl
    · exact hpw i j hi hj hl
    · exact overloadable_symm (hpw j i hj hi hl)
  rw [frontend_eq] at hf hf'
  rw [hvar g (List.mem_of_getElem? hg)] at hf
  rw [hvar g' (List.mem_of_getElem? hg')] at hf'
  simp only [Bool.false_eq_true, if_false, Option.some.injEq, Prod.mk.injEq] at hf hf'
  obtain ⟨rfl, rfl⟩ := hf
  obtain ⟨rfl, rfl⟩ := hf'
  rcases hov with hov | ⟨h1, h2⟩
  · exact hov hdec.2.1
  · rcases g with ⟨r, ps, v, c, q, n⟩
    rcases g' with ⟨r', ps', v', c', q', n'⟩
    simp only [Sig.refQualified] at h1 h2 hc hn
    cases c <;> cases c' <;> cases q <;> cases q' <;> simp_all +decide

/-- The flat candidates of a call through a front-end are the candidates of the overload. -/
theorem MInv.accepts_iff {f : Nat → Nat × List (Sig τ)} {mtr : MTrace τ β} {mw : MWorld τ β}
    {tr : Trace (CallInfo β)} (h : MInv f mtr mw tr) {k j idx : Nat} {g : Sig τ} {cat : ValueCategory} {con : Constness}
    (hk : k < mtr.vars.length) (hg : (f k).2[j]? = some g) (hf : g.frontend = some (cat, con))
    (hx : storageIndex (storagesOf (f k).2) g = some idx) (a : β) (e : Nat) :
    tr.accepts ((f k).1 + idx) ⟨a, cat, con⟩ e ↔ mtr.accepts k j ⟨a, cat, con⟩ e := by
  have hself : cat.isMatching cat = true ∧ con.isMatching con = true := by
    constructor
    · cases cat <;> rfl
    · cases con <;> rfl
  unfold Trace.accepts MTrace.accepts
  rw [h.core.live]
  apply and_congr Iff.rfl
  have hd := h.decl e
  cases htd : tr.decl e with
  | none =>
    rw [htd] at hd
    simp [hd.1]
  | some d =>
    rw [htd] at hd
    obtain ⟨k', i, g', cat', con', idx', args, extra, a1, a2, a3, a4, a5, a6, a7, a8, _⟩ := hd
    rw [a6, a1]
    simp only [Option.some.injEq, exists_eq_left', a8, Prod.mk.injEq]
    constructor
    · rintro ⟨hm, hp⟩
      have hc := hp (categoryPolicy cat') (by simp)
      have hn := hp (constnessPolicy con') (by simp)
      simp only [categoryPolicy, constnessPolicy, Option.some.injEq] at hc hn
      have := h.separate a2 hk a3 hg a4 hf a5 hx (by omega) hc hn
      refine ⟨this, fun p hp' => hp p ?_⟩
      simp only [List.mem_append] at hp' ⊢
      rcases hp' with hp' | hp'
      · exact Or.inl (Or.inl hp')
      · exact Or.inr hp'
    · rintro ⟨⟨rfl, rfl⟩, hp⟩
      rw [hg] at a3
      simp only [Option.some.injEq] at a3
      subst a3
      rw [hf] at a4
      rw [hx] at a5
      simp only [Option.some.injEq, Prod.mk.injEq] at a4 a5
      obtain ⟨rfl, rfl⟩ := a4
      subst a5
      refine ⟨a7, fun p hp' => ?_⟩
      simp only [List.mem_append, List.mem_cons, List.not_mem_nil, or_false] at hp'
      rcases hp' with (hp' | hp' | hp') | hp'
      · exact hp p (List.mem_append_left _ hp')
      · subst hp'; simp [categoryPolicy, hself.1]
      · subst hp'; simp [constnessPolicy, hself.2]
      · exact hp p (List.mem_append_right _ hp')

theorem MInv.candidate_iff {f : Nat → Nat × List (Sig τ)} {mtr : MTrace τ β} {mw : MWorld τ β}
    {tr : Trace (CallInfo β)} (h : MInv f mtr mw tr) {k j idx : Nat} {g : Sig τ} {cat : ValueCategory} {con : Constness}
    (hk : k < mtr.vars.length) (hg : (f k).2[j]? = some g) (hf : g.frontend = some (cat, con))
    (hx : storageIndex (storagesOf (f k).2) g = some idx) (a : β) (e : Nat) :
    tr.candidate ((f k).1 + idx) ⟨a, cat, con⟩ e ↔ mtr.candidate k j ⟨a, cat, con⟩ e := by
  unfold Trace.candidate MTrace.candidate
  rw [h.accepts_iff hk hg hf hx, h.core.applicable]

/-- A successful call through a mock is a flat call. -/
theorem MInv.call {f : Nat → Nat × List (Sig τ)} {mtr : MTrace τ β} {mw mw' : MWorld τ β}
    {tr : Trace (CallInfo β)} (h : MInv f mtr mw tr) {m j : Nat} {a : β} {ev : List Event}
    (hs : mw.step (.call m j a) = .ok (mw', ev)) :
    ∃ k g idx w', mtr.holds m k ∧ k < mtr.vars.length ∧ mtr.sigs k = some (f k).2 ∧ (f k).2[j]? = some g ∧
      g.frontend = some ((g.info a).category, (g.info a).constness) ∧
      storageIndex (storagesOf (f k).2) g = some idx ∧
      mw.w.step (.call ((f k).1 + idx) (g.info a)) = .ok (w', ev) := by
  simp only [MWorld.step] at hs
  split at hs
  · simp at hs
  · simp at hs
  · rename_i c cat con hfr
    obtain ⟨w', hw, rfl⟩ := MWorld.plain_ok hs
    obtain ⟨k, g, idx, b1, b2, b3, b4, b5, b6, rfl⟩ := h.frontend hfr
    have hinfo : g.info a = ⟨a, cat, con⟩ := by
      rw [frontend_eq] at b5
      split at b5
      · simp at b5
      · simp only [Option.some.injEq, Prod.mk.injEq] at b5
        obtain ⟨rfl, rfl⟩ := b5
        rfl
    refine ⟨k, g, idx, w', b1, b2, b3, b4, ?_, b6, ?_⟩
    · rw [hinfo]; exact b5
    · rw [hinfo]; exact hw

end Mimic
