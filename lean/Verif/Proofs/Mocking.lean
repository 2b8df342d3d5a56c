import Verif.Spec.Mocking
import Verif.Proofs.Whole
import Verif.Props.Mocks

/-!
# Proofs: all rules for mocks with overloads together
-/

set_option autoImplicit false

namespace Mimic.Mocking

variable {τ β : Type}

/-! ### Histories that differ only in mocks and overloads -/

/-- The histories agree in everything but mocks and matchers. -/
structure Link {α : Type} (ft t : Trace α) : Prop where
  core : SameCore ft t
  handle : ∀ s, ft.handle s ↔ t.handle s
  sat : ∀ e, Whole.dissatisfied ft e ↔ Whole.dissatisfied t e

section
variable {α : Type} {ft t : Trace α}

theorem Link.symm (h : Link ft t) : Link t ft := ⟨h.core.symm, fun s => (h.handle s).symm, fun e => (h.sat e).symm⟩

theorem Link.endOf (h : Link ft t) {s : Nat} {ev : List Event} (he : Whole.EndOf ft s ev) : Whole.EndOf t s ev := by
  cases he with
  | fine h1 => exact .fine (fun e ha ht => h1 e ((h.core.attached e s).mpr ha) ((h.core.tooFew e).mpr ht))
  | missing h1 h2 h3 h4 =>
    exact .missing ⟨h1.1, fun e => (h1.2 e).trans (h.core.attached e s)⟩ h2 ((h.core.tooFew _).mp h3)
      (fun j e' hj he' ht => h4 j e' hj he' ((h.core.tooFew _).mpr ht))

theorem Link.ends (h : Link ft t) {P Q : Nat → Prop} (hpq : ∀ s, P s ↔ Q s) {ss : List Nat} {ev : List Event}
    (he : Whole.Ends ft P ss ev) : Whole.Ends t Q ss ev := by
  induction he with
  | nil => exact .nil
  | keep h1 _ ih => exact .keep ((hpq _).mp h1) ih
  | gone h1 h2 _ ih => exact .gone (fun hq => h1 ((hpq _).mpr hq)) (h.endOf h2) ih

theorem Link.exists_decl (h : Link ft t) (e : Nat) : (∃ d, ft.decl e = some d) ↔ ∃ d, t.decl e = some d :=
  ⟨fun ⟨_, hd⟩ => let ⟨d', h1, _⟩ := h.core.get hd; ⟨d', h1⟩, fun ⟨_, hd⟩ => let ⟨d', h1, _⟩ := h.core.symm.get hd; ⟨d', h1⟩⟩

theorem Link.nextExp (h : Link ft t) {n : Nat} (hn : Whole.NextNumber (fun e => ∃ d, ft.decl e = some d) n) :
    Whole.NextNumber (fun e => ∃ d, t.decl e = some d) n := fun k => (h.exists_decl k).symm.trans (hn k)

theorem Link.newSequence (h : Link ft t) {st : Strategy} {ev : List Event} (hp : Whole.Prescribed ft (.newSequence st) ev) :
    Whole.Prescribed t (.newSequence st) ev := by
  cases hp with
  | newSequence hn =>
    refine .newSequence (fun k => ?_)
    have := hn k
    simp only [Trace.kind] at this ⊢
    rw [← h.core.events]; exact this

theorem Link.dropSequence (h : Link ft t) {s : Nat} {ev : List Event} (hp : Whole.Prescribed ft (.dropSequence s) ev) :
    Whole.Prescribed t (.dropSequence s) ev := by
  cases hp with
  | drop he => exact .drop (h.ends (fun s => by simp only [h.core.live, h.core.attached]) he)

theorem Link.destroy (h : Link ft t) {e : Nat} {ev : List Event} (hp : Whole.Prescribed ft (.destroy e) ev) :
    Whole.Prescribed t (.destroy e) ev := by
  have hk : ∀ s, (ft.handle s ∨ ∃ e', e' ≠ e ∧ ft.live e' ∧ ft.attached e' s) ↔ (t.handle s ∨ ∃ e', e' ≠ e ∧ t.live e' ∧ t.attached e' s) :=
    fun s => by simp only [h.core.live, h.core.attached, h.handle]
  cases hp with
  | fulfilled h1 h2 h3 =>
    obtain ⟨d', g1, _, _, g4⟩ := h.core.get h1
    rw [← g4] at h3
    exact .fulfilled g1 (by rw [← h.core.tooFew, ← h.sat]; exact h2) (h.ends hk h3)
  | unfulfilled h1 h2 h3 =>
    obtain ⟨d', g1, _, _, g4⟩ := h.core.get h1
    rw [← g4] at h3
    exact .unfulfilled g1 (by rw [← h.core.tooFew, ← h.sat]; exact h2) (h.ends hk h3)

theorem Link.expect (h : Link ft t) {m m' : Nat} {min max : Int} {ss : List Nat} {ps ps' : List (Policy α)} {ev : List Event}
    (hp : Whole.Prescribed ft (.expect m min max ss ps) ev) : Whole.Prescribed t (.expect m' min max ss ps') ev := by
  cases hp with
  | created h1 h2 h3 h4 => exact .created h1 h2 h3 (h.nextExp h4)
  | rejected h1 => exact .rejected h1

theorem Link.overflows (h : Link ft t) {m m' : Nat} {min max : Int} {ss : List Nat} {ps ps' : List (Policy α)} :
    ft.overflows (.expect m min max ss ps) ↔ t.overflows (.expect m' min max ss ps') := by
  simp only [Trace.overflows, Trace.atCapacity, OldestFirst, h.core.attached]

end

/-! ### Handles -/

/-- The client's object of sequence `s` has not ended. -/
def Undropped {α : Type} (t : Trace α) (s : Nat) : Prop := ∀ ev, (Op.dropSequence s, ev) ∉ t

theorem undropped_unique {α : Type} {t t' : Trace α} {w : World α} (h : Reach t w) (h' : Reach t' w) (s : Nat) :
    Undropped t s ↔ Undropped t' s := by
  have v := h.view.2
  have v' := h'.view.2
  unfold Undropped
  cases hq : (abs w).seqs[s]? with
  | none =>
    have hl := List.getElem?_eq_none_iff.mp hq
    exact ⟨fun _ => (v'.freshSeq s hl).2, fun _ => (v.freshSeq s hl).2⟩
  | some q => rw [← (v.seqs s q hq).2, ← (v'.seqs s q hq).2]

theorem undropped_snoc {α : Type} {t : Trace α} {op : Op α} {ev : List Event} (s : Nat) :
    Undropped (t ++ [(op, ev)]) s ↔ Undropped t s ∧ op ≠ .dropSequence s := by
  unfold Undropped
  simp only [List.mem_append, List.mem_singleton, Prod.mk.injEq, not_or, not_and]
  grind

/-- What creating the storages does. -/
theorem addStorages_exact (n : Nat) : ∀ {t : Trace (CallInfo β)} {w : World (CallInfo β)}, Reach t w →
    ∃ w' t', MWorld.addStorages w n = .ok (w', (List.range' w.colls.length n).map Event.mockCreated) ∧ Reach t' w' ∧
      ∀ s, Undropped t' s ↔ Undropped t s := by
  induction n with
  | zero => intro t w h; exact ⟨w, t, rfl, h, fun _ => Iff.rfl⟩
  | succ n ih =>
    intro t w h
    have hs : w.step .newMock = .ok ({ w with colls := w.colls ++ [[]] }, [.mockCreated w.colls.length]) := rfl
    obtain ⟨w', t', h1, h2, h3⟩ := ih (h.step hs)
    refine ⟨w', t', ?_, h2, fun s => (h3 s).trans ?_⟩
    · simp only [MWorld.addStorages, hs, bind, Except.bind, h1, pure, Except.pure]
      simp [List.range'_succ]
    · rw [undropped_snoc]; simp

variable [DecidableEq τ]

theorem undropped_iff {tr : MTrace τ β} {mw : MWorld τ β} (h : MReach tr mw) :
    ∀ {ft : Trace (CallInfo β)}, Reach ft mw.w → ∀ s, Undropped ft s ↔ Undropped tr.plain s := by
  induction h with
  | init =>
    intro ft hf s
    rw [undropped_unique hf (t' := []) .init]
    simp [MTrace.plain, Undropped]
  | @step tr mw mw' op ev hr hs ih =>
    obtain ⟨f, ft0, hi⟩ := hr.inv
    have ih0 := ih hi.reach
    have hplain : ∀ {o : Op (CallInfo β)}, mw.plain o = .ok (mw', ev) → (∀ s, o = .dropSequence s ↔ op.plain = .dropSequence s) →
        ∀ {ft}, Reach ft mw'.w → ∀ s, Undropped ft s ↔ Undropped (MTrace.plain (tr ++ [(op, ev)])) s := by
      intro o hp ho ft hf s
      obtain ⟨w', hw, rfl⟩ := MWorld.plain_ok hp
      rw [undropped_unique hf (hi.reach.step hw), plain_snoc, undropped_snoc, undropped_snoc, ih0, Ne, Ne, ho]
    have hsame : mw'.w = mw.w → (∀ s, op.plain ≠ .dropSequence s) →
        ∀ {ft}, Reach ft mw'.w → ∀ s, Undropped ft s ↔ Undropped (MTrace.plain (tr ++ [(op, ev)])) s := by
      intro hw ho ft hf s
      rw [hw] at hf
      rw [plain_snoc, undropped_snoc, ih hf]
      exact ⟨fun h => ⟨h, ho s⟩, fun h => h.1⟩
    intro ft hf s
    cases op with
    | newSequence st => exact hplain hs (by simp [MOp.plain]) hf s
    | dropSequence d => exact hplain hs (by simp [MOp.plain]) hf s
    | destroy e => exact hplain hs (by simp [MOp.plain]) hf s
    | newMock sigs =>
      obtain ⟨w', t', h1, h2, h3⟩ := addStorages_exact (storagesOf sigs).length hi.reach
      simp only [MWorld.step] at hs
      split at hs
      · simp only [h1, bind, Except.bind, pure, Except.pure, Except.ok.injEq, Prod.mk.injEq] at hs
        obtain ⟨rfl, rfl⟩ := hs
        rw [undropped_unique hf h2, h3, ih0, plain_snoc, undropped_snoc]
        simp [MOp.plain]
      · cases hs
    | moveMock m =>
      simp only [MWorld.step] at hs
      split at hs
      · simp only [Except.ok.injEq, Prod.mk.injEq] at hs
        exact hsame (by rw [← hs.1]) (by simp [MOp.plain]) hf s
      · cases hs
    | assignMock dst src =>
      simp only [MWorld.step] at hs
      split at hs
      · split at hs
        · split at hs
          · simp only [Except.ok.injEq, Prod.mk.injEq] at hs
            exact hsame (by rw [← hs.1]) (by simp [MOp.plain]) hf s
          · simp only [Except.ok.injEq, Prod.mk.injEq] at hs
            exact hsame (by rw [← hs.1]) (by simp [MOp.plain]) hf s
        · cases hs
      · cases hs
    | dropMock m =>
      simp only [MWorld.step] at hs
      split at hs
      · simp only [Except.ok.injEq, Prod.mk.injEq] at hs
        exact hsame (by rw [← hs.1]) (by simp [MOp.plain]) hf s
      · cases hs
    | expect m j mn mx tags args extra =>
      simp only [MWorld.step] at hs
      split at hs
      · cases hs
      · cases hs
      · exact hplain hs (by simp [MOp.plain]) hf s
    | call m j a =>
      simp only [MWorld.step] at hs
      split at hs
      · cases hs
      · cases hs
      · exact hplain hs (by simp [MOp.plain]) hf s

theorem link {tr : MTrace τ β} {mw : MWorld τ β} (h : MReach tr mw) {f : Nat → Nat × List (Sig τ)} {ft : Trace (CallInfo β)}
    (hi : MInv f tr mw ft) : Link ft tr.plain := by
  refine ⟨hi.core, fun s => ?_, fun e => ?_⟩
  · have := undropped_iff h hi.reach s
    unfold Undropped at this
    unfold Trace.handle Trace.kind
    rw [hi.events, this]
  · have hd := hi.decl e
    unfold Whole.dissatisfied
    cases hf : ft.decl e with
    | none => rw [hf] at hd; simp [hd.1]
    | some d =>
      rw [hf] at hd
      obtain ⟨k, i, g, cat, con, idx, args, extra, -, -, -, -, -, a6, -, a8, -⟩ := hd
      rw [a6]
      simp only [Option.some.injEq, exists_eq_left', a8]
      constructor
      · rintro ⟨p, hp, hs⟩
        refine ⟨p, ?_, hs⟩
        simp only [List.mem_append, List.mem_cons, List.not_mem_nil, or_false] at hp ⊢
        rcases hp with (hp | rfl | rfl) | hp
        · exact .inl hp
        · simp [categoryPolicy] at hs
        · simp [constnessPolicy] at hs
        · exact .inr hp
      · rintro ⟨p, hp, hs⟩
        refine ⟨p, ?_, hs⟩
        simp only [List.mem_append] at hp ⊢
        rcases hp with hp | hp
        · exact .inl (.inl hp)
        · exact .inr hp

/-! ### Types of variables -/

theorem types {tr : MTrace τ β} {mw : MWorld τ β} (h : MReach tr mw) :
    mw.mocks.map (·.sigs) = tr.foldl (fun ts st => typesStep ts st.1) [] := by
  induction h with
  | init => rfl
  | @step tr mw mw' op ev hr hs ih =>
    rw [List.foldl_append, ← ih]
    simp only [List.foldl_cons, List.foldl_nil]
    have hplain : ∀ {o : Op (CallInfo β)}, mw.plain o = .ok (mw', ev) → mw'.mocks = mw.mocks := by
      intro o hp
      obtain ⟨w', _, rfl⟩ := MWorld.plain_ok hp
      rfl
    have hset : ∀ (l : List (MockCell τ)) (m : Nat) (sigs : List (Sig τ)) (ptrs ptrs' : List (Option Nat)) (al al' : Bool),
        l[m]? = some ⟨sigs, ptrs, al⟩ → (l.set m ⟨sigs, ptrs', al'⟩).map (·.sigs) = l.map (·.sigs) := by
      intro l m sigs ptrs ptrs' al al' hc
      apply List.ext_getElem?
      intro i
      rw [List.getElem?_map, List.getElem?_map, List.getElem?_set]
      split
      · rename_i hm
        subst hm
        have := (List.getElem?_eq_some_iff.mp hc).1
        rw [if_pos this, hc]; rfl
      · rfl
    cases op with
    | newSequence st => rw [hplain hs]; rfl
    | dropSequence s => rw [hplain hs]; rfl
    | destroy e => rw [hplain hs]; rfl
    | call m i a =>
      simp only [MWorld.step] at hs
      split at hs
      · cases hs
      · cases hs
      · rw [hplain hs]; rfl
    | expect m i min max tags args extra =>
      simp only [MWorld.step] at hs
      split at hs
      · cases hs
      · cases hs
      · rw [hplain hs]; rfl
    | newMock sigs =>
      simp only [MWorld.step] at hs
      split at hs
      · simp only [bind, Except.bind] at hs
        split at hs
        · cases hs
        · simp only [pure, Except.pure, Except.ok.injEq, Prod.mk.injEq] at hs
          obtain ⟨rfl, rfl⟩ := hs
          simp [typesStep]
      · cases hs
    | moveMock m =>
      simp only [MWorld.step] at hs
      split at hs
      · rename_i sigs ptrs hm
        simp only [Except.ok.injEq, Prod.mk.injEq] at hs
        obtain ⟨rfl, rfl⟩ := hs
        simp only [List.map_append, typesStep]
        rw [hset _ _ _ _ _ _ _ hm]
        simp [hm]
      · cases hs
    | assignMock dst src =>
      simp only [MWorld.step] at hs
      split at hs
      · rename_i sigs ptrs sigs' ptrs' hd hsrc
        split at hs
        · rename_i heq
          subst heq
          split at hs
          · simp only [Except.ok.injEq, Prod.mk.injEq] at hs
            obtain ⟨rfl, rfl⟩ := hs
            rfl
          · rename_i hne
            simp only [Except.ok.injEq, Prod.mk.injEq] at hs
            obtain ⟨rfl, rfl⟩ := hs
            exact (hset _ src _ ptrs' _ _ _ (by rw [List.getElem?_set_ne hne]; exact hsrc)).trans (hset _ dst _ _ _ _ _ hd)
        · cases hs
      · cases hs
    | dropMock m =>
      simp only [MWorld.step] at hs
      split at hs
      · rename_i sigs ptrs hm
        simp only [Except.ok.injEq, Prod.mk.injEq] at hs
        obtain ⟨rfl, rfl⟩ := hs
        exact hset _ _ _ _ _ _ _ hm
      · cases hs

theorem hasType_iff {tr : MTrace τ β} {mw : MWorld τ β} (h : MReach tr mw) (m : Nat) (sigs : List (Sig τ)) :
    HasType tr m sigs ↔ ∃ c, mw.mocks[m]? = some c ∧ c.sigs = sigs := by
  unfold HasType
  rw [← types h, List.getElem?_map, Option.map_eq_some_iff]

theorem living_iff {tr : MTrace τ β} {mw : MWorld τ β} (h : MReach tr mw) (m : Nat) :
    tr.living m ↔ ∃ sigs ptrs, mw.mocks[m]? = some ⟨sigs, ptrs, true⟩ := by
  obtain ⟨hlen, _, hal⟩ := h.alive
  constructor
  · rintro ⟨h1, h2⟩
    have hlt : m < mw.mocks.length := by omega
    have hm := List.getElem?_eq_getElem hlt
    have ha := (hal m _ hm).mpr h2
    generalize mw.mocks[m] = c at hm ha
    obtain ⟨s, p, a⟩ := c
    simp only at ha
    subst ha
    exact ⟨s, p, hm⟩
  · rintro ⟨s, p, hm⟩
    exact ⟨by have := (List.getElem?_eq_some_iff.mp hm).1; omega, (hal m _ hm).mp rfl⟩

/-- A living variable without a mock. -/
theorem movedFrom {tr : MTrace τ β} {mw : MWorld τ β} (h : MReach tr mw) {m : Nat} (hl : tr.living m) (hn : ∀ k, ¬ tr.holds m k) :
    ∃ sigs, HasType tr m sigs ∧ ∀ i, (i < sigs.length → ∃ cat con, mw.frontend m i = some (none, cat, con)) ∧
      (sigs.length ≤ i → mw.frontend m i = none) := by
  obtain ⟨n, _, hn'⟩ := h.movedFrom hl hn
  obtain ⟨sigs, ptrs, hm⟩ := (living_iff h m).mp hl
  obtain ⟨h1, -, h3⟩ := h.cells _ (List.mem_of_getElem? hm)
  refine ⟨sigs, (hasType_iff h m sigs).mpr ⟨_, hm, rfl⟩, fun i => ⟨fun hi => ?_, fun hi => ?_⟩⟩
  · by_cases hin : i < n
    · exact (hn' i).1 hin
    · have hnone := (hn' i).2 (by omega)
      obtain ⟨⟨cat, con⟩, hf⟩ := Option.isSome_iff_exists.mp (h3 _ (List.getElem_mem (l := sigs) hi))
      simp only at h1
      unfold MWorld.frontend at hnone
      simp [hm, List.getElem?_eq_getElem hi, List.getElem?_eq_getElem (show i < ptrs.length by omega), hf] at hnone
  · unfold MWorld.frontend
    simp [hm, List.getElem?_eq_none hi]

/-! ### Groups of overloads -/

omit [DecidableEq τ] in
theorem groups_unique {sigs : List (Sig τ)} {n n' : Nat} (h : Groups sigs n) (h' : Groups sigs n') : n = n' := by
  obtain ⟨ks, h1, h2, rfl⟩ := h
  obtain ⟨ks', h1', h2', rfl⟩ := h'
  exact ((List.perm_ext_iff_of_nodup h1 h1').mpr (fun k => (h2 k).trans (h2' k).symm)).length_eq

theorem groups_storages {sigs : List (Sig τ)} (hv : ∀ f ∈ sigs, f.variadic = false) : Groups sigs (storagesOf sigs).length := by
  obtain ⟨hnd, hmem, -⟩ := C23_storages sigs
  have key : ∀ f : Sig τ, f.decay.ret = f.ret ∧ f.decay.params = f.params := fun f => by rw [decay_eq]; exact ⟨rfl, rfl⟩
  refine ⟨(storagesOf sigs).map (fun f => (f.ret, f.params)), ?_, fun k => ?_, by simp⟩
  · unfold List.Nodup at hnd ⊢
    rw [List.pairwise_map]
    refine hnd.imp_of_mem (fun {a b} ha hb hne he => hne ?_)
    obtain ⟨f, hf, rfl⟩ := (hmem a).mp ha
    obtain ⟨g, hg, rfl⟩ := (hmem b).mp hb
    simp only [Prod.mk.injEq, key] at he
    exact (C24_laws f g).2.2.2.2.2.2.2.2.mpr ⟨he.1, he.2, by rw [hv f hf, hv g hg]⟩
  · simp only [List.mem_map, hmem]
    constructor
    · rintro ⟨_, ⟨f, hf, rfl⟩, rfl⟩; exact ⟨f, hf, by simp [key]⟩
    · rintro ⟨f, hf, rfl⟩; exact ⟨_, ⟨f, hf, rfl⟩, by simp [key]⟩

/-! ### Calls -/

theorem looked_iff {f : Nat → Nat × List (Sig τ)} {tr : MTrace τ β} {mw : MWorld τ β} {ft : Trace (CallInfo β)} (hi : MInv f tr mw ft)
    {k j idx : Nat} {g : Sig τ} (hk : k < tr.vars.length) (hg : (f k).2[j]? = some g)
    (hx : storageIndex (storagesOf (f k).2) g = some idx) (e : Nat) :
    (ft.live e ∧ ∃ d, ft.decl e = some d ∧ d.mock = (f k).1 + idx) ↔ Looked tr k (f k).2 g e := by
  unfold Looked
  rw [hi.core.live]
  apply and_congr Iff.rfl
  have hd := hi.decl e
  cases hf : ft.decl e with
  | none => rw [hf] at hd; simp [hd.2]
  | some d =>
    rw [hf] at hd
    obtain ⟨k', i, g', cat, con, idx', args, extra, a1, a2, a3, a4, a5, a6, a7, a8, -⟩ := hd
    rw [a1]
    simp only [Option.some.injEq, exists_eq_left', Prod.mk.injEq]
    have hv := (hi.sig k hk).2
    constructor
    · intro hm
      have hkk := hi.sameMock a2 hk a5 hx (by omega)
      subst hkk
      have hdec := ((C23_binding (f k').2 g' (List.mem_of_getElem? a3)).2 g (List.mem_of_getElem? hg)).mp (by rw [a5, hx]; congr 1; omega)
      rw [(C24_laws g' g).2.2.2.2.2.2.2.2] at hdec
      exact ⟨i, g', ⟨rfl, rfl⟩, a3, hdec.1, hdec.2.1⟩
    · rintro ⟨i', g'', ⟨rfl, rfl⟩, h1, h2, h3⟩
      rw [a3] at h1
      simp only [Option.some.injEq] at h1
      subst h1
      have hdec := (C24_laws g' g).2.2.2.2.2.2.2.2.mpr
        ⟨h2, h3, by rw [hv g' (List.mem_of_getElem? a3), hv g (List.mem_of_getElem? hg)]⟩
      have := ((C23_binding (f k').2 g' (List.mem_of_getElem? a3)).2 g (List.mem_of_getElem? hg)).mpr hdec
      rw [a5, hx] at this
      simp only [Option.some.injEq] at this
      omega

theorem fails_iff {f : Nat → Nat × List (Sig τ)} {tr : MTrace τ β} {mw : MWorld τ β} {ft : Trace (CallInfo β)} (hi : MInv f tr mw ft)
    (a : CallInfo β) (e : Nat) : (∃ d, ft.decl e = some d ∧ ∃ p ∈ d.policies, p.accepts a = none) ↔ Fails tr a e := by
  unfold Fails
  have hd := hi.decl e
  cases hf : ft.decl e with
  | none => rw [hf] at hd; simp [hd.1]
  | some d =>
    rw [hf] at hd
    obtain ⟨k', i, g', cat, con, idx', args, extra, a1, a2, a3, a4, a5, a6, a7, a8, -⟩ := hd
    rw [a6]
    simp only [Option.some.injEq, exists_eq_left', a8]
    constructor
    · rintro ⟨p, hp, hs⟩
      refine ⟨p, ?_, hs⟩
      simp only [List.mem_append, List.mem_cons, List.not_mem_nil, or_false] at hp ⊢
      rcases hp with (hp | rfl | rfl) | hp
      · exact .inl hp
      · simp [categoryPolicy] at hs
      · simp [constnessPolicy] at hs
      · exact .inr hp
    · rintro ⟨p, hp, hs⟩
      refine ⟨p, ?_, hs⟩
      simp only [List.mem_append] at hp ⊢
      rcases hp with hp | hp
      · exact .inl (.inl hp)
      · exact .inr hp

theorem youngest_congr {P Q : Nat → Prop} (h : ∀ e, P e ↔ Q e) {es : List Nat} (hy : YoungestFirst P es) : YoungestFirst Q es :=
  ⟨hy.1, fun e => (hy.2 e).trans (h e)⟩

theorem call_of {f : Nat → Nat × List (Sig τ)} {tr : MTrace τ β} {mw : MWorld τ β} {ft : Trace (CallInfo β)} (hi : MInv f tr mw ft)
    {m j k idx : Nat} {g : Sig τ} {a : β} (hm : tr.holds m k) (hk : k < tr.vars.length) (hsig : tr.sigs k = some (f k).2)
    (hg : (f k).2[j]? = some g) (hfr : g.frontend = some ((g.info a).category, (g.info a).constness))
    (hx : storageIndex (storagesOf (f k).2) g = some idx) {ev : List Event}
    (hp : Whole.Prescribed ft (.call ((f k).1 + idx) (g.info a)) ev) : Prescribed tr (.call m j a) ev := by
  have hc : ∀ e, ft.candidate ((f k).1 + idx) (g.info a) e ↔ tr.candidate k j (g.info a) e := hi.candidate_iff hk hg hfr hx a
  have ha : ∀ e, ft.accepts ((f k).1 + idx) (g.info a) e ↔ tr.accepts k j (g.info a) e := hi.accepts_iff hk hg hfr hx a
  have hl := looked_iff hi hk hg hx
  have ht : ∀ e, ft.throws ((f k).1 + idx) (g.info a) e ↔ Looked tr k (f k).2 g e ∧ Fails tr (g.info a) e := by
    intro e
    rw [← hl, ← fails_iff hi]
    unfold Trace.throws
    constructor
    · rintro ⟨h1, d, h2, h3, h4⟩; exact ⟨⟨h1, d, h2, h3⟩, d, h2, h4⟩
    · rintro ⟨⟨h1, d, h2, h3⟩, d', h2', h4⟩
      rw [h2] at h2'
      simp only [Option.some.injEq] at h2'
      subst h2'
      exact ⟨h1, d, h2, h3, h4⟩
  cases hp with
  | call hu ho =>
    refine .call ⟨hm, hsig, hg⟩ (youngest_congr ht hu) ?_
    cases ho with
    | resolved h1 h2 => exact .resolved (youngest_congr hc h1) (hi.core.chosen h2)
    | inapplicable h1 h2 => exact .inapplicable (fun e he => h1 e ((hc e).mpr he)) (youngest_congr ha h2)
    | noMatch h1 h2 =>
      refine .noMatch (fun e he => h1 e ((ha e).mpr he)) (youngest_congr (fun e => ?_) h2)
      rw [hl, ht]
      constructor
      · rintro ⟨x, y⟩; exact ⟨x, fun z => y ⟨x, z⟩⟩
      · rintro ⟨x, y⟩; exact ⟨x, fun z => y z.2⟩

/-! ### The rules leave no choice -/

omit [DecidableEq τ] in
theorem uses_unique {tr : MTrace τ β} {m j k k' : Nat} {sigs sigs' : List (Sig τ)} {f f' : Sig τ} (h : Uses tr m j k sigs f)
    (h' : Uses tr m j k' sigs' f') : k = k' ∧ sigs = sigs' ∧ f = f' := by
  obtain ⟨h1, h2, h3⟩ := h
  obtain ⟨h1', h2', h3'⟩ := h'
  unfold MTrace.holds at h1 h1'
  rw [h1] at h1'
  simp only [Option.some.injEq] at h1'
  subst h1'
  rw [h2] at h2'
  simp only [Option.some.injEq] at h2'
  subst h2'
  rw [h3] at h3'
  simp only [Option.some.injEq] at h3'
  exact ⟨rfl, rfl, h3'⟩

omit [DecidableEq τ] in
theorem outcome_unique {tr : MTrace τ β} {k j : Nat} {sigs : List (Sig τ)} {f : Sig τ} {a : CallInfo β} {x y : Event}
    (hx : Outcome tr k j sigs f a x) (hy : Outcome tr k j sigs f a y) : x = y := by
  cases hx with
  | resolved h1 h2 =>
    have hc := (h1.2 _).mp (List.mem_cons_self ..)
    cases hy with
    | resolved h3 h4 =>
      have := Whole.youngestFirst_unique h1 h3
      injection this with h5 h6
      subst h5; subst h6
      rw [Whole.chosen_unique h2 h4]
    | inapplicable h3 _ => exact absurd hc (h3 _)
    | noMatch h3 _ => exact absurd hc.1 (h3 _)
  | inapplicable h1 h2 =>
    have hc := (h2.2 _).mp (List.mem_cons_self ..)
    cases hy with
    | resolved h3 _ => exact absurd ((h3.2 _).mp (List.mem_cons_self ..)) (h1 _)
    | inapplicable _ h3 => rw [Whole.youngestFirst_unique h2 h3]
    | noMatch h3 _ => exact absurd hc (h3 _)
  | noMatch h1 h2 =>
    cases hy with
    | resolved h3 _ => exact absurd ((h3.2 _).mp (List.mem_cons_self ..)).1 (h1 _)
    | inapplicable _ h3 => exact absurd ((h3.2 _).mp (List.mem_cons_self ..)) (h1 _)
    | noMatch _ h3 => rw [Whole.youngestFirst_unique h2 h3]

omit [DecidableEq τ] in
theorem prescribed_unique {tr : MTrace τ β} {op : MOp τ β} {a b : List Event} (ha : Prescribed tr op a) (hb : Prescribed tr op b) :
    a = b := by
  cases ha with
  | newSequence h1 => cases hb with | newSequence h2 => exact Whole.prescribed_unique h1 h2
  | dropSequence h1 => cases hb with | dropSequence h2 => exact Whole.prescribed_unique h1 h2
  | destroy h1 => cases hb with | destroy h2 => exact Whole.prescribed_unique h1 h2
  | newMock h1 h2 => cases hb with | newMock h3 h4 => rw [Whole.nextNumber_unique h1 h3, groups_unique h2 h4]
  | moveMock => cases hb; rfl
  | assignMock => cases hb; rfl
  | dropMock => cases hb; rfl
  | expect h1 => cases hb with | expect h2 => exact Whole.prescribed_unique h1 h2
  | call h1 h2 h3 =>
    cases hb with
    | call h4 h5 h6 =>
      obtain ⟨rfl, rfl, rfl⟩ := uses_unique h1 h4
      rw [Whole.youngestFirst_unique h2 h5, outcome_unique h3 h6]

/-! ### What becomes of an operation -/

inductive Fate (tr : MTrace τ β) (op : MOp τ β) : M (MWorld τ β × List Event) → Prop where
  | ok {mw' : MWorld τ β} {ev : List Event} : Allowed tr op → ¬ Terminates tr op → Prescribed tr op ev → Fate tr op (.ok (mw', ev))
  | terminates {why : String} : Terminates tr op → Fate tr op (.error (.terminate why))
  | undefined {why : String} : Undefined tr op → Fate tr op (.error (.ub why))
  | client {why : String} : ¬ Allowed tr op → ¬ Undefined tr op → Fate tr op (.error (.client why))

omit [DecidableEq τ] in
/-- An operation of the underlying library. -/
theorem plain_fate {tr : MTrace τ β} {mw : MWorld τ β} {ft : Trace (CallInfo β)} (hr : Reach ft mw.w) {op : MOp τ β} {o : Op (CallInfo β)}
    (ha : ft.valid o ↔ Allowed tr op) (ho : ft.overflows o ↔ tr.plain.overflows op.plain) (hu : ¬ Undefined tr op)
    (hp : ∀ ev, Whole.Prescribed ft o ev → Prescribed tr op ev) : Fate tr op (mw.plain o) := by
  obtain ⟨h1, h2, h3⟩ := C17_progress hr o
  unfold MWorld.plain
  by_cases hv : ft.valid o
  · by_cases hof : ft.overflows o
    · obtain ⟨why, hs⟩ := h2 hv hof
      rw [hs]
      exact .terminates ⟨ha.mp hv, ho.mp hof⟩
    · obtain ⟨w', ev, hs⟩ := h1 hv hof
      rw [hs]
      exact .ok (ha.mp hv) (fun ht => hof (ho.mpr ht.2)) (hp ev (Whole.prescribed_step hr hs).2.2)
  · obtain ⟨why, hs⟩ := h3 hv
    rw [hs]
    exact .client (fun h => hv (ha.mpr h)) hu

/-- The front-end an operation uses. -/
theorem front_cases {tr : MTrace τ β} {mw : MWorld τ β} (h : MReach tr mw) {f : Nat → Nat × List (Sig τ)} {ft : Trace (CallInfo β)}
    (hi : MInv f tr mw ft) (m j : Nat) :
    (∃ k g idx, tr.holds m k ∧ k < tr.vars.length ∧ tr.sigs k = some (f k).2 ∧ (f k).2[j]? = some g ∧
      (∀ a : β, g.frontend = some ((g.info a).category, (g.info a).constness)) ∧ storageIndex (storagesOf (f k).2) g = some idx ∧
      (∃ cat con, mw.frontend m j = some (some ((f k).1 + idx), cat, con) ∧ ∀ a : β, g.info a = ⟨a, cat, con⟩) ∧
      (f k).1 + idx < mw.w.colls.length ∧ Uses tr m j k (f k).2 g) ∨
    ((∃ cat con, mw.frontend m j = some (none, cat, con)) ∧ ∃ sigs, tr.living m ∧ (∀ k, ¬ tr.holds m k) ∧ HasType tr m sigs ∧ j < sigs.length) ∨
    (mw.frontend m j = none ∧ (∀ k sigs g, ¬ Uses tr m j k sigs g) ∧
      ∀ sigs, tr.living m → (∀ k, ¬ tr.holds m k) → HasType tr m sigs → sigs.length ≤ j) := by
  obtain ⟨f1, -, f3, -⟩ := h.frontend m j
  by_cases hk : ∃ k, tr.holds m k
  · obtain ⟨k, hk⟩ := hk
    obtain ⟨sigs, hs, g1, g2⟩ := f1 k hk
    by_cases hj : j < sigs.length
    · left
      obtain ⟨c, cat, con, hf, hc⟩ := g1 hj
      obtain ⟨k', g, idx, b1, b2, b3, b4, b5, b6, rfl⟩ := hi.frontend hf
      have hinfo : ∀ a : β, g.info a = ⟨a, cat, con⟩ := by
        intro a
        have := info_of_frontend b5 a
        obtain ⟨rfl, rfl⟩ := this
        rfl
      exact ⟨k', g, idx, b1, b2, b3, b4, fun a => by rw [hinfo a]; exact b5, b6, ⟨cat, con, hf, hinfo⟩, hc, b1, b3, b4⟩
    · right; right
      refine ⟨g2 (by omega), ?_, fun _ _ hn => absurd hk (hn k)⟩
      rintro k' sigs' g ⟨h1, h2, h3⟩
      unfold MTrace.holds at hk h1
      rw [hk] at h1
      simp only [Option.some.injEq] at h1
      subst h1
      rw [hs] at h2
      simp only [Option.some.injEq] at h2
      subst h2
      exact hj (List.getElem?_eq_some_iff.mp h3).1
  · have hn : ∀ k, ¬ tr.holds m k := fun k hk' => hk ⟨k, hk'⟩
    by_cases hl : tr.living m
    · obtain ⟨sigs, ht, hs⟩ := movedFrom h hl hn
      by_cases hj : j < sigs.length
      · exact .inr (.inl ⟨(hs j).1 hj, sigs, hl, hn, ht, hj⟩)
      · refine .inr (.inr ⟨(hs j).2 (by omega), fun k _ _ hu => hn k hu.1, fun sigs' _ _ ht' => ?_⟩)
        unfold HasType at ht ht'
        rw [ht] at ht'
        simp only [Option.some.injEq] at ht'
        subst ht'
        omega
    · exact .inr (.inr ⟨f3 hl, fun k _ _ hu => hn k hu.1, fun _ hl' => absurd hl' hl⟩)

theorem fate {tr : MTrace τ β} {mw : MWorld τ β} (h : MReach tr mw) (op : MOp τ β) : Fate tr op (mw.step op) := by
  obtain ⟨f, ft, hi⟩ := h.inv
  have hl := link h hi
  have hmock : ∀ c, Event.mockCreated c ∈ ft.events ↔ c < mw.w.colls.length := hi.reach.view.2.mocks
  cases op with
  | newSequence st =>
    exact plain_fate hi.reach (by simp [Trace.valid, Allowed]) (by simp [Trace.overflows, MOp.plain]) (by simp [Undefined])
      (fun ev hp => .newSequence (hl.newSequence hp))
  | dropSequence s =>
    exact plain_fate hi.reach (by simp only [Trace.valid, Allowed, hl.handle]) (by simp [Trace.overflows, MOp.plain]) (by simp [Undefined])
      (fun ev hp => .dropSequence (hl.dropSequence hp))
  | destroy e =>
    exact plain_fate hi.reach (by simp only [Trace.valid, Allowed, hl.core.live]) (by simp [Trace.overflows, MOp.plain]) (by simp [Undefined])
      (fun ev hp => .destroy (hl.destroy hp))
  | newMock sigs =>
    have hiff := (C42_create_iff h sigs).1
    have hnt : ¬ Terminates tr (.newMock sigs) := fun ht => ht.2
    by_cases ha : Allowed tr (.newMock sigs)
    · obtain ⟨mw', ev, hs⟩ := hiff.mpr ha
      rw [hs]
      refine .ok ha hnt ?_
      obtain ⟨w', t', h1, -, -⟩ := addStorages_exact (storagesOf sigs).length hi.reach
      simp only [MWorld.step] at hs
      split at hs
      · simp only [h1, bind, Except.bind, pure, Except.pure, Except.ok.injEq, Prod.mk.injEq] at hs
        rw [← hs.2]
        refine .newMock (fun k => ?_) (groups_storages ha.2.1)
        rw [← hi.events]
        exact hmock k
      · cases hs
    · have hu : ¬ Undefined tr (.newMock sigs) := by simp [Undefined]
      simp only [MWorld.step]
      split
      · rename_i hc
        obtain ⟨w', t', h1, -, -⟩ := addStorages_exact (storagesOf sigs).length hi.reach
        exact absurd (hiff.mp ⟨_, _, by simp only [MWorld.step, if_pos hc, h1, bind, Except.bind, pure, Except.pure]; rfl⟩) ha
      · exact .client ha hu
  | moveMock m =>
    have hu : ¬ Undefined tr (.moveMock m) := by simp [Undefined]
    simp only [MWorld.step]
    split
    · rename_i sigs ptrs hm
      exact .ok ((living_iff h m).mpr ⟨_, _, hm⟩) (fun ht => ht.2) .moveMock
    · rename_i hm
      exact .client (fun ha => by obtain ⟨s, p, hs⟩ := (living_iff h m).mp ha; exact hm _ _ hs) hu
  | dropMock m =>
    have hu : ¬ Undefined tr (.dropMock m) := by simp [Undefined]
    simp only [MWorld.step]
    split
    · rename_i sigs ptrs hm
      exact .ok ((living_iff h m).mpr ⟨_, _, hm⟩) (fun ht => ht.2) .dropMock
    · rename_i hm
      exact .client (fun ha => by obtain ⟨s, p, hs⟩ := (living_iff h m).mp ha; exact hm _ _ hs) hu
  | assignMock dst src =>
    have hu : ¬ Undefined tr (.assignMock dst src) := by simp [Undefined]
    simp only [MWorld.step]
    split
    · rename_i sigs ptrs sigs' ptrs' hd hsrc
      split
      · rename_i heq
        subst heq
        have ha : Allowed tr (.assignMock dst src) :=
          ⟨(living_iff h dst).mpr ⟨_, _, hd⟩, (living_iff h src).mpr ⟨_, _, hsrc⟩, sigs, (hasType_iff h _ _).mpr ⟨_, hd, rfl⟩,
            (hasType_iff h _ _).mpr ⟨_, hsrc, rfl⟩⟩
        split
        · exact .ok ha (fun ht => ht.2) .assignMock
        · exact .ok ha (fun ht => ht.2) .assignMock
      · rename_i hne
        refine .client ?_ hu
        rintro ⟨-, -, s, h1, h2⟩
        obtain ⟨c1, h3, rfl⟩ := (hasType_iff h _ _).mp h1
        obtain ⟨c2, h4, h5⟩ := (hasType_iff h _ _).mp h2
        rw [hd] at h3
        rw [hsrc] at h4
        simp only [Option.some.injEq] at h3 h4
        subst h3; subst h4
        exact hne h5.symm
    · rename_i hno
      refine .client ?_ hu
      rintro ⟨h1, h2, -⟩
      obtain ⟨s, p, hs⟩ := (living_iff h dst).mp h1
      obtain ⟨s', p', hs'⟩ := (living_iff h src).mp h2
      exact hno _ _ _ _ hs hs'
  | expect m j mn mx tags args extra =>
    simp only [MWorld.step]
    rcases front_cases h hi m j with ⟨k, g, idx, b1, b2, b3, b4, b5, b6, ⟨cat, con, b7, b8⟩, b9, b10⟩ | ⟨⟨cat, con, hf⟩, sigs, c1, c2, c3, c4⟩ | ⟨hf, c1, c2⟩
    · rw [b7]
      refine plain_fate hi.reach ?_ hl.overflows ?_ (fun ev hp => .expect (hl.expect hp))
      · simp only [Trace.valid, Allowed, hl.handle]
        constructor
        · rintro ⟨-, h2⟩; exact ⟨⟨_, _, _, b10⟩, h2⟩
        · rintro ⟨-, h2⟩; exact ⟨(hmock _).mpr b9, h2⟩
      · rintro ⟨m', j', sigs, -, h2, -, -, (⟨a, h3⟩ | ⟨_, _, _, _, _, h3⟩)⟩
        · cases h3
        · cases h3; exact h2 k b1
    · rw [hf]
      exact .undefined ⟨m, j, sigs, c1, c2, c3, c4, .inr ⟨_, _, _, _, _, rfl⟩⟩
    · rw [hf]
      refine .client (fun ha => ?_) ?_
      · obtain ⟨⟨k, sigs, g, hu⟩, -⟩ := ha; exact c1 _ _ _ hu
      · rintro ⟨m', j', sigs, h1, h2, h3, h4, (⟨a, h5⟩ | ⟨_, _, _, _, _, h5⟩)⟩
        · cases h5
        · cases h5; exact absurd h4 (Nat.not_lt.mpr (c2 sigs h1 h2 h3))
  | call m j a =>
    simp only [MWorld.step]
    rcases front_cases h hi m j with ⟨k, g, idx, b1, b2, b3, b4, b5, b6, ⟨cat, con, b7, b8⟩, b9, b10⟩ | ⟨⟨cat, con, hf⟩, sigs, c1, c2, c3, c4⟩ | ⟨hf, c1, c2⟩
    · rw [b7]
      refine plain_fate hi.reach ?_ (by simp [Trace.overflows, MOp.plain]) ?_ (fun ev hp => ?_)
      · simp only [Trace.valid, Allowed]
        exact ⟨fun _ => ⟨_, _, _, b10⟩, fun _ => (hmock _).mpr b9⟩
      · rintro ⟨m', j', sigs, -, h2, -, -, (⟨a, h3⟩ | ⟨_, _, _, _, _, h3⟩)⟩
        · cases h3; exact h2 k b1
        · cases h3
      · rw [← b8 a] at hp
        exact call_of hi b1 b2 b3 b4 (b5 a) b6 hp
    · rw [hf]
      exact .undefined ⟨m, j, sigs, c1, c2, c3, c4, .inl ⟨_, rfl⟩⟩
    · rw [hf]
      refine .client (fun ha => ?_) ?_
      · obtain ⟨k, sigs, g, hu⟩ := ha; exact c1 _ _ _ hu
      · rintro ⟨m', j', sigs, h1, h2, h3, h4, (⟨a, h5⟩ | ⟨_, _, _, _, _, h5⟩)⟩
        · cases h5; exact absurd h4 (Nat.not_lt.mpr (c2 sigs h1 h2 h3))
        · cases h5

omit [DecidableEq τ] in
theorem undefined_not_allowed {tr : MTrace τ β} {op : MOp τ β} (hu : Undefined tr op) : ¬ Allowed tr op := by
  obtain ⟨m, j, sigs, -, h2, -, -, (⟨a, rfl⟩ | ⟨_, _, _, _, _, rfl⟩)⟩ := hu
  · rintro ⟨k, _, _, hk, _⟩; exact h2 k hk
  · rintro ⟨⟨k, _, _, hk, _⟩, _⟩; exact h2 k hk

theorem step_iff {tr : MTrace τ β} {mw : MWorld τ β} (h : MReach tr mw) (op : MOp τ β) (ev : List Event) :
    (∃ mw', mw.step op = .ok (mw', ev)) ↔ Allowed tr op ∧ ¬ Terminates tr op ∧ Prescribed tr op ev := by
  have hf := fate h op
  constructor
  · rintro ⟨mw', hs⟩
    rw [hs] at hf
    cases hf with | ok h1 h2 h3 => exact ⟨h1, h2, h3⟩
  · rintro ⟨h1, h2, h3⟩
    generalize mw.step op = r at hf
    cases hf with
    | ok _ _ h4 => rw [prescribed_unique h3 h4]; exact ⟨_, rfl⟩
    | terminates ht => exact absurd ht h2
    | undefined hu => exact absurd h1 (undefined_not_allowed hu)
    | client hc _ => exact absurd h1 hc

omit [DecidableEq τ] in
theorem lawful_nil : Lawful ([] : MTrace τ β) := fun pre op ev post h => by cases pre <;> simp at h

omit [DecidableEq τ] in
theorem lawful_prefix {tr post : MTrace τ β} (h : Lawful (tr ++ post)) : Lawful tr :=
  fun pre op ev rest he => h pre op ev (rest ++ post) (by rw [he]; simp)

omit [DecidableEq τ] in
theorem lawful_snoc {tr : MTrace τ β} {op : MOp τ β} {ev : List Event} :
    Lawful (tr ++ [(op, ev)]) ↔ Lawful tr ∧ Allowed tr op ∧ ¬ Terminates tr op ∧ Prescribed tr op ev := by
  constructor
  · intro h
    exact ⟨lawful_prefix h, h tr op ev [] rfl⟩
  · rintro ⟨h, h1⟩ pre op' ev' post he
    rcases List.eq_nil_or_concat post with rfl | ⟨l', st, rfl⟩
    · have h2 := List.append_inj' he rfl
      obtain ⟨rfl, h3⟩ := h2
      simp only [List.cons.injEq, Prod.mk.injEq, and_true] at h3
      obtain ⟨rfl, rfl⟩ := h3
      exact h1
    · have he' : tr ++ [(op, ev)] = (pre ++ (op', ev') :: l') ++ [st] := by rw [he]; simp
      exact h pre op' ev' l' (List.append_inj' he' rfl).1

theorem reach_lawful {tr : MTrace τ β} {mw : MWorld τ β} (h : MReach tr mw) : Lawful tr := by
  induction h with
  | init => exact lawful_nil
  | step hr hs ih => exact lawful_snoc.mpr ⟨ih, (step_iff hr _ _).mp ⟨_, hs⟩⟩

theorem lawful_reach_aux (l : MTrace τ β) : ∀ {pre : MTrace τ β} {mw : MWorld τ β}, MReach pre mw → Lawful (pre ++ l) →
    ∃ mw', MReach (pre ++ l) mw' := by
  induction l with
  | nil => intro pre mw h _; rw [List.append_nil]; exact ⟨mw, h⟩
  | cons st l ih =>
    intro pre mw h hl
    have he : pre ++ st :: l = (pre ++ [st]) ++ l := by simp
    obtain ⟨mw', hs⟩ := (step_iff h st.1 st.2).mpr (hl pre st.1 st.2 l rfl)
    rw [he] at hl ⊢
    exact ih (h.step hs) hl

omit [DecidableEq τ] in
theorem lawful_unique_aux (l : MTrace τ β) : ∀ {pre l' : MTrace τ β}, Lawful (pre ++ l) → Lawful (pre ++ l') →
    l.map (·.1) = l'.map (·.1) → l = l' := by
  induction l with
  | nil => intro pre l' _ _ he; cases l' with | nil => rfl | cons _ _ => simp at he
  | cons st l ih =>
    intro pre l' h h' he
    cases l' with
    | nil => simp at he
    | cons st' l' =>
      simp only [List.map_cons, List.cons.injEq] at he
      obtain ⟨op, ev⟩ := st
      obtain ⟨op', ev'⟩ := st'
      obtain ⟨h1, h2⟩ := he
      simp only at h1
      subst h1
      have := prescribed_unique (h pre op ev l rfl).2.2 (h' pre op ev' l' rfl).2.2
      subst this
      rw [ih (pre := pre ++ [(op, ev)]) (by simpa using h) (by simpa using h') h2]

omit [DecidableEq τ] in
theorem runs_lawful {σ : Type} {start : σ} {step : σ → MOp τ β → Option (σ × List Event)}
    (hdoes : ∀ tr q op, Runs step start tr q → Lawful tr → Allowed tr op → ¬ Terminates tr op →
      ∃ q' ev, step q op = some (q', ev) ∧ Prescribed tr op ev)
    (hnot : ∀ tr q op, Runs step start tr q → Lawful tr → ¬ (Allowed tr op ∧ ¬ Terminates tr op) → step q op = none) (tr : MTrace τ β) :
    (∃ q, Runs step start tr q) ↔ Lawful tr := by
  constructor
  · rintro ⟨q, h⟩
    induction h with
    | init => exact lawful_nil
    | @step tr q q' op ev hr hs ih =>
      by_cases hv : Allowed tr op ∧ ¬ Terminates tr op
      · obtain ⟨q2, ev2, h1, h2⟩ := hdoes tr q op hr ih hv.1 hv.2
        rw [hs] at h1
        simp only [Option.some.injEq, Prod.mk.injEq] at h1
        rw [h1.2]
        exact lawful_snoc.mpr ⟨ih, hv.1, hv.2, h2⟩
      · rw [hnot tr q op hr ih hv] at hs
        cases hs
  · have key : ∀ (l : MTrace τ β) {pre : MTrace τ β} {q : σ}, Runs step start pre q → Lawful (pre ++ l) →
        ∃ q', Runs step start (pre ++ l) q' := by
      intro l
      induction l with
      | nil => intro pre q h _; rw [List.append_nil]; exact ⟨q, h⟩
      | cons st l ih =>
        intro pre q h hl
        have he : pre ++ st :: l = (pre ++ [st]) ++ l := by simp
        obtain ⟨h1, h2, h3⟩ := hl pre st.1 st.2 l rfl
        obtain ⟨q', ev, hs, hp⟩ := hdoes pre q st.1 h (lawful_prefix hl) h1 h2
        rw [prescribed_unique hp h3] at hs
        rw [he] at hl ⊢
        exact ih (h.step hs) hl
    exact fun h => key tr .init h

end Mimic.Mocking
