import Verif.Spec.Fragile
import Verif.Proofs.Builder
import Verif.Proofs.BuilderWorld
import Verif.Proofs.Outcome

/-!
# Lemmas about creations that may fail
-/

set_option autoImplicit false

namespace Mimic.Fragile

variable {α φ : Type}

/-- At least `n` constructions succeed. -/
def Has (g : Good) (n : Nat) : Prop := ∀ k, g = some k → n ≤ k

theorem construct_eq (g : Good) :
    (Has g 1 → construct g = some (g.map (· - 1))) ∧ (¬ Has g 1 → construct g = none) := by
  unfold Has construct
  cases g with
  | none => simp
  | some k => cases k <;> simp

theorem constructAll_eq (gs : List Good) :
    ((∀ g ∈ gs, Has g 1) → constructAll gs = some (gs.map (fun g => g.map (· - 1)))) ∧
    ((¬ ∀ g ∈ gs, Has g 1) → constructAll gs = none) := by
  induction gs with
  | nil => simp [constructAll]
  | cons g gs ih =>
    simp only [List.mem_cons, forall_eq_or_imp, constructAll, List.map_cons]
    by_cases h1 : Has g 1
    · rw [(construct_eq g).1 h1]
      by_cases h2 : ∀ g ∈ gs, Has g 1
      · rw [ih.1 h2]; exact ⟨fun _ => rfl, fun h => absurd ⟨h1, h2⟩ h⟩
      · rw [ih.2 h2]; exact ⟨fun h => absurd h.2 h2, fun _ => rfl⟩
    · rw [(construct_eq g).2 h1]; exact ⟨fun h => absurd h.1 h1, fun _ => rfl⟩

theorem Has.minus {g : Good} (h : Has g 1) (n : Nat) : Has (g.map (· - 1)) n ↔ Has g (n + 1) := by
  unfold Has at *
  cases g with
  | none => simp
  | some k => have := h k rfl; simp; omega

theorem Has.mono {g : Good} {n m : Nat} (h : Has g n) (hm : m ≤ n) : Has g m :=
  fun k hk => Nat.le_trans hm (h k hk)

theorem has_none (n : Nat) : Has none n := by intro k hk; cases hk

/-- All objects in the builder can be constructed `n` times. -/
def Ok (x : FBuilder α φ) (n : Nat) : Prop := Has x.finalizer n ∧ ∀ g ∈ x.policies, Has g n

theorem survives_cons (i : Item α φ) (g : Good) (is : List (Item α φ × Good)) :
    Survives ((i, g) :: is) ↔ (kept i = true → Has g (is.length + 1)) ∧ Survives is := by
  unfold Survives Has
  constructor
  · intro h
    refine ⟨fun hk k hg => ?_, fun j item k hj hk => ?_⟩
    · have := h 0 i k (by simp [hg]) hk
      simpa using this
    · have := h (j + 1) item k (by simpa using hj) hk
      simpa using this
  · rintro ⟨h1, h2⟩ j item k hj hk
    cases j with
    | zero =>
      simp only [List.getElem?_cons_zero, Option.some.injEq, Prod.mk.injEq] at hj
      have := h1 (hj.1 ▸ hk) k hj.2
      simpa using this
    | succ j =>
      have := h2 j item k (by simpa using hj) hk
      simpa using this

theorem completes_cons (i : Item α φ) (g : Good) (is : List (Item α φ × Good)) :
    Completes ((i, g) :: is) ↔ (kept i = true → Has g (is.length + 2)) ∧ Completes is := by
  unfold Completes Has
  constructor
  · intro h
    refine ⟨fun hk k hg => ?_, fun j item k hj hk => ?_⟩
    · have := h 0 i k (by simp [hg]) hk
      simpa using this
    · have := h (j + 1) item k (by simpa using hj) hk
      simpa using this
  · rintro ⟨h1, h2⟩ j item k hj hk
    cases j with
    | zero =>
      simp only [List.getElem?_cons_zero, Option.some.injEq, Prod.mk.injEq] at hj
      have := h1 (hj.1 ▸ hk) k hj.2
      simpa using this
    | succ j =>
      have := h2 j item k (by simpa using hj) hk
      simpa using this

theorem Completes.survives {items : List (Item α φ × Good)} (h : Completes items) : Survives items :=
  fun i item k hi hk => Nat.le_of_succ_le (h i item k hi hk)

theorem constructs_iff (x : FBuilder α φ) : x.constructs = true ↔ Ok x 1 := by
  unfold FBuilder.constructs Ok
  by_cases h1 : Has x.finalizer 1
  · rw [(construct_eq _).1 h1]
    by_cases h2 : ∀ g ∈ x.policies, Has g 1
    · rw [(constructAll_eq _).1 h2]; simp [h1]; exact h2
    · rw [(constructAll_eq _).2 h2]; simp [h1]; exact Classical.not_forall.mp h2 |>.imp (fun g hg => by simpa using hg)
  · rw [(construct_eq _).2 h1]; simp [h1]

/-- The message of the only way to terminate while building. -/
def noexceptMsg : String := "the constructor of BasicExpectationBuilder is noexcept"

/-- One `operator &&`: what must be constructible. -/
theorem and_eq (x : FBuilder α φ) (i : Item α φ) (g : Good) (hf : x.b.finalizer = none → x.finalizer = none)
    (hacc : x.b.finalizer.isSome = true → ∀ f, i ≠ .finalizer f) {b' : Builder α φ} (hb : x.b.and i = some b') :
    (Ok x 1 ∧ (kept i = true → Has g 1) → ∃ x', x.and i g = .ok (some x') ∧ x'.b = b' ∧
      (b'.finalizer = none → x'.finalizer = none) ∧
      ∀ n, Ok x' n ↔ Ok x (n + 1) ∧ (kept i = true → Has g (n + 1))) ∧
    (¬ (Ok x 1 ∧ (kept i = true → Has g 1)) → x.and i g = .error (.terminate noexceptMsg)) := by
  have key : (Has (finalizerSource x i g) 1 ∧ ∀ g' ∈ policySources x i g, Has g' 1) ↔
      Ok x 1 ∧ (kept i = true → Has g 1) := by
    unfold Ok
    cases i <;> simp [finalizerSource, policySources, kept]
    · grind
    · rename_i f
      cases hx : x.b.finalizer with
      | none => simp [hf hx, has_none]; grind
      | some _ => exact absurd rfl (hacc (by simp [hx]) f)
  constructor
  · intro h
    obtain ⟨k1, k2⟩ := key.mpr h
    refine ⟨⟨b', (policySources x i g).map (fun g => g.map (· - 1)), (finalizerSource x i g).map (· - 1)⟩, by
      simp only [FBuilder.and, hb, (construct_eq _).1 k1, (constructAll_eq _).1 k2], rfl, ?_, ?_⟩
    · intro hn
      cases i with
      | finalizer f =>
        simp only [Builder.and, Option.some.injEq] at hb
        subst hb
        simp at hn
      | policy p =>
        simp only [Builder.and, Option.some.injEq] at hb
        subst hb
        simp [finalizerSource, hf hn]
      | times a b =>
        simp only [Builder.and] at hb
        split at hb
        · simp at hb
        · simp only [Option.some.injEq] at hb; subst hb; simp [finalizerSource, hf hn]
      | sequences ss =>
        simp only [Builder.and] at hb
        split at hb
        · simp at hb
        · split at hb
          · simp at hb
          · simp only [Option.some.injEq] at hb; subst hb; simp [finalizerSource, hf hn]
    · intro n
      unfold Ok
      simp only [List.mem_map, forall_exists_index, and_imp, forall_apply_eq_imp_iff₂]
      rw [k1.minus n]
      have : (∀ a ∈ policySources x i g, Has (Option.map (fun x => x - 1) a) n) ↔
          ∀ a ∈ policySources x i g, Has a (n + 1) := by
        constructor
        · intro h a ha; exact ((k2 a ha).minus n).mp (h a ha)
        · intro h a ha; exact ((k2 a ha).minus n).mpr (h a ha)
      rw [this]
      cases i <;> simp [finalizerSource, policySources, kept]
      · grind
      · rename_i f
        cases hx : x.b.finalizer with
        | none => simp [hf hx, has_none]; grind
        | some _ => exact absurd rfl (hacc (by simp [hx]) f)
  · intro h
    rw [← key] at h
    simp only [FBuilder.and, hb]
    by_cases k1 : Has (finalizerSource x i g) 1
    · rw [(construct_eq _).1 k1, (constructAll_eq _).2 (fun h' => h ⟨k1, h'⟩)]
      rfl
    · rw [(construct_eq _).2 k1]
      rfl

theorem and_none (x : FBuilder α φ) (i : Item α φ) (g : Good) (hb : x.b.and i = none) : x.and i g = .ok none := by
  simp [FBuilder.and, hb]

theorem typeChecks_fin {t f : Bool} {i : Item α φ} {is : List (Item α φ)} (h : typeChecks t f (i :: is) = true) :
    (f = true → ∀ y, i ≠ .finalizer y) := by
  intro hf y hy
  subst hy hf
  simp [typeChecks] at h

theorem typeChecks_next {t : Bool} {b b' : Builder α φ} {i : Item α φ} {is : List (Item α φ)}
    (h : typeChecks t b.finalizer.isSome (i :: is) = true) (hb : b.and i = some b') :
    ∃ t', typeChecks t' b'.finalizer.isSome is = true := by
  cases i with
  | policy p =>
    simp only [Builder.and, Option.some.injEq] at hb
    subst hb
    exact ⟨t, by simpa [typeChecks] using h⟩
  | finalizer f =>
    simp only [Builder.and, Option.some.injEq] at hb
    subst hb
    simp only [typeChecks, Bool.and_eq_true] at h
    exact ⟨t, by simpa using h.2⟩
  | times a c =>
    simp only [Builder.and] at hb
    split at hb
    · simp at hb
    · simp only [Option.some.injEq] at hb
      subst hb
      simp only [typeChecks, Bool.and_eq_true] at h
      exact ⟨true, h.2⟩
  | sequences ss =>
    simp only [Builder.and] at hb
    split at hb
    · simp at hb
    · split at hb
      · simp at hb
      · simp only [Option.some.injEq] at hb
        subst hb
        exact ⟨t, by simpa [typeChecks] using h⟩

/-- A whole chain. -/
theorem eval_eq (items : List (Item α φ × Good)) : ∀ (x : FBuilder α φ) (t : Bool),
    typeChecks t x.b.finalizer.isSome (items.map (·.1)) = true → (x.b.finalizer = none → x.finalizer = none) →
    (∀ b', x.b.eval (items.map (·.1)) = some b' →
      (Ok x items.length ∧ Survives items → ∃ x', x.eval items = .ok (some x') ∧ x'.b = b' ∧
        (x'.constructs = true ↔ Ok x (items.length + 1) ∧ Completes items)) ∧
      (¬ (Ok x items.length ∧ Survives items) → x.eval items = .error (.terminate noexceptMsg))) ∧
    (x.b.eval (items.map (·.1)) = none → x.eval items = .ok none ∨ x.eval items = .error (.terminate noexceptMsg)) := by
  induction items with
  | nil =>
    intro x t _ _
    refine ⟨?_, fun h => by simp [Builder.eval] at h⟩
    intro b' hb
    simp only [List.map_nil, Builder.eval, Option.some.injEq] at hb
    subst hb
    refine ⟨fun _ => ⟨x, rfl, rfl, ?_⟩, fun h => ?_⟩
    · rw [constructs_iff]
      simp [Completes]
    · exact absurd ⟨⟨fun k _ => Nat.zero_le k, fun g _ k _ => Nat.zero_le k⟩, by simp [Survives]⟩ h
  | cons ig is ih =>
    obtain ⟨i, g⟩ := ig
    intro x t ht hf
    simp only [List.map_cons] at ht ⊢
    cases hb : x.b.and i with
    | none =>
      refine ⟨fun b' h => by simp [Builder.eval, hb] at h, fun _ => Or.inl ?_⟩
      simp only [FBuilder.eval, and_none x i g hb, bind, Except.bind, pure, Except.pure]
    | some b1 =>
      obtain ⟨t', ht'⟩ := typeChecks_next ht hb
      obtain ⟨a1, a2⟩ := and_eq x i g hf (typeChecks_fin ht) hb
      by_cases hok : Ok x 1 ∧ (kept i = true → Has g 1)
      · obtain ⟨x1, e1, e2, e3, e4⟩ := a1 hok
        have hev : x.eval ((i, g) :: is) = x1.eval is := by
          simp only [FBuilder.eval, e1, bind, Except.bind]
        have hbe : ∀ l, x.b.eval (i :: l) = x1.b.eval l := by
          intro l; simp only [Builder.eval, hb, e2]
        obtain ⟨i1, i2⟩ := ih x1 t' (e2 ▸ ht') (e2 ▸ e3)
        rw [hev, hbe]
        refine ⟨fun b' hb' => ?_, i2⟩
        obtain ⟨j1, j2⟩ := i1 b' hb'
        have eqv : (Ok x1 is.length ∧ Survives is) ↔ Ok x (is.length + 1) ∧ Survives ((i, g) :: is) := by
          rw [e4, survives_cons]; grind
        have eqv' : (Ok x1 (is.length + 1) ∧ Completes is) ↔ Ok x (is.length + 1 + 1) ∧ Completes ((i, g) :: is) := by
          rw [e4, completes_cons]; grind
        rw [List.length_cons, ← eqv, ← eqv']
        exact ⟨j1, j2⟩
      · have hev : x.eval ((i, g) :: is) = .error (.terminate noexceptMsg) := by
          simp only [FBuilder.eval, a2 hok, bind, Except.bind]
        rw [hev]
        refine ⟨fun b' _ => ⟨fun h => ?_, fun _ => rfl⟩, fun _ => Or.inr rfl⟩
        exfalso
        apply hok
        rw [survives_cons] at h
        refine ⟨⟨h.1.1.mono (by simp), fun g' hg' => (h.1.2 g' hg').mono (by simp)⟩, fun hk => (h.2.1 hk).mono (by simp)⟩

/-! ### Failing in the world -/

/-- Nothing is released while the client's sequence objects exist. -/
theorem releaseAll_held (ss : List Nat) (w : World α) (h : ∀ s ∈ ss, w.hasHandle s = true) :
    w.releaseAll ss = .ok (w, []) := by
  induction ss with
  | nil => rfl
  | cons s ss ih =>
    have h1 := h s (by simp)
    have ho : w.owned s = true := by
      unfold World.hasHandle at h1
      unfold World.owned
      cases hs : w.seqs[s]? with
      | none => simp [hs] at h1
      | some c => simp only [hs] at h1; simp [h1]
    simp only [World.releaseAll, World.release, ho, if_true, bind, Except.bind, pure, Except.pure,
      ih (fun t ht => h t (by simp [ht])), List.nil_append]

/-- A failed creation is a successful one followed by a destruction, as far as the state is concerned. -/
theorem fail_sim {tr : Trace α} {w w' : World α} (hr : Reach tr w) {coll : Nat} {t : TimesConfig} {tags : List Nat}
    {ps : List (Policy α)} {out : Out} (hcoll : coll < w.colls.length) (hh : ∀ s ∈ tags, w.hasHandle s = true)
    (hi : isInt t.min = true ∧ isInt t.max = true) (ht : 0 ≤ t.min ∧ t.min ≤ t.max) (hnd : tags.Nodup)
    (h : finalizeThrows w coll t tags ps = .ok (w', out)) :
    out = .threw w.exps.length ∧ ∃ w1,
      w.step (.expect coll t.min t.max tags ps) = .ok (w1, [.created w.exps.length]) ∧
      w1.step (.destroy w.exps.length) = .ok (w',
        .destroyed w.exps.length :: if t.min ≤ 0 ∧ ps.all (·.isSatisfied) then [] else [.unfulfilled w.exps.length]) := by
  obtain ⟨hcs, hmk⟩ : ∃ r, Control.make t tags w.seqs = .ok r := by
    unfold finalizeThrows at h
    cases hm : Control.make t tags w.seqs with
    | error e => simp [hm, bind, Except.bind] at h
    | ok r => exact ⟨r, rfl⟩
  obtain ⟨hq, c⟩ := hcs
  simp only [finalizeThrows, hmk, bind, Except.bind, pure, Except.pure, Except.ok.injEq, Prod.mk.injEq] at h
  obtain ⟨rfl, rfl⟩ := h
  refine ⟨rfl, ?_⟩
  obtain ⟨es, hes⟩ : ∃ es, w.colls[coll]? = some es := ⟨_, List.getElem?_eq_getElem hcoll⟩
  have hnot : w.exps.length ∉ es := by
    intro hm
    have := hr.view.1.colls coll es hes
    rw [this] at hm
    obtain ⟨x, hx, hid⟩ := List.mem_map.mp hm
    obtain ⟨y, hy, _⟩ := (abs_mem_iff w x).mp (List.mem_filter.mp hx).1
    rw [hid] at hy
    simp at hy
  have htm : TimesConfig.make t.min t.max = some t := by
    unfold TimesConfig.make
    rw [if_neg (by omega)]
  have hsc : seqConfig tags = some tags := by rw [seqConfig_eq, if_pos hnd]
  let w1 : World α :=
    { seqs := hq
      exps := w.exps ++ [{ coll := coll, control := c, policies := ps, alive := true }]
      colls := w.colls.set coll (es ++ [w.exps.length]) }
  have hst : w.step (.expect coll t.min t.max tags ps) = .ok (w1, [.created w.exps.length]) := by
    have hall : (tags.all w.hasHandle && isInt t.min && isInt t.max) = true := by
      simp only [hi.1, hi.2, Bool.and_true, List.all_eq_true]
      exact hh
    simp only [World.step, World.expect, hes, hall, if_true, htm, hsc, hmk, bind, Except.bind, pure, Except.pure]
    simp [check, hnot, w1]
  refine ⟨w1, hst, ?_⟩
  have hspec := hr.spec_step hst
  have hctl : c.min = t.min ∧ c.max = t.max ∧ c.count = 0 := by
    unfold Control.make at hmk
    cases hm : makeSequenceEntries w.seqs tags with
    | error e => simp [hm, bind, Except.bind] at hmk
    | ok r =>
      simp only [hm, bind, Except.bind, pure, Except.pure] at hmk
      split at hmk
      · simp at hmk
      · simp only [Except.ok.injEq, Prod.mk.injEq] at hmk
        rw [← hmk.2]
        exact ⟨rfl, rfl, rfl⟩
  have hseqs : (abs w1).seqs = (abs w).seqs := by
    simp only [Spec.State.step] at hspec
    split at hspec
    · split at hspec
      · simp only [Option.some.injEq, Prod.mk.injEq] at hspec
        rw [← hspec.1]
      · simp only [Option.some.injEq, Prod.mk.injEq] at hspec
        simp at hspec
    · simp at hspec
  have hexps : c.entries.map (·.1) = tags := by
    simp only [Spec.State.step] at hspec
    split at hspec
    · split at hspec
      · simp only [Option.some.injEq, Prod.mk.injEq] at hspec
        have h1 : (abs w1).exps[w.exps.length]? = some (absExp w.exps.length ⟨coll, c, ps, true⟩) := by
          rw [abs_getElem?]
          simp [w1]
        rw [← hspec.1] at h1
        simp only [abs_exps_length] at h1
        rw [List.getElem?_append_right (by simp [abs_exps_length])] at h1
        simp only [abs_exps_length, Nat.sub_self, List.getElem?_cons_zero, Option.some.injEq] at h1
        have := congrArg Spec.Exp.seqs h1
        exact this.symm
      · simp only [Option.some.injEq, Prod.mk.injEq] at hspec
        simp at hspec
    · simp at hspec
  have hcl : w1.colls[coll]? = some (es ++ [w.exps.length]) := by
    simp [w1, List.getElem?_set_self hcoll]
  have hhand : ∀ s ∈ tags, w1.hasHandle s = true := by
    intro s hs
    rw [← hasHandle_abs]
    unfold Spec.State.hasHandle
    rw [hseqs]
    have := hh s hs
    rw [← hasHandle_abs] at this
    exact this
  have her : (es ++ [w.exps.length]).erase w.exps.length = es := by
    rw [List.erase_append_right _ hnot]
    simp
  have hset : (w.colls.set coll (es ++ [w.exps.length])).set coll es = w.colls := by
    rw [List.set_set]
    apply List.ext_getElem?
    intro i
    by_cases hi : coll = i
    · subst hi; rw [List.getElem?_set_self hcoll, hes]
    · rw [List.getElem?_set_ne hi]
  have hx : w1.exps[w.exps.length]? = some ⟨coll, c, ps, true⟩ := by simp [w1]
  have hsat : (Exp.isSatisfied ⟨coll, c, ps, true⟩) = decide (t.min ≤ 0 ∧ ps.all (·.isSatisfied)) := by
    simp only [Exp.isSatisfied, Control.isSatisfied, hctl.1, hctl.2.1, hctl.2.2]
    by_cases h1 : t.min ≤ 0
    · have : (0:Int) ≤ t.max := by omega
      rw [Bool.eq_iff_iff]
      simp [h1, this]
    · simp [h1]
  simp only [World.step, World.destroyExp, hx, Bool.not_true, Bool.false_eq_true, if_false, hcl]
  have hcon : (es ++ [w.exps.length]).contains w.exps.length = true := by simp
  simp only [check, hcon, if_true, bind, Except.bind, hexps]
  rw [releaseAll_held tags _ (by
    intro s hs
    exact hhand s hs)]
  simp only [pure, Except.pure, Except.ok.injEq, Prod.mk.injEq]
  refine ⟨?_, ?_⟩
  · simp only [w1, her, hset]
    simp
  · rw [hsat]
    simp

/-- What an accepted expression wants, in terms of the builder it makes. -/
theorem built {coll : Nat} {rv : Bool} {items : List (Item α φ × Good)} {b : Builder α φ}
    (htc : typeChecks false false (items.map (·.1)) = true)
    (hb : (Builder.start coll rv []).eval (items.map (·.1)) = some b) :
    b.coll = (wanted coll items).mock ∧ b.times.min = (wanted coll items).min ∧ b.times.max = (wanted coll items).max ∧
    b.seqs = (wanted coll items).seqs ∧ b.policies = (wanted coll items).policies ∧ b.seqs.Nodup ∧
    (0 ≤ b.times.min ∧ b.times.min ≤ b.times.max) := by
  obtain ⟨h1, h2⟩ := Mimic.eval_eq (α := α) (φ := φ) (items.map (fun i => Prod.fst i)) (Builder.start coll rv []) htc (by simp [Builder.start])
  by_cases hv : (∀ t ∈ timesOf (items.map (·.1)), 0 ≤ t.1 ∧ t.1 ≤ t.2) ∧
      ((Builder.start (φ := φ) coll rv ([] : List (Policy α))).seqs ++ sequencesOf (items.map (·.1))).Nodup
  · obtain ⟨b', e0, e1, _, e3, e4, e5, e6⟩ := h1 hv
    rw [hb, Option.some.injEq] at e0
    subst e0
    have hs : b.seqs = sequencesOf (items.map (·.1)) := by rw [e4]; rfl
    refine ⟨e1, ?_, ?_, hs, by rw [e3]; rfl, ?_, ?_⟩
    · rw [e6]; unfold finalTimes wanted
      cases (timesOf (items.map (·.1))).head? <;> rfl
    · rw [e6]; unfold finalTimes wanted
      cases (timesOf (items.map (·.1))).head? <;> rfl
    · rw [e4]; exact hv.2
    · rw [e6]; unfold finalTimes
      cases hh : (timesOf (items.map (·.1))).head? with
      | none => simp [Builder.start]
      | some t =>
        have := hv.1 t (List.mem_of_mem_head? hh)
        simpa using this
  · rw [h2 hv] at hb
    simp at hb

theorem usable_wanted {w : World α} {coll : Nat} {items : List (Item α φ × Good)}
    (hu : items.all (fun i => usable w i.1) = true) :
    (∀ s ∈ (wanted coll items).seqs, w.hasHandle s = true) ∧
    isInt (wanted coll items).min = true ∧ isInt (wanted coll items).max = true := by
  rw [List.all_eq_true] at hu
  refine ⟨?_, ?_⟩
  · intro s hs
    simp only [wanted, sequencesOf, List.mem_flatMap, List.mem_map] at hs
    obtain ⟨i, ⟨ig, hi, rfl⟩, hs⟩ := hs
    have := hu ig hi
    cases hig : ig.1 with
    | sequences ss =>
      simp only [hig, usable, List.all_eq_true] at this hs
      exact this s hs
    | _ => simp [hig] at hs
  · unfold wanted
    cases hh : (timesOf (items.map (·.1))).head? with
    | none => exact ⟨rfl, rfl⟩
    | some t =>
      have hm := List.mem_of_mem_head? hh
      simp only [timesOf, List.mem_filterMap, List.mem_map] at hm
      obtain ⟨i, ⟨ig, hi, rfl⟩, hs⟩ := hm
      have := hu ig hi
      cases hig : ig.1 with
      | times a b =>
        simp only [hig, usable, Bool.and_eq_true, Option.some.injEq] at this hs
        subst hs
        simpa using this
      | _ => simp [hig] at hs

/-- The ways a creation can end without stopping the program. -/
theorem create_cases {tr : Trace α} {w w' : World α} (hr : Reach tr w) {coll : Nat} {rv : Bool}
    {items : List (Item α φ × Good)} {out : Out} (h : create w coll rv items = .ok (w', out)) :
    (out = .done [.rejected] ∧ w' = w) ∨
    (Completes items ∧ out = .done [.created w.exps.length] ∧
      w.step (.expect (wanted coll items).mock (wanted coll items).min (wanted coll items).max (wanted coll items).seqs
        (wanted coll items).policies) = .ok (w', [.created w.exps.length])) ∨
    (Survives items ∧ ¬ Completes items ∧ out = .threw w.exps.length ∧
      ∃ w1, w.step (.expect (wanted coll items).mock (wanted coll items).min (wanted coll items).max
          (wanted coll items).seqs (wanted coll items).policies) = .ok (w1, [.created w.exps.length]) ∧
        w1.step (.destroy w.exps.length) = .ok (w', .destroyed w.exps.length ::
          if (wanted coll items).min ≤ 0 ∧ (wanted coll items).policies.all (·.isSatisfied) then []
          else [.unfulfilled w.exps.length])) := by
  unfold create at h
  split at h
  · rename_i hc
    simp only [Bool.and_eq_true, decide_eq_true_eq] at hc
    obtain ⟨⟨hcoll, hu⟩, htc⟩ := hc
    obtain ⟨u1, u2, u3⟩ := usable_wanted (coll := coll) hu
    obtain ⟨a1, a2⟩ := eval_eq items (FBuilder.start (α := α) (φ := φ) coll rv) false htc (fun _ => rfl)
    have hok : ∀ n, Ok (FBuilder.start (α := α) (φ := φ) coll rv) n := by
      intro n; exact ⟨has_none n, by simp [FBuilder.start]⟩
    cases hb : (Builder.start (φ := φ) coll rv ([] : List (Policy α))).eval (items.map (·.1)) with
    | none =>
      rcases a2 hb with h1 | h1
      · simp only [h1, bind, Except.bind, pure, Except.pure, Except.ok.injEq, Prod.mk.injEq] at h
        exact Or.inl ⟨h.2.symm, h.1.symm⟩
      · simp [h1, bind, Except.bind] at h
    | some b =>
      obtain ⟨b1, b2, b3, b4, b5, b6, b7⟩ := built htc hb
      obtain ⟨c1, c2⟩ := a1 b hb
      by_cases hs : Survives items
      · obtain ⟨x, hx, hxb, hcon⟩ := c1 ⟨hok _, hs⟩
        rw [and_iff_right (hok _)] at hcon
        simp only [hx, bind, Except.bind] at h
        split at h
        · split at h
          · rename_i hcs
            right; left
            refine ⟨hcon.mp hcs, ?_⟩
            rw [hxb, b1, b2, b3, b4, b5] at h
            have hmk := (hr.view.2.mocks coll)
            cases he : w.expect (wanted coll items).mock (wanted coll items).min (wanted coll items).max
                (wanted coll items).seqs (wanted coll items).policies with
            | error e => simp [he] at h
            | ok r =>
              obtain ⟨w2, ev⟩ := r
              simp only [he, pure, Except.pure, Except.ok.injEq, Prod.mk.injEq] at h
              obtain ⟨rfl, rfl⟩ := h
              have hst : w.step (.expect (wanted coll items).mock (wanted coll items).min (wanted coll items).max
                (wanted coll items).seqs (wanted coll items).policies) = .ok (w2, ev) := he
              have hspec := hr.spec_step hst
              simp only [Spec.State.step] at hspec
              split at hspec
              · rw [if_pos (by rw [← b4, ← b2, ← b3]; exact ⟨b7, b6⟩)] at hspec
                simp only [Option.some.injEq, Prod.mk.injEq, abs_exps_length] at hspec
                rw [← hspec.2] at hst ⊢
                exact ⟨rfl, hst⟩
              · simp at hspec
          · rename_i hcs
            right; right
            refine ⟨hs, fun hc => hcs (hcon.mpr hc), ?_⟩
            rw [hxb] at h
            obtain ⟨f1, f2⟩ := fail_sim hr (by rw [b1]; exact hcoll) (by rw [b4]; exact u1) (by rw [b2, b3]; exact ⟨u2, u3⟩)
              b7 b6 h
            rw [b1, b2, b3, b4, b5] at f2
            exact ⟨f1, f2⟩
        · simp at h
      · rw [c2 (fun h' => hs h'.2)] at h
        simp [bind, Except.bind] at h
  · simp at h

/-- A history with failed creations is, as far as the state is concerned, one without. -/
theorem FReach.sim {ftr : FTrace α φ} {w : World α} (h : FReach ftr w) : Reach (asIf ftr) w := by
  induction h with
  | init => exact .init
  | @step ftr w w' op out hr hs ih =>
    have happ : asIf (ftr ++ [(op, out)]) = asIf ftr ++ asIfStep (op, out) := by simp [asIf]
    rw [happ]
    cases op with
    | op o =>
      simp only [Fragile.step, bind, Except.bind] at hs
      cases he : w.step o with
      | error e => simp [he] at hs
      | ok r =>
        obtain ⟨w2, ev⟩ := r
        simp only [he, pure, Except.pure, Except.ok.injEq, Prod.mk.injEq] at hs
        obtain ⟨rfl, rfl⟩ := hs
        exact ih.step he
    | create coll rv items =>
      rcases create_cases ih hs with ⟨rfl, rfl⟩ | ⟨_, rfl, h1⟩ | ⟨_, _, rfl, w1, h1, h2⟩
      · simpa [asIfStep] using ih
      · simpa [asIfStep] using ih.step h1
      · have := (ih.step h1).step h2
        simpa [asIfStep] using this

/-! ### What the history says and what the history without failures says -/

/-- What one step declares. -/
def declStepF (e : Nat) : FOp α φ × Out → Option (Decl α)
  | (.op (.expect mock min max seqs policies), .done ev) =>
    if Event.created e ∈ ev then some { mock, min, max, seqs, policies } else none
  | (.create coll _ items, .done ev) => if Event.created e ∈ ev then some (wanted coll items) else none
  | _ => none

/-- What one step fails to declare. -/
def failStepF (e : Nat) : FOp α φ × Out → Option (Decl α)
  | (.create coll _ items, .threw e') => if e' = e then some (wanted coll items) else none
  | _ => none

theorem findSome_snoc {β γ : Type} (f : β → Option γ) (l : List β) (x : β) :
    (l ++ [x]).findSome? f = (l.findSome? f).or (f x) := by
  rw [List.findSome?_append]
  congr 1
  simp only [List.findSome?]
  cases f x <;> rfl

theorem declOf_snoc (tr : FTrace α φ) (x : FOp α φ × Out) (e : Nat) :
    declOf (tr ++ [x]) e = (declOf tr e).or (declStepF e x) := by
  unfold declOf
  rw [findSome_snoc]
  rfl

theorem failedOf_snoc (tr : FTrace α φ) (x : FOp α φ × Out) (e : Nat) :
    failedOf (tr ++ [x]) e = (failedOf tr e).or (failStepF e x) := by
  unfold failedOf
  rw [findSome_snoc]
  rfl

theorem asIf_snoc (tr : FTrace α φ) (x : FOp α φ × Out) : asIf (tr ++ [x]) = asIf tr ++ asIfStep x := by
  simp [asIf]

theorem events_fsnoc (tr : FTrace α φ) (op : FOp α φ) (out : Out) :
    events (tr ++ [(op, out)]) = events tr ++ (match out with | .done ev => ev | .threw _ => []) := by
  cases out <;> simp [events]

/-- The correspondence of a history with the history without failures. -/
structure Corr (ftr : FTrace α φ) : Prop where
  decl : ∀ e, Trace.decl (asIf ftr) e = (declOf ftr e).or (failedOf ftr e)
  excl : ∀ e, declOf ftr e ≠ none → failedOf ftr e = none
  matched : ∀ e, (asIf ftr).matched e = Fragile.matched ftr e
  destroyed : ∀ e, Event.destroyed e ∈ (asIf ftr).events ↔
    Event.destroyed e ∈ events ftr ∨ failedOf ftr e ≠ none
  dead : ∀ e, failedOf ftr e ≠ none → Fragile.matched ftr e = 0

theorem FReach.corr {ftr : FTrace α φ} {w : World α} (h : FReach ftr w) : Corr ftr := by
  induction h with
  | init => constructor <;> simp [asIf, declOf, failedOf, Trace.decl, Trace.matched, Trace.events, Fragile.matched, events]
  | @step ftr w w' op out hr hs ih =>
    have hrr := hr.sim
    have hfresh := hrr.view.2.fresh w.exps.length (by simp [abs_exps_length])
    have hnd : Trace.decl (asIf ftr) w.exps.length = none := by
      cases hd : Trace.decl (asIf ftr) w.exps.length with
      | none => rfl
      | some d =>
        have := hrr.view.2.decl_lt.mp ⟨d, hd⟩
        simp [abs_exps_length] at this
    have hno : declOf ftr w.exps.length = none ∧ failedOf ftr w.exps.length = none := by
      have := ih.decl w.exps.length
      rw [hnd] at this
      simpa using this.symm
    have hnm : Fragile.matched ftr w.exps.length = 0 := by
      rw [← ih.matched]
      exact List.count_eq_zero.mpr hfresh.2.1
    cases op with
    | op o =>
      simp only [Fragile.step, bind, Except.bind] at hs
      cases he : w.step o with
      | error e => simp [he] at hs
      | ok r =>
        obtain ⟨w2, ev⟩ := r
        simp only [he, pure, Except.pure, Except.ok.injEq, Prod.mk.injEq] at hs
        obtain ⟨rfl, rfl⟩ := hs
        have hf : ∀ e, failedOf (ftr ++ [(.op o, .done ev)]) e = failedOf ftr e := by
          intro e; rw [failedOf_snoc]; simp [failStepF]
        have hds : ∀ e, declStepF (φ := φ) e (.op o, .done ev) = declStep e o ev := by
          intro e; cases o <;> rfl
        have hcr : ∀ e, declStep e o ev ≠ none → e = w.exps.length := by
          intro e hne
          have h2 := (hrr.step he).view.2
          cases o with
          | expect m mn mx ss ps =>
            simp only [declStep, ne_eq, ite_eq_right_iff, reduceCtorEq, imp_false, Classical.not_not] at hne
            have hspec := hrr.spec_step he
            simp only [Spec.State.step] at hspec
            split at hspec
            · split at hspec
              · simp only [Option.some.injEq, Prod.mk.injEq, abs_exps_length] at hspec
                rw [← hspec.2] at hne
                simpa using hne
              · simp only [Option.some.injEq, Prod.mk.injEq] at hspec
                rw [← hspec.2] at hne
                simp at hne
            · simp at hspec
          | _ => simp [declStep] at hne
        constructor
        · intro e
          rw [asIf_snoc, declOf_snoc, hf, hds]
          show Trace.decl (asIf ftr ++ [(o, ev)]) e = _
          rw [decl_snoc, ih.decl e]
          cases h1 : declOf ftr e with
          | some d => simp
          | none =>
            cases h2 : failedOf ftr e with
            | none => simp
            | some d =>
              have : declStep e o ev = none := by
                apply Classical.byContradiction
                intro hne
                rw [hcr e hne, hno.2] at h2
                simp at h2
              simp [this]
        · intro e
          rw [declOf_snoc, hf, hds]
          intro hne
          cases h1 : declOf ftr e with
          | some d => exact ih.excl e (by simp [h1])
          | none =>
            simp only [h1, Option.none_or] at hne
            rw [hcr e hne]; exact hno.2
        · intro e
          rw [asIf_snoc]
          show Trace.matched (asIf ftr ++ [(o, ev)]) e = _
          have := ih.matched e
          rw [matched_snoc, this]
          simp [Fragile.matched, events_fsnoc]
        · intro e
          rw [asIf_snoc]
          show Event.destroyed e ∈ Trace.events (asIf ftr ++ [(o, ev)]) ↔ _
          rw [Mimic.events_snoc, events_fsnoc, hf, List.mem_append, List.mem_append, ih.destroyed e]
          grind
        · intro e
          rw [hf]
          intro hne
          have hm := ih.dead e hne
          have hnf : Event.fullMatch e ∉ ev := by
            intro hfm
            obtain ⟨m, a, _, hc⟩ := fullMatch_source hrr he hfm
            exact hc.1.1.2 ((ih.destroyed e).mpr (Or.inr hne))
          simp only [Fragile.matched, events_fsnoc, List.count_append, List.count_eq_zero_of_not_mem hnf, Nat.add_zero]
          exact hm
    | create coll rv items =>
      rcases create_cases hrr hs with ⟨rfl, rfl⟩ | ⟨_, rfl, h1⟩ | ⟨_, _, rfl, w1, h1, h2⟩
      · constructor
        · intro e
          rw [asIf_snoc, declOf_snoc, failedOf_snoc]
          simp [asIfStep, declStepF, failStepF, ih.decl e]
        · intro e
          rw [declOf_snoc, failedOf_snoc]
          simpa [declStepF, failStepF] using ih.excl e
        · intro e
          rw [asIf_snoc]
          simpa [asIfStep, Fragile.matched, events_fsnoc] using ih.matched e
        · intro e
          rw [asIf_snoc, failedOf_snoc]
          simpa [asIfStep, events_fsnoc, failStepF] using ih.destroyed e
        · intro e
          rw [failedOf_snoc]
          simpa [failStepF, Fragile.matched, events_fsnoc] using ih.dead e
      · have hf : ∀ e, failedOf (ftr ++ [(.create coll rv items, .done [.created w.exps.length])]) e = failedOf ftr e := by
          intro e; rw [failedOf_snoc]; simp [failStepF]
        constructor
        · intro e
          rw [asIf_snoc, declOf_snoc, hf]
          simp only [asIfStep, List.cons.injEq, reduceCtorEq, false_and, if_false, declStepF]
          rw [decl_snoc, ih.decl e]
          simp only [declStep, List.mem_singleton, Event.created.injEq]
          by_cases he : e = w.exps.length
          · subst he
            simp [hno.1, hno.2]
          · simp [he]
        · intro e
          rw [declOf_snoc, hf]
          simp only [declStepF, List.mem_singleton, Event.created.injEq]
          intro hne
          by_cases he : e = w.exps.length
          · rw [he]; exact hno.2
          · simp only [he, if_false, Option.or_none] at hne
            exact ih.excl e hne
        · intro e
          rw [asIf_snoc]
          simp only [asIfStep, List.cons.injEq, reduceCtorEq, false_and, if_false]
          rw [matched_snoc, ih.matched e]
          simp [Fragile.matched, events_fsnoc]
        · intro e
          rw [asIf_snoc]
          simp only [asIfStep, List.cons.injEq, reduceCtorEq, false_and, if_false]
          rw [Mimic.events_snoc, events_fsnoc, hf, List.mem_append, List.mem_append, ih.destroyed e]
          simp
        · intro e
          rw [hf]
          intro hne
          have hm := ih.dead e hne
          simpa [Fragile.matched, events_fsnoc] using hm
      · have hf : ∀ e, failedOf (ftr ++ [(.create coll rv items, .threw w.exps.length)]) e =
            (failedOf ftr e).or (if w.exps.length = e then some (wanted coll items) else none) := by
          intro e; rw [failedOf_snoc]; simp [failStepF]
        have hasif : asIf (ftr ++ [(.create coll rv items, .threw w.exps.length)]) =
            (asIf ftr ++ [(.expect (wanted coll items).mock (wanted coll items).min (wanted coll items).max
              (wanted coll items).seqs (wanted coll items).policies, [.created w.exps.length])]) ++
            [(.destroy w.exps.length, .destroyed w.exps.length ::
              if (wanted coll items).min ≤ 0 ∧ (wanted coll items).policies.all (·.isSatisfied) then []
              else [.unfulfilled w.exps.length])] := by
          rw [asIf_snoc]; simp [asIfStep]
        constructor
        · intro e
          rw [hasif, declOf_snoc, hf]
          rw [decl_snoc, decl_snoc, ih.decl e]
          simp only [declStep, List.mem_singleton, Event.created.injEq, Option.or_none, declStepF]
          by_cases he : e = w.exps.length
          · subst he
            simp [hno.1, hno.2]
          · simp [he, Ne.symm he]
        · intro e
          rw [declOf_snoc, hf]
          simp only [declStepF, Option.or_none]
          intro hne
          have : w.exps.length ≠ e := by
            intro he; rw [← he] at hne; exact hne hno.1
          simp [this, ih.excl e hne]
        · intro e
          rw [hasif, matched_snoc, matched_snoc, ih.matched e]
          have : List.count (Event.fullMatch e) (Event.destroyed w.exps.length ::
              if (wanted coll items).min ≤ 0 ∧ (wanted coll items).policies.all (·.isSatisfied) then []
              else [.unfulfilled w.exps.length]) = 0 := by
            apply List.count_eq_zero_of_not_mem
            split <;> simp
          rw [this]
          simp [Fragile.matched, events_fsnoc]
        · intro e
          rw [hasif, Mimic.events_snoc, Mimic.events_snoc, events_fsnoc, hf]
          simp only [List.mem_append, ih.destroyed e, List.mem_cons, List.not_mem_nil, or_false, reduceCtorEq,
            Event.destroyed.injEq]
          have : Event.destroyed e ∉ (if (wanted coll items).min ≤ 0 ∧ (wanted coll items).policies.all (·.isSatisfied)
              then [] else [Event.unfulfilled w.exps.length]) := by
            split <;> simp
          simp only [this, or_false]
          by_cases he : e = w.exps.length
          · simp [he]
          · simp [he, Ne.symm he]
        · intro e
          rw [hf]
          intro hne
          have : Fragile.matched (ftr ++ [(.create coll rv items, .threw w.exps.length)]) e = Fragile.matched ftr e := by
            simp [Fragile.matched, events_fsnoc]
          rw [this]
          by_cases he : w.exps.length = e
          · rw [← he]; exact hnm
          · simp only [he, if_false, Option.or_none] at hne
            exact ih.dead e hne

section
variable {ftr : FTrace α φ} {w : World α}

theorem Corr.live_iff (h : Corr ftr) (e : Nat) : (asIf ftr).live e ↔ Fragile.live ftr e := by
  unfold Trace.live Fragile.live
  rw [h.destroyed e, h.decl e]
  have := h.excl e
  cases h1 : declOf ftr e with
  | some d => simp [this (by simp [h1])]
  | none => cases h2 : failedOf ftr e <;> simp

theorem Corr.decl_iff (h : Corr ftr) (e : Nat) (d : Decl α) :
    (asIf ftr).decl e = some d ↔ declOf ftr e = some d ∨ failedOf ftr e = some d := by
  rw [h.decl e]
  have := h.excl e
  cases h1 : declOf ftr e with
  | some d' => simp [this (by simp [h1])]
  | none => simp

theorem Corr.accepts_iff (h : Corr ftr) (m : Nat) (a : α) (e : Nat) :
    (asIf ftr).accepts m a e ↔ Fragile.accepts ftr m a e := by
  unfold Trace.accepts Fragile.accepts
  rw [h.live_iff e]
  constructor
  · rintro ⟨hl, d, hd, hr⟩
    have hl' := hl
    obtain ⟨⟨d', hd'⟩, _⟩ := hl'
    have : (asIf ftr).decl e = some d' := (h.decl_iff e d').mpr (Or.inl hd')
    rw [this] at hd
    injection hd with hd
    subst hd
    exact ⟨hl, d', hd', hr⟩
  · rintro ⟨hl, d, hd, hr⟩
    exact ⟨hl, d, (h.decl_iff e d).mpr (Or.inl hd), hr⟩

/-- If all failures are harmless, the rule in terms of the expectations that were really created decides. -/
theorem Corr.applicable_iff (h : Corr ftr) (hh : ∀ e d, failedOf ftr e = some d → Harmless d) {e : Nat}
    {d0 : Decl α} (hd0 : declOf ftr e = some d0) :
    (asIf ftr).applicable e ↔ Fragile.applicable ftr e := by
  have hd : (asIf ftr).decl e = some d0 := (h.decl_iff e d0).mpr (Or.inl hd0)
  unfold Trace.applicable Fragile.applicable Trace.attached Fragile.attached Trace.turn Fragile.turn
    Trace.attached Fragile.attached Trace.tooFew
  simp only [hd, hd0, h.matched, Option.some.injEq, exists_eq_left']
  refine and_congr Iff.rfl (forall_congr' fun s => imp_congr Iff.rfl (and_congr ?_ ?_))
  · constructor
    · intro H e' d hlt hd' hs
      have hd'' := (h.decl_iff e' d).mpr (Or.inl hd')
      have := H e' hlt ⟨d, hd'', hs⟩
      apply Classical.byContradiction
      intro hn
      exact this ⟨d, hd'', by omega⟩
    · rintro H e' hlt ⟨d, hd', hs⟩ ⟨d2, hd2, hlt2⟩
      rw [hd'] at hd2
      injection hd2 with hd2
      subst hd2
      rcases (h.decl_iff e' d).mp hd' with h1 | h1
      · have := H e' d hlt h1 hs; omega
      · have h0 := h.dead e' (by simp [h1])
        rcases hh e' d h1 with h2 | h2
        · simp [h2] at hs
        · rw [h0, h2] at hlt2; simp at hlt2
  · constructor
    · rintro H e' hlt ⟨d, hd', hs⟩
      exact H e' hlt ⟨d, (h.decl_iff e' d).mpr (Or.inl hd'), hs⟩
    · rintro H e' hlt ⟨d, hd', hs⟩
      rcases (h.decl_iff e' d).mp hd' with h1 | h1
      · exact H e' hlt ⟨d, h1, hs⟩
      · exact h.dead e' (by simp [h1])

end

end Mimic.Fragile
