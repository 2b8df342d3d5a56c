import Verif.Proofs.Signature

/-!
# C21, C23, C24: signatures and overload sets
-/

set_option autoImplicit false

namespace Mimic

variable {τ : Type}

/-! ### C24 -/

/-- C24: adding and removing `noexcept` and decaying change exactly what their names say. -/
theorem C24_transformations (f : Sig τ) :
    f.addNoexcept = { f with noexc := true } ∧ f.removeNoexcept = { f with noexc := false } ∧
    f.decay = { f with isConst := false, ref := .none, noexc := false } ∧
    f.returnType = f.ret ∧ f.paramList = (if f.variadic then none else some f.params) ∧
    (∀ i, f.paramType i = if f.variadic then none else f.params[i]?) :=
  ⟨addNoexcept_eq f, removeNoexcept_eq f, decay_eq f, by rw [Sig.returnType, decay_eq],
    by rw [Sig.paramList, decay_eq], fun i => by rw [Sig.paramType, decay_eq]⟩

/-- C24: the laws users rely on. -/
theorem C24_laws (f g : Sig τ) :
    f.addNoexcept.addNoexcept = f.addNoexcept ∧ f.removeNoexcept.removeNoexcept = f.removeNoexcept ∧
    f.decay.decay = f.decay ∧ f.addNoexcept.removeNoexcept = f.removeNoexcept ∧
    f.removeNoexcept.addNoexcept = f.addNoexcept ∧ (f.noexc = false → f.addNoexcept.removeNoexcept = f) ∧
    f.addNoexcept.decay = f.decay ∧ f.removeNoexcept.decay = f.decay ∧
    (f.decay = g.decay ↔ f.ret = g.ret ∧ f.params = g.params ∧ f.variadic = g.variadic) := by
  rcases f with ⟨r, ps, v, c, q, n⟩
  rcases g with ⟨r', ps', v', c', q', n'⟩
  simp only [addNoexcept_eq, removeNoexcept_eq, decay_eq, true_and]
  constructor
  · intro h; simp_all
  · simp

example : (⟨0, [1, 2], false, true, .rvalue, true⟩ : Sig Nat).decay = ⟨0, [1, 2], false, false, .none, false⟩ := rfl

/-! ### C21 -/

/-- C21: two signatures are accepted as overloads exactly by the C++ rule. -/
theorem C21_pair [DecidableEq τ] (f g : Sig τ) (hf : f.variadic = false) (hg : g.variadic = false) :
    (overloadableWith f g = some true ↔ Overloadable f g) ∧
    (overloadableWith f g = some false ↔ ¬ Overloadable f g) := by
  obtain ⟨b, h1, h2⟩ := overloadableWith_eq f g hf hg
  rw [h1]
  cases b <;> simp_all

/-- C21: a list of signatures is accepted exactly if any two of them may be overloads. -/
theorem C21_set [DecidableEq τ] (l : List (Sig τ)) (hne : l ≠ []) (hv : ∀ f ∈ l, f.variadic = false) :
    (isOverloadSet l = some true ↔ l.Pairwise Overloadable) ∧
    (isOverloadSet l = some false ↔ ¬ l.Pairwise Overloadable) := by
  obtain ⟨b, h1, h2⟩ := isOverloadSet_eq l hne hv
  rw [h1]
  cases b <;> simp_all

/-- C21: the relation is symmetric and irreflexive, and ignores return type and `noexcept`. -/
theorem C21_relation [DecidableEq τ] (f g : Sig τ) (hf : f.variadic = false) (hg : g.variadic = false) :
    overloadableWith f g = overloadableWith g f ∧ overloadableWith f f = some false ∧
    ∀ r b, overloadableWith { f with ret := r, noexc := b } g = overloadableWith f g := by
  have key : ∀ f g f' g' : Sig τ, f.variadic = false → g.variadic = false → f'.variadic = false → g'.variadic = false →
      (Overloadable f g ↔ Overloadable f' g') → overloadableWith f g = overloadableWith f' g' := by
    intro f g f' g' h1 h2 h3 h4 h
    obtain ⟨b, e1, i1⟩ := overloadableWith_eq f g h1 h2
    obtain ⟨b', e2, i2⟩ := overloadableWith_eq f' g' h3 h4
    rw [e1, e2, Option.some.injEq, Bool.eq_iff_iff, i1, i2, h]
  refine ⟨key _ _ _ _ hf hg hg hf ⟨overloadable_symm, overloadable_symm⟩, ?_, ?_⟩
  · rw [(C21_pair f f hf hf).2]
    rintro (h | ⟨_, h | h⟩) <;> exact h rfl
  · intro r b
    exact key _ _ _ _ hf hg hf hg Iff.rfl

/-- C21: variadic signatures cannot take part in an overload set (the trait is ill-formed). -/
theorem C21_variadic [DecidableEq τ] (f g : Sig τ) (h : f.variadic = true ∨ g.variadic = true) :
    overloadableWith f g = none := by
  unfold overloadableWith overloadableDetail
  simp only [removeNoexcept_eq, decay_eq, Sig.paramList]
  rcases h with h | h
  · rw [h]; rfl
  · rw [h]
    cases f.variadic <;> rfl

/-- `void(int)`, `int(int) const`, `void(int, int) &`, `void(int, int) const && noexcept` and the same with a
redundant fifth. -/
example :
    isOverloadSet ([⟨0, [1], false, false, .none, false⟩, ⟨1, [1], false, true, .none, false⟩,
      ⟨0, [1, 1], false, false, .lvalue, false⟩, ⟨0, [1, 1], false, true, .rvalue, true⟩] : List (Sig Nat)) = some true ∧
    isOverloadSet ([⟨0, [1], false, false, .none, false⟩, ⟨1, [1], false, true, .none, false⟩,
      ⟨0, [1], false, true, .lvalue, false⟩] : List (Sig Nat)) = some false := by
  decide

/-! ### C23 -/

/-- C23: the storages of a mock are the decayed signatures of its overloads, each exactly once, in the order in which
they first occur. -/
theorem C23_storages [DecidableEq τ] (sigs : List (Sig τ)) :
    (storagesOf sigs).Nodup ∧ (∀ s, s ∈ storagesOf sigs ↔ ∃ f ∈ sigs, f.decay = s) ∧
    (storagesOf sigs).Pairwise (fun a b => (sigs.map Sig.decay).idxOf a < (sigs.map Sig.decay).idxOf b) := by
  have h := uniqueLoop_spec (sigs.map Sig.decay) [] [] (by simp) (by simp) (by simp)
  refine ⟨h.1, fun s => ?_, by have h3 := h.2.2; simp only [List.nil_append] at h3; exact h3⟩
  have := h.2.1 s
  simp only [List.nil_append, List.mem_map] at this
  exact this

/-- C23: each overload is bound to the storage of its own decayed signature; two overloads share a storage iff their
decayed signatures coincide. -/
theorem C23_binding [DecidableEq τ] (sigs : List (Sig τ)) (f : Sig τ) (hf : f ∈ sigs) :
    (∃ i, storageIndex (storagesOf sigs) f = some i ∧ (storagesOf sigs)[i]? = some f.decay) ∧
    ∀ g ∈ sigs, (storageIndex (storagesOf sigs) f = storageIndex (storagesOf sigs) g ↔ f.decay = g.decay) := by
  obtain ⟨hnd, hmem, _⟩ := C23_storages sigs
  have hidx : ∀ g ∈ sigs, storageIndex (storagesOf sigs) g = some ((storagesOf sigs).idxOf g.decay) ∧
      (storagesOf sigs)[(storagesOf sigs).idxOf g.decay]? = some g.decay := by
    intro g hg
    have hm : g.decay ∈ storagesOf sigs := (hmem _).mpr ⟨g, hg, rfl⟩
    constructor
    · unfold storageIndex
      rw [if_pos]
      rw [List.Nodup.count hnd]; simp [hm]
    · have hlt := List.idxOf_lt_length_of_mem hm
      rw [List.getElem?_eq_getElem hlt, List.getElem_idxOf]
  refine ⟨⟨_, hidx f hf⟩, fun g hg => ?_⟩
  obtain ⟨a1, a2⟩ := hidx f hf
  obtain ⟨b1, b2⟩ := hidx g hg
  rw [a1, b1]
  constructor
  · intro h
    simp only [Option.some.injEq] at h
    rw [h, b2] at a2
    simpa using a2.symm
  · intro h; rw [h]

example : storagesOf ([⟨0, [1], false, false, .none, false⟩, ⟨1, [1], false, true, .none, false⟩,
    ⟨0, [1], false, true, .none, true⟩, ⟨0, [], false, true, .rvalue, true⟩] : List (Sig Nat)) =
    [⟨0, [1], false, false, .none, false⟩, ⟨1, [1], false, false, .none, false⟩,
     ⟨0, [], false, false, .none, false⟩] := by decide

end Mimic
