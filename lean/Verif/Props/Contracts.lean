import Verif.Spec.Contracts

/-!
# C81: Where exceptions of the client's classes end up
-/

set_option autoImplicit false

namespace Mimic.Contracts

/-- C81: making a finalizer or side effect from an object succeeds if neither the construction from that object nor a move throws.
Otherwise the exception comes out of the function, unless the construction is declared `noexcept` (and the move is not). -/
theorem C81_created {c : Cls} (hc : c.honest) (f : Factory) (a : Way) :
    (f.create c a = .done ↔ (c.construct a).throws = false ∧ c.move.throws = false) ∧
    (f.create c a = .thrown ↔ (c.construct a).declared = false ∧ ((c.construct a).throws = true ∨ c.move.throws = true)) ∧
    (f.create c a = .terminated ↔ (c.construct a).declared = true ∧ c.move.throws = true) := by
  have h1 := hc.1 a
  have h2 := hc.1 .rvalue
  simp only [Act.honest, Cls.move] at *
  cases hx : c.construct a with
  | mk d1 t1 =>
    cases hy : c.construct .rvalue with
    | mk d2 t2 =>
      rw [hx] at h1
      rw [hy] at h2
      cases f <;> cases d1 <;> cases t1 <;> cases d2 <;> cases t2 <;>
        simp_all [Factory.create, wrapClosure, makeApply, andThen, exec, frame, Cls.move]

/-- C81: the same for requirements with a projection. -/
theorem C81_requirement {m p : Cls} (hm : m.honest) (hp : p.honest) (a : Way) :
    (createArg m p a = .done ↔ (m.construct a).throws = false ∧ m.move.throws = false ∧ p.move.throws = false) ∧
    (createArg m p a = .terminated ↔ (m.construct a).declared = true ∧ p.move.declared = true ∧ m.move.throws = true) := by
  have h1 := hm.1 a
  have h2 := hm.1 .rvalue
  have h3 := hp.1 .rvalue
  simp only [Act.honest, Cls.move] at *
  cases hx : m.construct a with
  | mk d1 t1 =>
    cases hy : m.construct .rvalue with
    | mk d2 t2 =>
      cases hz : p.construct .rvalue with
      | mk d3 t3 =>
        rw [hx] at h1
        rw [hy] at h2
        rw [hz] at h3
        cases d1 <;> cases t1 <;> cases d2 <;> cases t2 <;> cases d3 <;> cases t3 <;>
          simp_all [createArg, andThen, exec, frame, Cls.move]

/-- C81: so making a policy never terminates the program if moves promise what the construction promises; in particular if the object is
passed as an rvalue. -/
theorem C81_created_partial {c : Cls} (hc : c.honest) (f : Factory) (a : Way) (h : (c.construct a).declared = true → c.move.declared = true) :
    f.create c a ≠ .terminated := by
  intro ht
  obtain ⟨h1, h2⟩ := ((C81_created hc f a).2.2).mp ht
  have := hc.1 .rvalue (h h1)
  simp only [Cls.move] at h2
  rw [h2] at this
  cases this

/-- C81 is false in general: a class with a copy constructor that is `noexcept` and a move constructor that throws. -/
theorem C81_created_counterexample : ∃ c : Cls, c.honest ∧ ∀ f : Factory, f.create c .constLvalue = .terminated := by
  refine ⟨⟨fun a => if a = .rvalue then ⟨false, true⟩ else ⟨true, false⟩, fun _ => none⟩, ⟨?_, by simp⟩, ?_⟩
  · intro a
    cases a <;> simp [Act.honest]
  · intro f
    cases f <;> rfl

/-- C81: what comes of a call that is resolved by `finally::returns_result_of(f)`: an exception of `f`, or of the conversion of its result,
reaches the caller, unless `f` would promise not to throw if it were called the way it was passed. -/
theorem C81_result_of {c : Cls} (hc : c.honest) {a : Way} {f : Act} (hf : c.call .lvalue = some f) {conv : Act} (hv : conv.honest) :
    ∃ o, returnsResultOf c a conv = some o ∧
      (o = .done ↔ f.throws = false ∧ conv.throws = false) ∧
      (o = .terminated ↔ f.throws = true ∧ ∃ g, c.call a = some g ∧ g.declared = true) := by
  have h1 := hc.2 .lvalue f hf
  refine ⟨finalizeCall (c.nothrowCall a) (frame (c.nothrowCall a) (exec f)) conv, by simp only [returnsResultOf, Cls.invoke, hf, Option.map_some], ?_⟩
  obtain ⟨d1, t1⟩ := f
  obtain ⟨d2, t2⟩ := conv
  simp only [Act.honest] at *
  cases hg : c.call a with
  | none =>
    simp only [Cls.nothrowCall, hg, finalizeCall]
    cases d1 <;> cases t1 <;> cases d2 <;> cases t2 <;> simp_all [andThen, exec, frame]
  | some g =>
    obtain ⟨d3, t3⟩ := g
    simp only [Cls.nothrowCall, hg, finalizeCall]
    cases d1 <;> cases t1 <;> cases d2 <;> cases t2 <;> cases d3 <;> simp_all [andThen, exec, frame]

/-- C81: in particular exceptions always reach the caller if the function was passed as an lvalue that is not const, or if all its call
operators are the same one. -/
theorem C81_result_of_partial {c : Cls} (hc : c.honest) {a : Way} (ha : a = .lvalue ∨ c.plain) {f : Act} (hf : c.call .lvalue = some f)
    {conv : Act} (hv : conv.honest) :
    ∃ o, returnsResultOf c a conv = some o ∧ (o = .done ↔ f.throws = false ∧ conv.throws = false) ∧
      (o = .thrown ↔ f.throws = true ∨ conv.throws = true) := by
  obtain ⟨o, h1, h2, h3⟩ := C81_result_of hc (a := a) hf hv
  refine ⟨o, h1, h2, ?_⟩
  have hn : o ≠ .terminated := by
    intro ht
    obtain ⟨k1, g, k2, k3⟩ := h3.mp ht
    have : c.call a = c.call .lvalue := by
      rcases ha with rfl | hp
      · rfl
      · exact hp a
    rw [this, hf, Option.some.injEq] at k2
    subst k2
    have := hc.2 _ _ hf k3
    rw [k1] at this
    cases this
  cases o with
  | done => have := h2.mp rfl; simp [this.1, this.2]
  | terminated => exact absurd rfl hn
  | thrown =>
    simp only [true_iff]
    have h4 : ¬ (f.throws = false ∧ conv.throws = false) := fun hc => by have := h2.mpr hc; cases this
    cases hx : f.throws <;> cases hy : conv.throws <;> simp_all

/-- C81 is false in general: a const object of a class whose const call operator is `noexcept`, and a temporary of a class whose call
operator for temporaries is. The closure calls its own copy, which is neither. -/
theorem C81_result_of_counterexample : ∃ c : Cls, c.honest ∧ c.call .lvalue = some ⟨false, true⟩ ∧
    returnsResultOf c .constLvalue ⟨true, false⟩ = some .terminated ∧ returnsResultOf c .rvalue ⟨true, false⟩ = some .terminated ∧
    returnsResultOf c .lvalue ⟨true, false⟩ = some .thrown := by
  refine ⟨⟨fun _ => ⟨true, false⟩, fun a => if a = .lvalue then some ⟨false, true⟩ else some ⟨true, false⟩⟩, ⟨?_, ?_⟩, rfl, rfl, rfl, rfl⟩
  · intro a; simp [Act.honest]
  · intro a f h
    cases a <;> simp at h <;> subst h <;> simp [Act.honest]

/-- C81: with the other finalizers exceptions always reach the caller: of the applied function, of the conversion to the return type, and
the thrown exception itself (or that of its copy constructor). -/
theorem C81_finalizers {c : Cls} (hc : c.honest) {conv : Act} (hv : conv.honest) :
    (∀ f, c.call .constLvalue = some f → ∃ o, returnsApply c conv = some o ∧ (o = .done ↔ f.throws = false ∧ conv.throws = false) ∧
      (o = .thrown ↔ f.throws = true ∨ conv.throws = true)) ∧
    (returnsValue conv = if conv.throws then .thrown else .done) ∧ (returnsArg conv = if conv.throws then .thrown else .done) ∧
    throwsCopy c = .thrown := by
  obtain ⟨d2, t2⟩ := conv
  simp only [Act.honest] at hv
  refine ⟨?_, ?_, ?_, ?_⟩
  · intro f hf
    have h1 := hc.2 _ f hf
    refine ⟨finalizeCall (c.nothrowCall .constLvalue) (frame (c.nothrowCall .constLvalue) (exec f)) ⟨d2, t2⟩,
      by simp only [returnsApply, Cls.invoke, hf, Option.map_some], ?_⟩
    obtain ⟨d1, t1⟩ := f
    simp only [Act.honest] at h1
    simp only [Cls.nothrowCall, hf, finalizeCall]
    cases d1 <;> cases t1 <;> cases d2 <;> cases t2 <;> simp_all [andThen, exec, frame]
  · cases d2 <;> cases t2 <;> simp_all [returnsValue, finalizeCall, andThen, exec, frame]
  · cases d2 <;> cases t2 <;> simp_all [returnsArg, finalizeCall, andThen, exec, frame]
  · have h1 := hc.1 .lvalue
    cases hx : c.construct .lvalue with
    | mk d t =>
      rw [hx] at h1
      simp only [Act.honest] at h1
      cases d <;> cases t <;> simp_all [throwsCopy, andThen, exec, frame]

/-- C81: an exception of a side effect always terminates the program, and nothing else does. -/
theorem C81_side_effects {c : Cls} (hc : c.honest) (a : Way) :
    (∀ f, c.call .lvalue = some f → invokeEffect c a = some (if f.throws then .terminated else .done)) ∧
    (∀ f, c.call .constLvalue = some f → applyEffect c = some (if f.throws then .terminated else .done)) := by
  constructor
  · intro f hf
    have h1 := hc.2 _ f hf
    obtain ⟨d1, t1⟩ := f
    simp only [Act.honest] at h1
    simp only [invokeEffect, Cls.invoke, hf, Option.map_some, consume, Option.some.injEq]
    generalize c.nothrowCall _ = n
    cases d1 <;> cases t1 <;> cases n <;> simp_all [exec, frame]
  · intro f hf
    have h1 := hc.2 _ f hf
    obtain ⟨d1, t1⟩ := f
    simp only [Act.honest] at h1
    simp only [applyEffect, Cls.invoke, hf, Option.map_some, consume, Option.some.injEq]
    generalize c.nothrowCall _ = n
    cases d1 <;> cases t1 <;> cases n <;> simp_all [exec, frame]

/-- C81: an exception of a predicate never terminates the program in the matcher. -/
theorem C81_predicates {c : Cls} (hc : c.honest) {f : Act} (hf : c.call .constLvalue = some f) :
    predicateMatches c = some (if f.throws then .thrown else .done) := by
  have h1 := hc.2 _ f hf
  obtain ⟨d1, t1⟩ := f
  simp only [Act.honest] at h1
  simp only [predicateMatches, Cls.invoke, hf, Option.map_some, Cls.nothrowCall, Option.some.injEq]
  cases d1 <;> cases t1 <;> simp_all [exec, frame]

/-- The hypotheses can be met: a lambda that throws, passed as an rvalue. -/
example : ∃ c : Cls, c.honest ∧ c.plain ∧ c.call .lvalue = some ⟨false, true⟩ ∧
    (∀ f : Factory, f.create c .rvalue = .done) ∧ returnsResultOf c .rvalue ⟨true, false⟩ = some .thrown ∧
    invokeEffect c .rvalue = some .terminated ∧ predicateMatches c = some .thrown := by
  refine ⟨⟨fun _ => ⟨true, false⟩, fun _ => some ⟨false, true⟩⟩, ⟨?_, ?_⟩, fun _ => rfl, rfl, ?_, rfl, rfl, rfl⟩
  · intro a; simp [Act.honest]
  · intro a f h; simp at h; subst h; simp [Act.honest]
  · intro f; cases f <;> rfl

end Mimic.Contracts
