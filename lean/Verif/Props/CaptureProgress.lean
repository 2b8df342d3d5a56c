import Verif.Proofs.CaptureProgress
import Verif.Props.Capture

/-!
# C48, C53: what clients can do with matchers and finalizers at all
-/

set_option autoImplicit false

namespace Mimic.Capture

variable {V : Type} {elems : V → List V} {print : V → String}

/-- C48: an operation that compiles and uses only what exists is carried out. The only exception are tests and descriptions
of matchers in a history that ended the life of a variable to which a matcher was made to refer. What does not compile or
uses what does not exist is not carried out. -/
theorem C48_progress {pre : List (Op V)} {op : Op V} {s : State V} {as : List (Ans V)}
    (h : run elems print State.init pre = .ok (s, as)) :
    (op.proper pre → (∃ r, s.step elems print op = .ok r) ∨
      (s.step elems print op = .error .dangling ∧ ((∃ m t, op = .test m t) ∨ ∃ m, op = .describe m) ∧
        ∃ o, (∃ op' ∈ pre, op'.refers o) ∧ Op.client (.destroy o) ∈ pre)) ∧
    (¬ op.proper pre → ∀ r, s.step elems print op ≠ .ok r) := by
  have hk : Known pre s := by simpa using Known.init.run h
  have hder : ∀ (m : Nat) (c : Bool) (g : Mat V → Mat V), (∃ r, s.derive m c g = .ok r) ↔ m < made pre ∧ Op.drop m ∉ pre := by
    intro m c g
    rw [← hk.mat_iff]
    unfold State.derive
    cases hx : s.mat m <;> simp [bind, Except.bind, pure, Except.pure]
  have hiff : ∀ {p : Prop} {r0 : Except Fault (State V × Ans V)}, ((∃ r, r0 = .ok r) ↔ p) →
      (p → (∃ r, r0 = .ok r) ∨ (r0 = .error .dangling ∧ ((∃ m t, op = .test m t) ∨ ∃ m, op = .describe m) ∧
        ∃ o, (∃ op' ∈ pre, op'.refers o) ∧ Op.client (.destroy o) ∈ pre)) ∧ (¬ p → ∀ r, r0 ≠ .ok r) :=
    fun he => ⟨fun hp => Or.inl (he.mpr hp), fun hn r hr => hn (he.mp ⟨r, hr⟩)⟩
  cases op with
  | client c =>
    apply hiff
    simp only [Op.proper, ← hk.objs.client_iff, State.step, bind, Except.bind, pure, Except.pure]
    cases clientStep s.objs c <;> simp
  | make f e =>
    apply hiff
    simp only [Op.proper, ← hk.objs.store_iff, State.step, bind, Except.bind, pure, Except.pure]
    cases store f.all s.objs e <;> simp
  | nest each how m =>
    apply hiff
    simp only [Op.proper, State.step]
    cases how with
    | constant => simp
    | _ => rw [hder]; simp
  | invert how m => exact hiff (hder _ _ _)
  | keep how m => exact hiff (hder _ _ _)
  | drop m =>
    apply hiff
    simp only [Op.proper, ← hk.mat_iff, State.step, bind, Except.bind, pure, Except.pure]
    cases s.mat m <;> simp
  | test m t =>
    simp only [Op.proper, ← hk.mat_iff, State.step, bind, Except.bind]
    cases hx : s.mat m with
    | error y => simp
    | ok x =>
      simp only
      refine ⟨fun _ => ?_, fun hn => absurd ⟨x, rfl⟩ hn⟩
      cases ha : answer s ((x.eval elems s.objs t).map .truth) with
      | ok r => exact Or.inl ⟨r, rfl⟩
      | error y =>
        have h1 := map_error (answer_error ha)
        rcases hk.dangling hx (evalLayers_error _ _ h1) with rfl | ⟨rfl, h2⟩
        · rw [h1] at ha; cases ha
        · exact Or.inr ⟨rfl, Or.inl ⟨m, t, rfl⟩, h2⟩
  | describe m =>
    simp only [Op.proper, ← hk.mat_iff, State.step, bind, Except.bind]
    cases hx : s.mat m with
    | error y => simp
    | ok x =>
      simp only
      refine ⟨fun _ => ?_, fun hn => absurd ⟨x, rfl⟩ hn⟩
      cases ha : answer s ((x.describe s.objs print).map .text) with
      | ok r => exact Or.inl ⟨r, rfl⟩
      | error y =>
        have h1 := map_error (answer_error ha)
        rcases describeLayers_error _ h1 with h3 | rfl
        · rcases hk.dangling hx h3 with rfl | ⟨rfl, h2⟩
          · rw [h1] at ha; cases ha
          · exact Or.inr ⟨rfl, Or.inr ⟨m, rfl⟩, h2⟩
        · rw [h1] at ha; cases ha

/-- C48: in a history whose operations compile and use only what exists, and that leaves the variables alone to which
matchers refer, every operation is carried out. -/
theorem C48_complete {ops : List (Op V)} (hp : ∀ (n : Nat) op, ops[n]? = some op → op.proper (ops.take n)) (ht : LeftAlone ops) :
    ∃ s as, run elems print State.init ops = .ok (s, as) := by
  have key : ∀ n, n ≤ ops.length → ∃ s as, run elems print State.init (ops.take n) = .ok (s, as) := by
    intro n
    induction n with
    | zero => intro _; exact ⟨State.init, [], by rw [List.take_zero]; rfl⟩
    | succ n ih =>
      intro hn
      obtain ⟨s, as, hr⟩ := ih (by omega)
      have hlt : n < ops.length := by omega
      have hg := List.getElem?_eq_getElem hlt
      have happ : ops.take (n + 1) = ops.take n ++ [ops[n]] := List.take_succ_eq_append_getElem hlt
      have hjoin : ∀ r, s.step elems print ops[n] = .ok r →
          ∃ s' as', run elems print State.init (ops.take n ++ [ops[n]]) = .ok (s', as') := by
        intro r hs
        exact run_glue hr (b := r.1) (bs := [r.2]) (by simp [run, hs, bind, Except.bind, pure, Except.pure])
      rw [happ]
      rcases (C48_progress hr).1 (hp n _ hg) with ⟨r, hs⟩ | ⟨hs, _⟩
      · exact hjoin r hs
      · exfalso
        have hd := run_stuck hr hs (rest := ops.drop (n + 1))
        rw [← List.drop_eq_getElem_cons hlt, List.take_append_drop] at hd
        exact C48_safe_partial ht hd
  have := key ops.length (Nat.le_refl _)
  rwa [List.take_length] at this

/-- C53: an operation that compiles and uses only what exists is carried out. The only exception are calls in a history that
ended the life of the object inside of a `std::reference_wrapper` that was given to `finally::returns`. -/
theorem C53_progress {pre : List (FinOp V)} {op : FinOp V} {s : FinState V} {as : List (Ans V)}
    (h : runFins FinState.init pre = .ok (s, as)) :
    (op.proper pre → (∃ r, s.step op = .ok r) ∨
      (s.step op = .error .dangling ∧ (∃ f use, op = .call f use) ∧
        ∃ o, FinOp.returns (.view o) ∈ pre ∧ FinOp.client (.destroy o) ∈ pre)) ∧
    (¬ op.proper pre → ∀ r, s.step op ≠ .ok r) := by
  have hk : FKnown pre s := by simpa using FKnown.init.run h
  have hiff : ∀ {p : Prop} {r0 : Except Fault (FinState V × Ans V)}, ((∃ r, r0 = .ok r) ↔ p) →
      (p → (∃ r, r0 = .ok r) ∨ (r0 = .error .dangling ∧ (∃ f use, op = .call f use) ∧
        ∃ o, FinOp.returns (.view o) ∈ pre ∧ FinOp.client (.destroy o) ∈ pre)) ∧ (¬ p → ∀ r, r0 ≠ .ok r) :=
    fun he => ⟨fun hp => Or.inl (he.mpr hp), fun hn r hr => hn (he.mp ⟨r, hr⟩)⟩
  have hadd : ∀ (t : Bool) (e : Expr V), (∃ r, s.add t e = .ok r) ↔ e.isArray = false ∧ e.proper false (finClients pre) := by
    intro t e
    rw [← hk.objs.store_iff, isArray_iff]
    unfold FinState.add
    split
    · simp
    · simp
    · rename_i h1 h2
      have : ∀ o, e ≠ .named .array o ∧ e ≠ .moved .array o := fun o => ⟨h1 o, h2 o⟩
      cases hs : store false s.objs e <;> simp [bind, Except.bind, pure, Except.pure, this]
  cases op with
  | client c =>
    apply hiff
    simp only [FinOp.proper, ← hk.objs.client_iff, FinState.step, bind, Except.bind, pure, Except.pure]
    cases clientStep s.objs c <;> simp
  | returns e => exact hiff (hadd false e)
  | throws e =>
    apply hiff
    simp only [FinOp.proper]
    cases e with
    | view o => simp [FinState.step]
    | _ => simpa [FinState.step] using hadd true _
  | call f use =>
    simp only [FinOp.proper, ← hk.len, FinState.step]
    by_cases hf : f < s.fins.length
    · have hg := List.getElem?_eq_getElem hf
      rw [hg]
      simp only [hf, not_true_eq_false, false_implies, and_true, true_implies]
      cases hr : s.fins[f].stored.read s.objs with
      | ok v =>
        left
        unfold FinState.call
        rw [hr]
        split
        · exact ⟨_, rfl⟩
        · simp only [Except.map, answer, bind, Except.bind, pure, Except.pure]
          split <;> exact ⟨_, rfl⟩
      | error y =>
        cases hst : s.fins[f].stored with
        | own k v =>
          rw [hst] at hr
          cases v with
          | some v => cases hr
          | none =>
            cases hr
            left
            unfold FinState.call
            rw [hst]
            simp only [Stored.read, Except.map, answer, bind, Except.bind, pure, Except.pure]
            split
            · exact ⟨_, rfl⟩
            · split <;> exact ⟨_, rfl⟩
        | ref o =>
          obtain ⟨h1, h2⟩ := hk.refs f o _ hg hst
          have hgo := List.getElem?_eq_getElem h2
          rw [hst] at hr
          simp only [Stored.read, hgo] at hr
          generalize hz : s.objs[o] = z at hgo hr
          obtain ⟨k, c⟩ := z
          cases c with
          | holds v => cases hr
          | moved =>
            left
            unfold FinState.call
            rw [hst]
            simp only [Stored.read, hgo, Except.map, answer, bind, Except.bind, pure, Except.pure]
            split
            · exact ⟨_, rfl⟩
            · split <;> exact ⟨_, rfl⟩
          | gone =>
            right
            refine ⟨?_, ⟨f, use, rfl⟩, o, h1, ?_⟩
            · unfold FinState.call
              rw [hst]
              simp only [Stored.read, hgo, Except.map, answer, bind, Except.bind]
              split <;> rfl
            · have hd := (hk.objs.gone o k .gone hgo).mp rfl
              unfold finClients at hd
              obtain ⟨op, hop, he⟩ := List.mem_filterMap.mp hd
              cases op <;> simp only [Option.some.injEq, reduceCtorEq] at he
              subst he
              exact hop
    · rw [List.getElem?_eq_none (Nat.le_of_not_lt hf)]
      simp [hf]

/-- A history that is carried out although variables are changed and destroyed: nothing refers to them. -/
def harmless : List (Op Nat) :=
  [.client (.object .owning 5), .make (eq (fun a b => decide (a = b))) (.named .owning 0), .client (.assign 0 6),
   .client (.take 0), .client (.destroy 0), .invert .named 0, .nest true .moved 1, .test 0 5, .drop 0]

/-- Non-vacuity of C48_complete. -/
example : (∀ (n : Nat) op, harmless[n]? = some op → op.proper (harmless.take n)) ∧ LeftAlone harmless := by
  constructor
  · intro n op h
    match n with
    | 0 => cases h; trivial
    | 1 => cases h; exact ⟨rfl, by simp [clients, harmless]⟩
    | 2 => cases h; exact ⟨.owning, rfl, by simp [clients, harmless]⟩
    | 3 => cases h; exact ⟨.owning, by simp, rfl, by simp [clients, harmless]⟩
    | 4 => cases h; exact ⟨.owning, rfl, by simp [clients, harmless]⟩
    | 5 => cases h; exact ⟨by decide, by simp [harmless]⟩
    | 6 => cases h; exact ⟨by simp, by decide, by simp [harmless]⟩
    | 7 => cases h; exact ⟨by decide, by simp [harmless]⟩
    | 8 => cases h; exact ⟨by decide, by simp [harmless]⟩
    | n + 9 => simp [harmless] at h
  · intro n k o a b ha hb hnk hr ht
    have : ∀ (a : Op Nat), a ∈ harmless → ¬ a.refers o := by
      intro a ha
      simp only [harmless, List.mem_cons, List.not_mem_nil, or_false] at ha
      rcases ha with rfl | rfl | rfl | rfl | rfl | rfl | rfl | rfl | rfl <;> simp [Op.refers, eq]
    exact this a (List.mem_of_getElem? ha) hr

/-- The exception in C48_progress occurs: a range matcher whose range is gone. -/
example : ∃ s as, run (fun l => l.map ([·])) (fun _ => "v") State.init
    [.client (.object .owning [1]), .make (rangeEq (fun a b => decide (a = b))) (.named .owning 0), .client (.destroy 0)]
      = .ok (s, as) ∧
    s.step (fun l => l.map ([·])) (fun _ => "v") (.test 0 [1]) = .error .dangling := ⟨_, _, rfl, rfl⟩

/-- Non-vacuity of C53_progress, and its exception. -/
example : ∃ s as, runFins FinState.init
    [.client (.object .plain 1), .returns (.view 0), .throws (.named .plain 0), .client (.destroy 0)] = .ok (s, as) ∧
    s.step (.call 0 .value) = .error .dangling ∧ (s.step (.call 1 .value)).toOption.isSome = true := ⟨_, _, rfl, rfl, rfl⟩

end Mimic.Capture
