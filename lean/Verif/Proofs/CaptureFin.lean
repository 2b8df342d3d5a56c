import Verif.Proofs.Capture

/-!
# Lemmas about finalizers that store values
-/

set_option autoImplicit false

namespace Mimic.Capture

variable {V : Type}

theorem fins_append {s : FinState V} {ops ops' : List (FinOp V)} {r : FinState V × List (Ans V)}
    (h : runFins s (ops ++ ops') = .ok r) :
    ∃ s' as as', runFins s ops = .ok (s', as) ∧ runFins s' ops' = .ok (r.1, as') ∧ r.2 = as ++ as' := by
  induction ops generalizing s r with
  | nil => exact ⟨s, [], r.2, rfl, h, rfl⟩
  | cons op ops ih =>
    simp only [List.cons_append, runFins, bind, Except.bind] at h
    cases hc : s.step op with
    | error x => rw [hc] at h; cases h
    | ok q =>
      rw [hc] at h
      simp only at h
      cases hr : runFins q.1 (ops ++ ops') with
      | error x => rw [hr] at h; cases h
      | ok r' =>
        rw [hr] at h
        cases h
        obtain ⟨s', as, as', h1, h2, h3⟩ := ih hr
        exact ⟨s', q.2 :: as, as', by simp [runFins, bind, Except.bind, hc, h1, pure, Except.pure], h2, by simp [h3]⟩

theorem fins_glue {s s' : FinState V} {ops ops' : List (FinOp V)} {as : List (Ans V)} (h : runFins s ops = .ok (s', as)) :
    runFins s (ops ++ ops') = (runFins s' ops').map (fun r => (r.1, as ++ r.2)) := by
  induction ops generalizing s as with
  | nil =>
    cases h
    rw [List.nil_append]
    cases hr : runFins s' ops' with
    | error x => rfl
    | ok r => simp [Except.map]
  | cons op ops ih =>
    simp only [List.cons_append, runFins, bind, Except.bind] at h ⊢
    cases hc : s.step op with
    | error x => rw [hc] at h; cases h
    | ok q =>
      rw [hc] at h
      simp only at h ⊢
      cases hr : runFins q.1 ops with
      | error x => rw [hr] at h; cases h
      | ok r' =>
        rw [hr] at h
        cases h
        rw [ih hr]
        cases hr' : runFins r'.1 ops' <;> simp [Except.map, pure, Except.pure]

theorem fins_cons {s : FinState V} {op : FinOp V} {ops : List (FinOp V)} {r : FinState V × List (Ans V)}
    (h : runFins s (op :: ops) = .ok r) :
    ∃ s' a as, s.step op = .ok (s', a) ∧ runFins s' ops = .ok (r.1, as) ∧ r.2 = a :: as := by
  simp only [runFins, bind, Except.bind] at h
  cases hc : s.step op with
  | error x => rw [hc] at h; cases h
  | ok q =>
    rw [hc] at h
    simp only at h
    cases hr : runFins q.1 ops with
    | error x => rw [hr] at h; cases h
    | ok r' => rw [hr] at h; cases h; exact ⟨q.1, q.2, r'.2, rfl, hr, rfl⟩

theorem add_ok {s s' : FinState V} {t : Bool} {e : Expr V} {a : Ans V} (h : s.add t e = .ok (s', a)) :
    ∃ st objs, store false s.objs e = .ok (st, objs) ∧ s' = ⟨objs, s.fins ++ [⟨t, st⟩]⟩ ∧
      ∀ o, e ≠ .named .array o ∧ e ≠ .moved .array o := by
  unfold FinState.add at h
  split at h
  · cases h
  · cases h
  · rename_i h1 h2
    cases hs : store false s.objs e with
    | error x => rw [hs] at h; cases h
    | ok r => rw [hs] at h; cases h; exact ⟨r.1, r.2, rfl, rfl, fun o => ⟨fun hh => h1 o hh, fun hh => h2 o hh⟩⟩

/-- A call: the answer is what was stored, and only the caller may change that. -/
theorem call_ok {s s' : FinState V} {f : Nat} {x : Fin V} {use : Use V} {a : Ans V}
    (h : s.call f x use = .ok (s', a)) :
    (∀ v, x.stored.read s.objs = .ok v → a = if x.throws then .thrown v else .value v) ∧
    (x.stored.read s.objs = .error .unspecified → a = .unspecified) ∧
    (s' = s ∨ x.throws = false ∧ ∃ c, s' = s.put f x c ∧ (FinOp.call f use).alters f) := by
  unfold FinState.call at h
  split at h
  · rename_i ht
    obtain ⟨h1, h2⟩ := answer_ok h
    refine ⟨fun v hv => ?_, fun hu => ?_, Or.inl h1⟩
    · rw [if_pos ht]; exact h2 _ (by rw [hv]; rfl)
    · rw [hu] at h; cases h; rfl
  · rename_i ht
    cases hr : answer s ((x.stored.read s.objs).map Ans.value) with
    | error y => rw [hr] at h; cases h
    | ok r =>
      obtain ⟨s1, b⟩ := r
      obtain ⟨h1, h2⟩ := answer_ok hr
      rw [hr] at h
      have hb : a = b := by
        cases use with
        | value => cases h; rfl
        | reference w => cases w <;> (cases h; rfl)
        | rvalue t => cases h; rfl
      refine ⟨fun v hv => ?_, fun hu => ?_, ?_⟩
      · rw [if_neg ht, hb]; exact h2 _ (by rw [hv]; rfl)
      · rw [hb]; rw [hu] at hr; cases hr; rfl
      · have hf : x.throws = false := by simpa using ht
        cases use with
        | value => cases h; exact Or.inl h1
        | reference w =>
          cases w with
          | none => cases h; exact Or.inl h1
          | some w => cases h; exact Or.inr ⟨hf, some w, rfl, rfl⟩
        | rvalue t =>
          cases h
          by_cases hp : (t && !x.stored.isPlain s.objs) = true
          · rw [if_pos hp]
            have : t = true := by simp at hp; exact hp.1
            subst this
            exact Or.inr ⟨hf, none, rfl, rfl⟩
          · rw [if_neg hp]; exact Or.inl rfl

theorem put_fins {s : FinState V} {f n : Nat} {x : Fin V} {c : Option V} (h : n ≠ f) : (s.put f x c).fins[n]? = s.fins[n]? := by
  unfold FinState.put
  split
  · exact List.getElem?_set_ne (fun hh => h hh.symm)
  · split <;> rfl

theorem put_length {s : FinState V} {f : Nat} {x : Fin V} {c : Option V} : (s.put f x c).fins.length = s.fins.length := by
  unfold FinState.put
  split
  · simp
  · split <;> rfl

/-- What one operation does to the finalizers. -/
theorem fstep_fins {s s' : FinState V} {op : FinOp V} {a : Ans V} (h : s.step op = .ok (s', a)) :
    s'.fins.length = s.fins.length + (if op.makes then 1 else 0) ∧
    ∀ (n : Nat) (x : Fin V), s.fins[n]? = some x → (x.throws = true ∨ ¬ op.alters n) → s'.fins[n]? = some x := by
  have add : ∀ (t : Bool) (e : Expr V), s.add t e = .ok (s', a) →
      s'.fins.length = s.fins.length + 1 ∧ ∀ (n : Nat) (x : Fin V), s.fins[n]? = some x → s'.fins[n]? = some x := by
    intro t e hd
    obtain ⟨st, objs, -, rfl, -⟩ := add_ok hd
    refine ⟨by simp, fun n x hx => ?_⟩
    simp only
    rw [List.getElem?_append_left (List.getElem?_eq_some_iff.mp hx).1]
    exact hx
  cases op with
  | client c =>
    simp only [FinState.step] at h
    cases hc : clientStep s.objs c with
    | error x => rw [hc] at h; cases h
    | ok objs => rw [hc] at h; cases h; exact ⟨rfl, fun n x hx _ => hx⟩
  | returns e =>
    obtain ⟨h1, h2⟩ := add _ _ h
    exact ⟨by simpa [FinOp.makes] using h1, fun n x hx _ => h2 n x hx⟩
  | throws e =>
    cases e with
    | view o => cases h
    | _ =>
      simp only [FinState.step] at h
      obtain ⟨h1, h2⟩ := add _ _ h
      exact ⟨by simpa [FinOp.makes] using h1, fun n x hx _ => h2 n x hx⟩
  | call f use =>
    simp only [FinState.step] at h
    cases hx : s.fins[f]? with
    | none => rw [hx] at h; cases h
    | some x =>
      rw [hx] at h
      obtain ⟨-, -, h3⟩ := call_ok h
      rcases h3 with rfl | ⟨ht, c, rfl, hal⟩
      · exact ⟨rfl, fun n y hy _ => hy⟩
      · refine ⟨by simp [FinOp.makes, put_length], fun n y hy hor => ?_⟩
        by_cases hn : n = f
        · subst hn
          rw [hx] at hy
          cases hy
          rcases hor with hor | hor
          · rw [ht] at hor; cases hor
          · exact (hor hal).elim
        · rw [put_fins hn]; exact hy

theorem frun_fins {ops : List (FinOp V)} {s s' : FinState V} {as : List (Ans V)} (h : runFins s ops = .ok (s', as)) :
    s'.fins.length = s.fins.length + finsMade ops ∧
    ∀ (n : Nat) (x : Fin V), s.fins[n]? = some x → (x.throws = true ∨ ∀ op ∈ ops, ¬ op.alters n) → s'.fins[n]? = some x := by
  induction ops generalizing s as with
  | nil => cases h; exact ⟨by simp [finsMade], fun n x hx _ => hx⟩
  | cons op ops ih =>
    obtain ⟨s1, a, as1, h1, h2, h3⟩ := fins_cons h
    obtain ⟨h4, h5⟩ := ih h2
    obtain ⟨h6, h7⟩ := fstep_fins h1
    refine ⟨by simp only [finsMade, List.countP_cons] at *; omega, fun n x hx hor => h5 n x (h7 n x hx ?_) ?_⟩
    · exact hor.imp id (fun hh => hh op (by simp))
    · exact hor.imp id (fun hh p hp => hh p (by simp [hp]))

/-- A finalizer keeps its kind: `throws` or not, and what it refers to or that it owns something of kind `k`. -/
def SameShape (x y : Fin V) : Prop :=
  y.throws = x.throws ∧ match x.stored with
    | .own k _ => ∃ v, y.stored = .own k v
    | .ref o => y.stored = .ref o

theorem SameShape.refl (x : Fin V) : SameShape x x := by
  refine ⟨rfl, ?_⟩
  split
  · exact ⟨_, by assumption⟩
  · assumption

theorem SameShape.trans {x y z : Fin V} (h : SameShape x y) (h' : SameShape y z) : SameShape x z := by
  obtain ⟨h1, h2⟩ := h
  obtain ⟨h3, h4⟩ := h'
  refine ⟨h3.trans h1, ?_⟩
  cases hx : x.stored with
  | own k v => rw [hx] at h2; obtain ⟨w, hw⟩ := h2; rw [hw] at h4; exact h4
  | ref o => rw [hx] at h2; simp only at h2; rw [h2] at h4; exact h4

theorem fstep_shape {s s' : FinState V} {op : FinOp V} {a : Ans V} (h : s.step op = .ok (s', a)) {n : Nat} {x : Fin V}
    (hx : s.fins[n]? = some x) : ∃ y, s'.fins[n]? = some y ∧ SameShape x y := by
  by_cases ha : op.alters n
  · cases op with
    | call f use =>
      have hf : f = n := by
        cases use with
        | value => exact ha.elim
        | reference w => cases w with
          | none => exact ha.elim
          | some w => exact ha
        | rvalue t => cases t with
          | false => exact ha.elim
          | true => exact ha
      subst hf
      simp only [FinState.step, hx] at h
      obtain ⟨-, -, rfl | ⟨ht, c, rfl, -⟩⟩ := call_ok h
      · exact ⟨x, hx, .refl x⟩
      · have hl := (List.getElem?_eq_some_iff.mp hx).1
        unfold FinState.put
        cases hst : x.stored with
        | own k v =>
          refine ⟨⟨x.throws, .own k c⟩, List.getElem?_set_self hl, rfl, ?_⟩
          rw [hst]; exact ⟨c, rfl⟩
        | ref o =>
          refine ⟨x, ?_, .refl x⟩
          simp only
          split <;> exact hx
    | _ => exact ha.elim
  · exact ⟨x, (fstep_fins h).2 n x hx (Or.inr ha), .refl x⟩

theorem frun_shape {ops : List (FinOp V)} {s s' : FinState V} {as : List (Ans V)} (h : runFins s ops = .ok (s', as))
    {n : Nat} {x : Fin V} (hx : s.fins[n]? = some x) : ∃ y, s'.fins[n]? = some y ∧ SameShape x y := by
  induction ops generalizing s as x with
  | nil => cases h; exact ⟨x, hx, .refl x⟩
  | cons op ops ih =>
    obtain ⟨s1, a, as1, h1, h2, h3⟩ := fins_cons h
    obtain ⟨y, hy, hs⟩ := fstep_shape h1 hx
    obtain ⟨z, hz, hs'⟩ := ih h2 hy
    exact ⟨z, hz, hs.trans hs'⟩

/-- The assignment just before. -/
theorem assign_holds {objs objs' : List (Obj V)} {o : Nat} {v : V} (h : clientStep objs (.assign o v) = .ok objs') :
    ∃ k, objs'[o]? = some ⟨k, .holds v⟩ := by
  simp only [clientStep] at h
  cases hx : object objs o with
  | error x => rw [hx] at h; cases h
  | ok x =>
    rw [hx] at h
    cases h
    exact ⟨x.kind, List.getElem?_set_self (List.getElem?_eq_some_iff.mp (object_ok hx).1).1⟩

/-- What a new finalizer stores. -/
theorem made_fin {pre : List (FinOp V)} {cs : List (ClientOp V)} {e : Expr V} {v : V} {t : Bool} {op : FinOp V}
    (hop : op = if t then .throws e else .returns e) (hv : HasValue cs e v) {s : FinState V} {as : List (Ans V)}
    (h : runFins FinState.init (pre ++ cs.map .client ++ [op]) = .ok (s, as)) :
    ∃ k, s.fins[finsMade pre]? = some ⟨t, .own k (some v)⟩ ∧
      (∀ k', (e = .temp k' v ∨ ∃ o, e = .named k' o ∨ e = .moved k' o) → k = k') := by
  obtain ⟨s2, as2, as3, h1, h2, -⟩ := fins_append h
  obtain ⟨s1, as1, as1', h3, h4, -⟩ := fins_append h1
  have hl1 := (frun_fins h3).1
  obtain ⟨s4, a, as4, h5, h6, -⟩ := fins_cons h2
  cases h6
  have hadd : s2.add t e = .ok (s, a) := by
    cases t
    · subst hop; exact h5
    · subst hop
      simp only [if_true] at h5
      cases hv <;> exact h5
  obtain ⟨st, objs, hst, rfl, hna⟩ := add_ok hadd
  have hl2 : s2.fins.length = finsMade pre := by
    have : s2.fins.length = _ := (frun_fins h4).1
    have hz : finsMade (cs.map FinOp.client) = 0 := by
      simp only [finsMade, List.countP_map]
      exact List.countP_eq_zero.mpr (fun _ _ => by simp [FinOp.makes])
    simp only [FinState.init, List.length_nil] at hl1
    omega
  have hget : ∀ y : Fin V, (s2.fins ++ [y])[finsMade pre]? = some y := by
    intro y; rw [← hl2]; simp
  have hobj : ∀ o, cs = [.assign o v] → ∃ k, s2.objs[o]? = some ⟨k, .holds v⟩ := by
    rintro o rfl
    obtain ⟨s5, a5, as5, h7, h8, -⟩ := fins_cons h4
    cases h8
    simp only [FinState.step] at h7
    cases hc : clientStep s1.objs (.assign o v) with
    | error x => rw [hc] at h7; cases h7
    | ok objs' => rw [hc] at h7; cases h7; exact assign_holds hc
  cases hv with
  | temp k =>
    simp only [store] at hst
    split at hst
    · cases hst
    · cases hst; exact ⟨k, hget _, by grind⟩
  | named k o =>
    obtain ⟨k', hk'⟩ := hobj o rfl
    have hna' : k ≠ .array := fun hh => (hna o).1 (by rw [hh])
    simp only [store, object, hk', bind, Except.bind, Bool.false_or, hna', decide_false, Cell.value, Bool.false_eq_true,
      if_false] at hst
    split at hst
    · cases hst
    · cases hst; exact ⟨k, hget _, by grind⟩
  | moved k o =>
    obtain ⟨k', hk'⟩ := hobj o rfl
    have hna' : k ≠ .array := fun hh => (hna o).2 (by rw [hh])
    simp only [store, object, hk', bind, Except.bind, hna', Cell.value, if_false] at hst
    split at hst
    · cases hst
    · cases hst; exact ⟨k, hget _, by grind⟩

end Mimic.Capture
