import Verif.Proofs.CaptureFin

/-!
# C47, C48, C53: what matchers and finalizers keep of the client's objects
-/

set_option autoImplicit false

namespace Mimic.Capture

variable {V : Type} {elems : V → List V} {print : V → String}

/-! ## C48: the meaning of a matcher is fixed when it is made -/

/-- C48, partial: as long as objects that matchers refer to are left alone, and no matcher is given to `each_element` or
`any_element` by its name, all matchers of a history, however they are derived from each other, answer according to
the values that their ingredients had when they were made. Missing: C48_follows, C48_dangles and C47_emptied say what
happens otherwise. -/
theorem C48_value_semantics_partial {ops : List (Op V)} {s : State V} {as : List (Ans V)}
    (h : run elems print State.init ops = .ok (s, as)) (hn : ∀ op ∈ ops, ¬ op.nestsNamed) (ht : LeftAlone ops) :
    AsExpected (expected elems print Ideal.init ops) as :=
  (Inv.init ops).run h hn ht

/-- C48, partial: as long as objects that matchers refer to are left alone, no matcher reads a dead object. -/
theorem C48_safe_partial {ops : List (Op V)} (ht : LeftAlone ops) :
    run elems print State.init ops ≠ .error .dangling :=
  (Inv.init ops).runSafe ht

/-- C48: a matcher that was made from a value (not from the name of a range by a range matcher, not from an array or a
view) compares with that value whatever happens later, as long as it is not itself moved from or destroyed. -/
theorem C48_kept {pre post : List (Op V)} {cs : List (ClientOp V)} {f : Factory V} {e : Expr V} {v t : V} {s : State V}
    {as : List (Ans V)} (hv : HasValue cs e v) (ho : ∀ o, ¬ (Op.make f e).refers o)
    (hp : ∀ op ∈ post, ¬ op.consumes (made pre))
    (h : run elems print State.init (pre ++ cs.map .client ++ [.make f e] ++ post ++ [.test (made pre) t]) = .ok (s, as)) :
    as.getLast? = some (.truth (f.rel t v)) := by
  obtain ⟨s4, as4, a5, h4, h5, rfl⟩ := run_append h
  obtain ⟨s3, as3, a4, h3, h4', -⟩ := run_append h4
  obtain ⟨s2, as2, a3, h2, h3', -⟩ := run_append h3
  obtain ⟨s1, as1, a2, h1, h2', -⟩ := run_append h2
  have hl1 : s1.mats.length = made pre := by simpa [State.init] using (run_length h1).1
  have hz : made (cs.map (Op.client (V := V))) = 0 := by
    simp only [made, List.countP_map]
    exact List.countP_eq_zero.mpr (fun _ _ => by simp [Op.makes])
  have hl2 : s2.mats.length = made pre := by
    have : s2.mats.length = _ := (run_length h2').1
    omega
  obtain ⟨s3', a, as', hs, hr, -⟩ := run_cons h3'
  cases hr
  simp only [State.step] at hs
  cases hc : store f.all s2.objs e with
  | error x => rw [hc] at hs; cases hs
  | ok r =>
    rw [hc] at hs
    cases hs
    have hobj : ∀ o, cs = [.assign o v] → ∃ k, s2.objs[o]? = some ⟨k, .holds v⟩ := by
      rintro o rfl
      obtain ⟨s5, a5, as5, h7, h8, -⟩ := run_cons h2'
      cases h8
      simp only [State.step] at h7
      cases hcl : clientStep s1.objs (.assign o v) with
      | error x => rw [hcl] at h7; cases h7
      | ok objs' => rw [hcl] at h7; cases h7; exact assign_holds hcl
    have hown : ∃ k, r.1 = .own k (some v) := by
      refine store_own (all := f.all) hc ?_
      cases hv with
      | temp k => exact Or.inl ⟨k, rfl⟩
      | named k o =>
        refine Or.inr ⟨k, o, Or.inl ⟨rfl, ?_⟩, hobj o rfl⟩
        have := ho o
        simp only [Op.refers, true_and, not_or] at this
        exact ⟨by simpa using this.1, this.2⟩
      | moved k o =>
        refine Or.inr ⟨k, o, Or.inr ⟨rfl, ?_⟩, hobj o rfl⟩
        have := ho o
        simpa only [Op.refers, true_and] using this
    obtain ⟨k, hk⟩ := hown
    have hm : s4.mats[made pre]? = some (some (f.mat r.1)) := by
      rw [run_mat h4' hp (by simp [hl2])]
      simp [← hl2]
    obtain ⟨s6, a6, as6, h6, h7, rfl⟩ := run_cons h5
    cases h7
    simp only [State.step, State.mat, hm] at h6
    obtain ⟨-, h8⟩ := answer_ok h6
    have := h8 (.truth (f.rel t v)) (by
      rw [(Means.make (elems := elems) (print := print) (objs := s4.objs) (f := f) (a := r.1) (v := v)
        (by rw [hk]; rfl)).accepts t]
      rfl)
    simp [this]

/-- C48: a matcher that refers to an object compares with what this object holds at the time of the call, whatever it held
when the matcher was made. -/
theorem C48_follows {pre post : List (Op V)} {f : Factory V} {e : Expr V} {o : Nat} {w t : V} {s : State V}
    {as : List (Ans V)} (ho : (Op.make f e).refers o)
    (h : run elems print State.init
      (pre ++ [.make f e] ++ post ++ [.client (.assign o w), .test (made pre) t]) = .ok (s, as)) :
    as.getLast? = some (.truth (f.rel t w)) := by
  obtain ⟨s3, as3, a4, h3, h4, rfl⟩ := run_append h
  obtain ⟨s2, as2, a3, h2, h3', -⟩ := run_append h3
  obtain ⟨s1, as1, a2, h1, h2', -⟩ := run_append h2
  have hl1 : s1.mats.length = made pre := by simpa [State.init] using (run_length h1).1
  obtain ⟨s2', a, as', hs, hr, -⟩ := run_cons h2'
  cases hr
  simp only [State.step] at hs
  cases hc : store f.all s1.objs e with
  | error x => rw [hc] at hs; cases hs
  | ok r =>
    rw [hc] at hs
    cases hs
    have hst := store_ref hc ho
    have href := run_refers (n := made pre) (o := o) (rel := f.rel) h3' (by simp [hl1]) (by
      intro x hx
      simp only [← hl1, List.getElem?_concat_length, Option.some.injEq] at hx
      subst hx
      exact ⟨rfl, hst, rfl, rfl⟩)
    obtain ⟨s5, a5, as5, h5, h6, rfl⟩ := run_cons h4
    obtain ⟨s6, a6, as6, h7, h8, rfl⟩ := run_cons h6
    cases h8
    simp only [State.step] at h5
    cases hcl : clientStep s3.objs (.assign o w) with
    | error x => rw [hcl] at h5; cases h5
    | ok objs =>
      rw [hcl] at h5
      cases h5
      obtain ⟨k, hk⟩ := assign_holds hcl
      simp only [State.step] at h7
      cases hm : State.mat (V := V) ⟨objs, s3.mats⟩ (made pre) with
      | error x => rw [hm] at h7; cases h7
      | ok x =>
        rw [hm] at h7
        obtain ⟨-, h9⟩ := answer_ok h7
        have := h9 (.truth (f.rel t w)) (by
          rw [(href x (mat_ok hm)).eval]
          simp [Stored.read, hk, Except.map])
        simp [this]

/-- C48: using a matcher that refers to an object after its life is undefined. -/
theorem C48_dangles {pre post : List (Op V)} {f : Factory V} {e : Expr V} {o : Nat} {t : V} {s : State V}
    {as : List (Ans V)} (ho : (Op.make f e).refers o)
    (h : run elems print State.init (pre ++ [.make f e] ++ post ++ [.client (.destroy o)]) = .ok (s, as)) :
    s.step elems print (.test (made pre) t) = .error .dangling ∨ s.mats[made pre]? = some none := by
  obtain ⟨s3, as3, a4, h3, h4, rfl⟩ := run_append h
  obtain ⟨s2, as2, a3, h2, h3', -⟩ := run_append h3
  obtain ⟨s1, as1, a2, h1, h2', -⟩ := run_append h2
  have hl1 : s1.mats.length = made pre := by simpa [State.init] using (run_length h1).1
  obtain ⟨s2', a, as', hs, hr, -⟩ := run_cons h2'
  cases hr
  simp only [State.step] at hs
  cases hc : store f.all s1.objs e with
  | error x => rw [hc] at hs; cases hs
  | ok r =>
    rw [hc] at hs
    cases hs
    have hst := store_ref hc ho
    have href := run_refers (n := made pre) (o := o) (rel := f.rel) h3' (by simp [hl1]) (by
      intro x hx
      simp only [← hl1, List.getElem?_concat_length, Option.some.injEq] at hx
      subst hx
      exact ⟨rfl, hst, rfl, rfl⟩)
    have hlen : made pre < s3.mats.length := by
      have : s3.mats.length = _ := (run_length h3').1
      simp [hl1] at this
      omega
    obtain ⟨s5, a5, as5, h5, h6, rfl⟩ := run_cons h4
    cases h6
    simp only [State.step] at h5
    cases hcl : clientStep s3.objs (.destroy o) with
    | error x => rw [hcl] at h5; cases h5
    | ok objs =>
      rw [hcl] at h5
      cases h5
      have hk : ∃ k, objs[o]? = some ⟨k, .gone⟩ := by
        simp only [clientStep] at hcl
        cases hx : object s3.objs o with
        | error x => rw [hx] at hcl; cases hcl
        | ok x =>
          rw [hx] at hcl
          cases hcl
          exact ⟨x.kind, List.getElem?_set_self (List.getElem?_eq_some_iff.mp (object_ok hx).1).1⟩
      obtain ⟨k, hk⟩ := hk
      cases hm : s3.mats[made pre]? with
      | none => rw [List.getElem?_eq_none_iff] at hm; omega
      | some y =>
        cases y with
        | none => exact Or.inr rfl
        | some x =>
          left
          simp only [State.step, State.mat, hm]
          have he := (href x hm).eval (elems := elems) objs t
          simp only [Stored.read, hk, Except.map] at he
          simp only [bind, Except.bind, he, Except.map, answer]

/-- C48: a matcher that is made from `std::move(object)` takes the value away: a matcher that refers to the object, or gets
a copy of it, then has nothing to compare with. -/
theorem C48_given_away {pre : List (Op V)} {f g : Factory V} {e : Expr V} {o : Nat} {t : V} {s : State V}
    {as : List (Ans V)} (he : e = .view o ∨ e = .named .owning o)
    (h : run elems print State.init (pre ++ [.make f (.moved .owning o), .make g e, .test (made pre + 1) t]) = .ok (s, as)) :
    as.getLast? = some .unspecified := by
  obtain ⟨s1, as1, a2, h1, h2, rfl⟩ := run_append h
  have hl1 : s1.mats.length = made pre := by simpa [State.init] using (run_length h1).1
  obtain ⟨s2, b1, bs1, h3, h4, rfl⟩ := run_cons h2
  obtain ⟨s3, b2, bs2, h5, h6, rfl⟩ := run_cons h4
  obtain ⟨s4, b3, bs3, h7, h8, rfl⟩ := run_cons h6
  cases h8
  simp only [State.step, store, object] at h3
  have hobj : s2.objs[o]? = some ⟨.owning, .moved⟩ ∧ s2.mats.length = made pre + 1 := by
    rcases hc : s1.objs[o]? with _ | ⟨k, c⟩
    · rw [hc] at h3; cases h3
    · rw [hc] at h3
      have hlt := (List.getElem?_eq_some_iff.mp hc).1
      cases c <;> cases k <;>
        simp [bind, Except.bind, pure, Except.pure, Cell.value, Cell.left] at h3 <;>
        (obtain ⟨rfl, -⟩ := h3; simp [hl1, hlt])
  obtain ⟨ho, hl2⟩ := hobj
  have hm : s3.objs[o]? = some ⟨.owning, .moved⟩ ∧
      ∃ a, s3.mats[made pre + 1]? = some (some (g.mat a)) ∧ a.read s3.objs = .error .unspecified := by
    have hix : ∀ a, (s2.mats ++ [some (g.mat a)])[made pre + 1]? = some (some (g.mat a)) := by
      intro a
      rw [← hl2]; simp
    rcases he with rfl | rfl
    · simp [State.step, store, object, ho, bind, Except.bind, pure, Except.pure] at h5
      obtain ⟨rfl, -⟩ := h5
      exact ⟨ho, _, hix _, by simp [Stored.read, ho]⟩
    · cases ha : g.all <;>
        simp [State.step, store, object, ho, ha, bind, Except.bind, pure, Except.pure, Cell.value] at h5 <;>
        (obtain ⟨rfl, -⟩ := h5; exact ⟨ho, _, hix _, by simp [Stored.read, ho]⟩)
  obtain ⟨-, a, hm, hread⟩ := hm
  simp [State.step, State.mat, hm, Mat.eval, Factory.mat, Mat.evalLayers, Mat.evalBase, hread, bind, Except.bind,
    Except.map, answer] at h7
  simp [← h7.2]

/-- C48: how the matchers describe themselves and their negations, for every value. -/
theorem C48_texts (rel : V → V → Bool) (v : V) :
    ((eq rel).meaning print v).text = some ("== " ++ print v) ∧
    ((eq rel).meaning print v).opposite = some ("!= " ++ print v) ∧
    ((strEq rel).meaning print v).text = some ("is equal to " ++ print v) ∧
    ((strEq rel).meaning print v).opposite = some ("is not equal to " ++ print v) ∧
    ((strStartsWith rel).meaning print v).text = some ("starts with " ++ print v) ∧
    ((strStartsWith rel).meaning print v).opposite = some ("starts not with " ++ print v) ∧
    ((rangeEq rel).meaning print v).text = some ("elements are " ++ print v) ∧
    ((rangeEq rel).meaning print v).opposite = some ("elements are not " ++ print v) ∧
    ((rangeUnorderedEq rel).meaning print v).text = some ("is a permutation of " ++ print v) ∧
    ((rangeUnorderedEq rel).meaning print v).opposite = some ("is not a permutation of " ++ print v) := by
  simp [Factory.meaning, eq, strEq, strStartsWith, rangeEq, rangeUnorderedEq, vformat, vformatChars, String.ext_iff]

/-- C48: the matchers for single values, strings and predicates refer to nothing when they are made from a variable, a
moved variable or a temporary, unless it is a character array; so C48_kept applies to them. The range matchers refer to a
range that is given by its name. -/
theorem C48_copied (rel : V → V → Bool) (d i : String) (k : Kind) (o : Nat) (hk : k ≠ .array) :
    (∀ f ∈ [eq rel, strEq rel, strStartsWith rel, predicate rel d i],
      ∀ o', ¬ (Op.make f (.named k o)).refers o' ∧ ¬ (Op.make f (.moved k o)).refers o' ∧
        ∀ v, ¬ (Op.make f (.temp k v)).refers o') ∧
    (∀ f ∈ [rangeEq rel, rangeUnorderedEq rel], (Op.make f (.named k o)).refers o ∧
      ∀ o', ¬ (Op.make f (.moved k o)).refers o' ∧ ∀ v, ¬ (Op.make f (.temp k v)).refers o') := by
  simp [Op.refers, eq, strEq, strStartsWith, predicate, rangeEq, rangeUnorderedEq, hk]

/-- C48: the description of a `predicate` matcher is made from the client's text alone, whatever happens to the predicate
object: it can be asked for even when the predicate was given as a `std::reference_wrapper` to an object that is gone. -/
theorem C48_predicate_text {pre : List (Op V)} {cs : List (ClientOp V)} {apply : V → V → Bool} {d i : String} {e : Expr V}
    {s : State V} {as : List (Ans V)}
    (h : run elems print State.init (pre ++ [.make (predicate apply d i) e] ++ cs.map .client ++ [.describe (made pre)])
      = .ok (s, as)) :
    as.getLast? = some (.text (vformat d [])) := by
  obtain ⟨s3, as3, a4, h3, h4, rfl⟩ := run_append h
  obtain ⟨s2, as2, a3, h2, h3', -⟩ := run_append h3
  obtain ⟨s1, as1, a2, h1, h2', -⟩ := run_append h2
  have hl1 : s1.mats.length = made pre := by simpa [State.init] using (run_length h1).1
  obtain ⟨s2', a, as', hs, hr, -⟩ := run_cons h2'
  cases hr
  simp only [State.step] at hs
  cases hc : store (predicate apply d i).all s1.objs e with
  | error x => rw [hc] at hs; cases hs
  | ok r =>
    rw [hc] at hs
    cases hs
    have hm : s3.mats = s1.mats ++ [some ((predicate apply d i).mat r.1)] := run_client h3'
    obtain ⟨s5, a5, as5, h5, h6, rfl⟩ := run_cons h4
    cases h6
    simp [State.step, State.mat, hm, ← hl1, bind, Except.bind, Factory.mat, Mat.describe, Mat.describeLayers,
      Mat.describeBase, predicate, Shell.describe, answer, Except.map] at h5
    simp [← h5.2]

/-- C48 is not true in general: `matches::range::eq(v)` for a variable `v` changes its meaning when `v` is changed. -/
theorem C48_counterexample :
    ∃ (ops : List (Op (List Nat))) (s : State (List Nat)) (as : List (Ans (List Nat))),
      run (fun l => l.map ([·])) (fun _ => "v") State.init ops = .ok (s, as) ∧ (∀ op ∈ ops, ¬ op.nestsNamed) ∧
      ¬ AsExpected (expected (fun l => l.map ([·])) (fun _ => "v") Ideal.init ops) as := by
  refine ⟨[.client (.object .owning [1, 2]), .make (rangeEq (fun a b => decide (a = b))) (.named .owning 0),
    .client (.assign 0 [3]), .test 0 [1, 2]], _, [.nothing, .nothing, .nothing, .truth false], rfl, ?_, ?_⟩
  · simp [Op.nestsNamed]
  · intro h
    have := h 3 (.truth true) rfl
    simp at this

/-- The history of the examples: `std::string s = "ab"; auto m = eq(s); s = "c"; auto n = each_element(!m);` and then a
range with the elements "c" and "d". -/
def demo : List (Op (List Nat)) :=
  [.client (.object .owning [1, 2]), .make (eq (fun a b => decide (a = b))) (.named .owning 0),
    .client (.assign 0 [3]), .test 0 [1, 2], .invert .constant 0, .nest true .moved 1, .test 2 [3, 4], .describe 2, .describe 0]

/-- Non-vacuity of C48_value_semantics_partial and C48_safe_partial. -/
example : ∃ s as, run (fun l => l.map ([·])) (fun _ => "v") State.init demo = .ok (s, as) ∧
    (∀ op ∈ demo, ¬ op.nestsNamed) ∧ LeftAlone demo ∧
    as = [.nothing, .nothing, .nothing, .truth true, .nothing, .nothing, .truth true,
      .text (some "each el in range: el != v"), .text (some "== v")] ∧
    (expected (fun l => l.map ([·])) (fun _ => "v") Ideal.init demo)[6]? = some (some (.truth true)) := by
  refine ⟨_, _, rfl, by simp [demo, Op.nestsNamed], ?_, rfl, rfl⟩
  intro n k o a b ha hb hn hr
  have : n < 9 := (List.getElem?_eq_some_iff.mp ha).1
  match n, this with
  | 0, _ | 2, _ | 3, _ | 4, _ | 5, _ | 6, _ | 7, _ | 8, _ => cases ha; exact hr.elim
  | 1, _ => cases ha; simp [Op.refers, eq] at hr

/-- Non-vacuity of C48_kept: the variable is changed after the matcher was made from it. -/
example : ∃ s as, run (fun l => l.map ([·])) (fun _ => "v") State.init
    ([.client (.object .owning [0])] ++ [ClientOp.assign 0 [1, 2]].map Op.client
      ++ [.make (strStartsWith (fun t p => p.isPrefixOf t)) (.named .owning 0)]
      ++ [.client (.assign 0 [7]), .keep .named 0, .client (.destroy 0)] ++ [.test 0 [1, 2, 3]]) = .ok (s, as) ∧
    as.getLast? = some (.truth true) := ⟨_, _, rfl, rfl⟩

/-- Non-vacuity of C48_follows: a string matcher for a character buffer that is overwritten later. -/
example : ∃ s as, run (fun l => l.map ([·])) (fun _ => "v") State.init
    ([.client (.object .array [1, 2])] ++ [.make (strEq (fun a b => decide (a = b))) (.named .array 0)] ++ [.keep .moved 0]
      ++ [.client (.assign 0 [9]), .test 0 [9]]) = .ok (s, as) ∧ as.getLast? = some (.truth true) := ⟨_, _, rfl, rfl⟩

/-- Non-vacuity of C48_dangles. -/
example : ∃ s as, run (fun l => l.map ([·])) (fun _ => "v") State.init
    ([.client (.object .owning [1, 2])] ++ [.make (rangeUnorderedEq (fun a b => decide (a = b))) (.named .owning 0)] ++ []
      ++ [.client (.destroy 0)]) = .ok (s, as) ∧ (s.mats[0]?).join.isSome = true := ⟨_, _, rfl, rfl⟩

/-- Non-vacuity of C48_given_away. -/
example : ∃ s as, run (fun l => l.map ([·])) (fun _ => "v") State.init
    ([.client (.object .owning [1])] ++ [.make (eq (fun a b => decide (a = b))) (.moved .owning 0),
      .make (rangeEq (fun a b => decide (a = b))) (.view 0), .test (0 + 1) [1]]) = .ok (s, as) ∧
    as = [.nothing, .nothing, .nothing, .unspecified] := ⟨_, _, rfl, rfl⟩

/-- Non-vacuity of C48_predicate_text: the predicate is an object that is gone when the description is asked for. -/
example : ∃ s as, run (fun l => l.map ([·])) (fun _ => "v") State.init
    ([.client (.object .owning [1])] ++ [.make (predicate (fun f t => decide (f = t)) "is good" "is bad") (.view 0)]
      ++ [ClientOp.destroy 0].map .client ++ [.describe 0]) = .ok (s, as) ∧
    as = [.nothing, .nothing, .nothing, .text (some "is good")] := ⟨_, _, rfl, rfl⟩

/-! ## C47: a matcher that was not given away can be used again -/

/-- C47: making other matchers from matchers changes no matcher, as long as nothing is moved and no matcher is named in
`each_element` or `any_element`: questions have the same answers as if the other matcher had not been made. -/
theorem C47_unchanged_partial {pre : List (Op V)} {op q : Op V} {n : Nat} {s s' : State V} {as as' : List (Ans V)}
    (hn : n < made pre) (hd : op.derives = true) (hc : ¬ op.consumes n) (hq : q = .describe n ∨ ∃ t, q = .test n t)
    (h : run elems print State.init (pre ++ [op, q]) = .ok (s, as))
    (h' : run elems print State.init (pre ++ [q]) = .ok (s', as')) :
    as.getLast? = as'.getLast? := by
  obtain ⟨s1, as1, a2, h1, h2, rfl⟩ := run_append h
  obtain ⟨s1', as1', a2', h1', h2', rfl⟩ := run_append h'
  rw [h1] at h1'
  cases h1'
  obtain ⟨s3, a3, as3, h3, h4, rfl⟩ := run_cons h2
  obtain ⟨s5, a5, as5, h5, h6, rfl⟩ := run_cons h4
  obtain ⟨s5', a5', as5', h5', h6', rfl⟩ := run_cons h2'
  cases h6
  cases h6'
  have hl : s1.mats.length = made pre := by simpa [State.init] using (run_length h1).1
  have hm := step_mat h3 hc (by omega)
  have hobj : s3.objs = s1.objs := by
    have derive : ∀ (m : Nat) (c : Bool) (g : Mat V → Mat V), s1.derive m c g = .ok (s3, a3) → s3.objs = s1.objs := by
      intro m c g hd
      unfold State.derive at hd
      cases hm : s1.mat m with
      | error x => rw [hm] at hd; cases hd
      | ok x => rw [hm] at hd; cases hd; rfl
    cases op with
    | nest each how m =>
      cases how
      · exact derive _ _ _ h3
      · cases h3
      · exact derive _ _ _ h3
    | invert how m => exact derive _ _ _ h3
    | keep how m => exact derive _ _ _ h3
    | _ => cases hd
  have hmat : s3.mat n = s1.mat n := by simp only [State.mat, hm]
  have key : a5 = a5' := by
    rcases hq with rfl | ⟨t, rfl⟩
    · simp only [State.step, hmat, hobj] at h5 h5'
      cases hx : s1.mat n with
      | error x => rw [hx] at h5; cases h5
      | ok x =>
        rw [hx] at h5 h5'
        simp only [bind, Except.bind] at h5 h5'
        exact answer_same h5 h5'
    · simp only [State.step, hmat, hobj] at h5 h5'
      cases hx : s1.mat n with
      | error x => rw [hx] at h5; cases h5
      | ok x =>
        rw [hx] at h5 h5'
        simp only [bind, Except.bind] at h5 h5'
        exact answer_same h5 h5'
  simp [key]

/-- C47 is violated: a matcher that was named in `each_element` or `any_element` has lost its description. -/
theorem C47_emptied {pre : List (Op V)} {each : Bool} {n : Nat} {s : State V} {as : List (Ans V)}
    (h : run elems print State.init (pre ++ [.nest each .named n, .describe n]) = .ok (s, as)) :
    as.getLast? = some .unspecified := by
  obtain ⟨s1, as1, a2, h1, h2, rfl⟩ := run_append h
  obtain ⟨s3, a3, as3, h3, h4, rfl⟩ := run_cons h2
  obtain ⟨s5, a5, as5, h5, h6, rfl⟩ := run_cons h4
  cases h6
  simp only [State.step, State.derive] at h3
  cases hm : s1.mat n with
  | error x => rw [hm] at h3; cases h3
  | ok x =>
    rw [hm] at h3
    cases h3
    have hx := mat_ok hm
    have hl := (List.getElem?_eq_some_iff.mp hx).1
    have hm' : (s1.mats.set n (some x.left) ++ [some (x.nest each)])[n]? = some (some x.left) := by
      rw [List.getElem?_append_left (by simpa using hl), List.getElem?_set_self hl]
    simp only [State.step, State.mat, if_true, hm'] at h5
    cases hres : x.left.describe s1.objs print with
    | ok y => exact (left_describe x s1.objs _ y hres).elim
    | error y =>
      simp only [bind, Except.bind, hres, Except.map] at h5
      simp [answer_unspecified h5]

/-- C47 is violated: a matcher with a stored value that moving takes away (a `std::string`, a `std::vector`) does not even
match any more after it was named in `each_element` or `any_element`. -/
theorem C47_lost {pre : List (Op V)} {cs : List (ClientOp V)} {f : Factory V} {e : Expr V} {v t : V} {each : Bool}
    {s : State V} {as : List (Ans V)} (hv : HasValue cs e v) (ho : ∀ o, ¬ (Op.make f e).refers o)
    (hk : (∃ o, e = .named .owning o) ∨ (∃ o, e = .moved .owning o) ∨ e = .temp .owning v)
    (h : run elems print State.init
      (pre ++ cs.map .client ++ [.make f e] ++ [.nest each .named (made pre), .test (made pre) t]) = .ok (s, as)) :
    as.getLast? = some .unspecified := by
  obtain ⟨s3, as3, a4, h3, h4, rfl⟩ := run_append h
  obtain ⟨s2, as2, a3, h2, h3', -⟩ := run_append h3
  obtain ⟨s1, as1, a2, h1, h2', -⟩ := run_append h2
  have hl1 : s1.mats.length = made pre := by simpa [State.init] using (run_length h1).1
  have hz : made (cs.map (Op.client (V := V))) = 0 := by
    simp only [made, List.countP_map]
    exact List.countP_eq_zero.mpr (fun _ _ => by simp [Op.makes])
  have hl2 : s2.mats.length = made pre := by
    have : s2.mats.length = _ := (run_length h2').1
    omega
  obtain ⟨s3', a, as', hs, hr, -⟩ := run_cons h3'
  cases hr
  simp only [State.step] at hs
  cases hc : store f.all s2.objs e with
  | error x => rw [hc] at hs; cases hs
  | ok r =>
    rw [hc] at hs
    cases hs
    have hown : ∃ w, r.1 = .own .owning w := by
      rcases hk with ⟨o, rfl⟩ | ⟨o, rfl⟩ | rfl
      · have hall : f.all = false := by
          have := ho o
          simp only [Op.refers, true_and, not_or] at this
          simpa using this.1
        simp only [store, hall] at hc
        cases hx : object s2.objs o with
        | error x => rw [hx] at hc; cases hc
        | ok x =>
          rw [hx] at hc
          simp only [bind, Except.bind] at hc
          split at hc
          · cases hc
          · cases hval : x.cell.value with
            | error y => rw [hval] at hc; cases hc
            | ok w => rw [hval] at hc; cases hc; exact ⟨w, rfl⟩
      · simp only [store] at hc
        cases hx : object s2.objs o with
        | error x => rw [hx] at hc; cases hc
        | ok x =>
          rw [hx] at hc
          simp only [bind, Except.bind] at hc
          split at hc
          · cases hc
          · cases hval : x.cell.value with
            | error y => rw [hval] at hc; cases hc
            | ok w => rw [hval] at hc; cases hc; exact ⟨w, rfl⟩
      · cases hc; exact ⟨some v, rfl⟩
    obtain ⟨w, hw⟩ := hown
    obtain ⟨s5, a5, as5, h5, h6, rfl⟩ := run_cons h4
    obtain ⟨s6, a6, as6, h7, h8, rfl⟩ := run_cons h6
    cases h8
    have hm : State.mat (V := V) ⟨r.2, s2.mats ++ [some (f.mat r.1)]⟩ (made pre) = .ok (f.mat r.1) := by
      simp [State.mat, ← hl2]
    simp only [State.step, State.derive, hm] at h5
    cases h5
    have hm' : ((s2.mats ++ [some (f.mat r.1)]).set (made pre) (some (f.mat r.1).left) ++ [some ((f.mat r.1).nest each)])[made pre]?
        = some (some (f.mat r.1).left) := by
      rw [List.getElem?_append_left (by simp [hl2]), List.getElem?_set_self (by simp [hl2])]
    simp only [State.step, State.mat, if_true, hm'] at h7
    have he : (f.mat r.1).left.eval elems r.2 t = .error .unspecified := by
      simp [Mat.left, Factory.mat, Mat.eval, Mat.evalLayers, Mat.evalBase, hw, Stored.left, Stored.read, bind, Except.bind]
    simp only [bind, Except.bind, he, Except.map] at h7
    simp [answer_unspecified h7]

/-- C47: a `const` variable is not accepted by `each_element` and `any_element` at all: no program that does this runs. -/
theorem C47_const {ops : List (Op V)} {each : Bool} {n : Nat} (h : Op.nest each .constant n ∈ ops) {s : State V}
    {r : State V × List (Ans V)} : run elems print s ops ≠ .ok r := by
  intro hr
  obtain ⟨xs, ys, rfl⟩ := List.append_of_mem h
  obtain ⟨s1, _, _, _, h2, _⟩ := run_append hr
  obtain ⟨_, _, _, h3, _⟩ := run_cons h2
  cases h3

/-- C47 is not true in general: after `each_element(m)` nothing is known about `m`, although it was not given away. -/
theorem C47_counterexample :
    ∃ (ops : List (Op (List Nat))) (s : State (List Nat)) (as : List (Ans (List Nat))),
      run (fun l => l.map ([·])) (fun _ => "v") State.init ops = .ok (s, as) ∧ LeftAlone ops ∧
      ¬ AsExpected (expected (fun l => l.map ([·])) (fun _ => "v") Ideal.init ops) as := by
  refine ⟨[.make (eq (fun a b => decide (a = b))) (.temp .owning [1]), .nest true .named 0, .test 0 [1]], _,
    [.nothing, .nothing, .unspecified], rfl, ?_, ?_⟩
  · intro n k o a b ha hb hn hr
    have : n < 3 := (List.getElem?_eq_some_iff.mp ha).1
    match n, this with
    | 0, _ | 1, _ | 2, _ => cases ha; exact hr.elim
  · intro h
    have := h 2 (.truth true) rfl
    simp at this

/-- Non-vacuity of C47_unchanged_partial. -/
example : ∃ s s' as as', run (fun l => l.map ([·])) (fun _ => "v") State.init
      ([.make (eq (fun a b => decide (a = b))) (.temp .owning [1])] ++ [.invert .named 0, .test 0 [1]]) = .ok (s, as) ∧
    run (fun l => l.map ([·])) (fun _ => "v") State.init
      ([.make (eq (fun a b => decide (a = b))) (.temp .owning [1])] ++ [.test 0 [1]]) = .ok (s', as') ∧
    as.getLast? = some (.truth true) := ⟨_, _, _, _, rfl, rfl, rfl⟩

/-- Non-vacuity of C47_emptied: even for a plain value, where the matcher still works. -/
example : ∃ s as, run (fun l => l.map ([·])) (fun _ => "v") State.init
    ([.make (eq (fun a b => decide (a = b))) (.temp .plain [1])] ++ [.nest false .named 0, .describe 0, .test 0 [1]])
    = .ok (s, as) ∧ as = [.nothing, .nothing, .unspecified, .truth true] := ⟨_, _, rfl, rfl⟩

/-- Non-vacuity of C47_lost. -/
example : ∃ s as, run (fun l => l.map ([·])) (fun _ => "v") State.init
    ([.client (.object .owning [0])] ++ [ClientOp.assign 0 [1]].map Op.client ++ [.make (eq (fun a b => decide (a = b))) (.named .owning 0)]
      ++ [.nest false .named 0, .test 0 [1]]) = .ok (s, as) := ⟨_, _, rfl⟩

/-! ## C53: what `finally::returns` and `finally::throws` hand out -/

/-- C53: `finally::returns(value)` yields the value at every call, whatever happens to the original, as long as no caller
assigns to, or moves from, a reference that it got from this finalizer. -/
theorem C53_returns {pre post : List (FinOp V)} {cs : List (ClientOp V)} {e : Expr V} {v : V} {use : Use V}
    {s : FinState V} {as : List (Ans V)} (hv : HasValue cs e v) (hp : ∀ op ∈ post, ¬ op.alters (finsMade pre))
    (h : runFins FinState.init (pre ++ cs.map .client ++ [.returns e] ++ post ++ [.call (finsMade pre) use]) = .ok (s, as)) :
    as.getLast? = some (.value v) := by
  obtain ⟨s2, as2, a3, h2, h3, rfl⟩ := fins_append h
  obtain ⟨s1, as1, a2, h1, h2', -⟩ := fins_append h2
  obtain ⟨k, hk, -⟩ := made_fin (t := false) rfl hv h1
  have hf := (frun_fins h2').2 _ _ hk (Or.inr hp)
  obtain ⟨s4, a4, as4, h4, h5, rfl⟩ := fins_cons h3
  cases h5
  simp only [FinState.step, hf] at h4
  have := (call_ok h4).1 v rfl
  simp [this]

/-- C53: `finally::throws(exception)` throws the same at every call, whatever happens. -/
theorem C53_throws {pre post : List (FinOp V)} {cs : List (ClientOp V)} {e : Expr V} {v : V} {use : Use V}
    {s : FinState V} {as : List (Ans V)} (hv : HasValue cs e v)
    (h : runFins FinState.init (pre ++ cs.map .client ++ [.throws e] ++ post ++ [.call (finsMade pre) use]) = .ok (s, as)) :
    as.getLast? = some (.thrown v) := by
  obtain ⟨s2, as2, a3, h2, h3, rfl⟩ := fins_append h
  obtain ⟨s1, as1, a2, h1, h2', -⟩ := fins_append h2
  obtain ⟨k, hk, -⟩ := made_fin (t := true) rfl hv h1
  have hf := (frun_fins h2').2 _ _ hk (Or.inl rfl)
  obtain ⟨s4, a4, as4, h4, h5, rfl⟩ := fins_cons h3
  cases h5
  simp only [FinState.step, hf] at h4
  have := (call_ok h4).1 v rfl
  simp [this]

/-- C53: a mock that returns a reference gives the caller access to the stored value (or to the object inside of the
`std::reference_wrapper`): what a caller assigns is returned by the next call. -/
theorem C53_reference {pre post : List (FinOp V)} {e : Expr V} {w : V} {use : Use V} {s : FinState V} {as : List (Ans V)}
    (h : runFins FinState.init (pre ++ [.returns e] ++ post ++
      [.call (finsMade pre) (.reference (some w)), .call (finsMade pre) use]) = .ok (s, as)) :
    as.getLast? = some (.value w) := by
  obtain ⟨s2, as2, a3, h2, h3, rfl⟩ := fins_append h
  obtain ⟨s1, as1, a2, h1, h2', -⟩ := fins_append h2
  obtain ⟨s0, as0, a1, h0, h1', -⟩ := fins_append h1
  have hl0 : s0.fins.length = finsMade pre := by simpa [FinState.init] using (frun_fins h0).1
  obtain ⟨s1', b1, bs1, g1, g2, -⟩ := fins_cons h1'
  cases g2
  obtain ⟨st, objs, hst, rfl, -⟩ := add_ok g1
  obtain ⟨y, hy, hsh⟩ := frun_shape h2' (n := finsMade pre) (x := ⟨false, st⟩) (by simp [← hl0])
  obtain ⟨s4, a4, as4, h4, h5, rfl⟩ := fins_cons h3
  obtain ⟨s5, a5, as5, h6, h7, rfl⟩ := fins_cons h5
  cases h7
  have hyt : y.throws = false := hsh.1
  have hyl := (List.getElem?_eq_some_iff.mp hy).1
  simp only [FinState.step, hy, FinState.call, hyt, Bool.false_eq_true, if_false] at h4
  cases hr : answer s2 ((y.stored.read s2.objs).map Ans.value) with
  | error z => rw [hr] at h4; cases h4
  | ok r =>
    rw [hr] at h4
    cases h4
    cases hs : y.stored with
    | own k c =>
      have hf : (s2.put (finsMade pre) y (some w)).fins[finsMade pre]? = some ⟨y.throws, .own k (some w)⟩ := by
        simp [FinState.put, hs, List.getElem?_set_self hyl]
      simp only [FinState.step, hf] at h6
      have := (call_ok h6).1 w rfl
      simp [this, hyt]
    | ref o =>
      have hread : ∃ k c, s2.objs[o]? = some ⟨k, c⟩ := by
        cases ho : s2.objs[o]? with
        | none => simp [hs, Stored.read, ho, answer, Except.map] at hr
        | some x => exact ⟨x.kind, x.cell, rfl⟩
      obtain ⟨k, c, ho⟩ := hread
      have hput : s2.put (finsMade pre) y (some w) = { s2 with objs := s2.objs.set o ⟨k, .holds w⟩ } := by
        simp [FinState.put, hs, ho]
      rw [hput] at h6
      simp only [FinState.step, hy] at h6
      have := (call_ok h6).1 w (by
        rw [hs]
        simp [Stored.read, List.getElem?_set_self (List.getElem?_eq_some_iff.mp ho).1])
      simp [this, hyt]

/-- C53: `finally::returns(std::ref(object))` yields what the object holds at the time of the call. -/
theorem C53_wrapper {pre post : List (FinOp V)} {o : Nat} {w : V} {use : Use V} {s : FinState V} {as : List (Ans V)}
    (h : runFins FinState.init (pre ++ [.returns (.view o)] ++ post ++
      [.client (.assign o w), .call (finsMade pre) use]) = .ok (s, as)) :
    as.getLast? = some (.value w) := by
  obtain ⟨s2, as2, a3, h2, h3, rfl⟩ := fins_append h
  obtain ⟨s1, as1, a2, h1, h2', -⟩ := fins_append h2
  obtain ⟨s0, as0, a1, h0, h1', -⟩ := fins_append h1
  have hl0 : s0.fins.length = finsMade pre := by simpa [FinState.init] using (frun_fins h0).1
  obtain ⟨s1', b1, bs1, g1, g2, -⟩ := fins_cons h1'
  cases g2
  obtain ⟨st, objs, hst, rfl, -⟩ := add_ok (e := .view o) (t := false) g1
  have hst' : st = .ref o := store_ref (f := eq (fun _ _ => true)) (e := .view o) hst rfl
  subst hst'
  obtain ⟨y, hy, hsh⟩ := frun_shape h2' (n := finsMade pre) (x := ⟨false, .ref o⟩) (by simp [← hl0])
  have hys : y.stored = .ref o := hsh.2
  have hyt : y.throws = false := hsh.1
  obtain ⟨s4, a4, as4, h4, h5, rfl⟩ := fins_cons h3
  obtain ⟨s5, a5, as5, h6, h7, rfl⟩ := fins_cons h5
  cases h7
  simp only [FinState.step] at h4
  cases hc : clientStep s2.objs (.assign o w) with
  | error x => rw [hc] at h4; cases h4
  | ok objs' =>
    rw [hc] at h4
    cases h4
    obtain ⟨k, hk⟩ := assign_holds hc
    simp only [FinState.step, hy] at h6
    have := (call_ok h6).1 w (by rw [hys]; simp [Stored.read, hk])
    simp [this, hyt]

/-- C53: after the life of that object a call is undefined. -/
theorem C53_dangles {pre post : List (FinOp V)} {o : Nat} {use : Use V} {s : FinState V} {as : List (Ans V)}
    (h : runFins FinState.init (pre ++ [.returns (.view o)] ++ post ++ [.client (.destroy o)]) = .ok (s, as)) :
    runFins FinState.init (pre ++ [.returns (.view o)] ++ post ++ [.client (.destroy o)] ++ [.call (finsMade pre) use])
      = .error .dangling := by
  rw [fins_glue h]
  obtain ⟨s2, as2, a3, h2, h3, rfl⟩ := fins_append h
  obtain ⟨s1, as1, a2, h1, h2', -⟩ := fins_append h2
  obtain ⟨s0, as0, a1, h0, h1', -⟩ := fins_append h1
  have hl0 : s0.fins.length = finsMade pre := by simpa [FinState.init] using (frun_fins h0).1
  obtain ⟨s1', b1, bs1, g1, g2, -⟩ := fins_cons h1'
  cases g2
  obtain ⟨st, objs, hst, rfl, -⟩ := add_ok (e := .view o) (t := false) g1
  have hst' : st = .ref o := store_ref (f := eq (fun _ _ => true)) (e := .view o) hst rfl
  subst hst'
  obtain ⟨y, hy, hsh⟩ := frun_shape h2' (n := finsMade pre) (x := ⟨false, .ref o⟩) (by simp [← hl0])
  have hys : y.stored = .ref o := hsh.2
  have hyt : y.throws = false := hsh.1
  obtain ⟨s4, a4, as4, h4, h5, rfl⟩ := fins_cons h3
  cases h5
  simp only [FinState.step] at h4
  cases hc : clientStep s2.objs (.destroy o) with
  | error x => rw [hc] at h4; cases h4
  | ok objs' =>
    rw [hc] at h4
    cases h4
    have hk : ∃ k, objs'[o]? = some ⟨k, .gone⟩ := by
      simp only [clientStep] at hc
      cases hx : object s2.objs o with
      | error x => rw [hx] at hc; cases hc
      | ok x =>
        rw [hx] at hc
        cases hc
        exact ⟨x.kind, List.getElem?_set_self (List.getElem?_eq_some_iff.mp (object_ok hx).1).1⟩
    obtain ⟨k, hk⟩ := hk
    simp [runFins, FinState.step, hy, FinState.call, hyt, hys, Stored.read, hk, answer, Except.map, bind, Except.bind]

/-- C53: a caller that moves from an rvalue reference takes the stored value away from all later calls. -/
theorem C53_moved_out {pre post : List (FinOp V)} {cs : List (ClientOp V)} {e : Expr V} {v : V} {use : Use V}
    {s : FinState V} {as : List (Ans V)} (hv : HasValue cs e v)
    (hk : (∃ o, e = .named .owning o) ∨ (∃ o, e = .moved .owning o) ∨ e = .temp .owning v)
    (h : runFins FinState.init (pre ++ cs.map .client ++ [.returns e] ++ post ++
      [.call (finsMade pre) (.rvalue true), .call (finsMade pre) use]) = .ok (s, as)) :
    as.getLast? = some .unspecified := by
  obtain ⟨s2, as2, a3, h2, h3, rfl⟩ := fins_append h
  obtain ⟨s1, as1, a2, h1, h2', -⟩ := fins_append h2
  obtain ⟨k, hmk, hkind⟩ := made_fin (t := false) rfl hv h1
  have hko : k = .owning := by
    apply hkind
    rcases hk with ⟨o, rfl⟩ | ⟨o, rfl⟩ | rfl
    · exact Or.inr ⟨o, Or.inl rfl⟩
    · exact Or.inr ⟨o, Or.inr rfl⟩
    · exact Or.inl rfl
  subst hko
  obtain ⟨y, hy, hsh⟩ := frun_shape h2' hmk
  obtain ⟨c, hys⟩ : ∃ c, y.stored = .own .owning c := hsh.2
  have hyt : y.throws = false := hsh.1
  have hyl := (List.getElem?_eq_some_iff.mp hy).1
  obtain ⟨s4, a4, as4, h4, h5, rfl⟩ := fins_cons h3
  obtain ⟨s5, a5, as5, h6, h7, rfl⟩ := fins_cons h5
  cases h7
  simp only [FinState.step, hy, FinState.call, hyt, Bool.false_eq_true, if_false] at h4
  cases hr : answer s2 ((y.stored.read s2.objs).map Ans.value) with
  | error z => rw [hr] at h4; cases h4
  | ok r =>
    rw [hr] at h4
    have hs4 : s4 = s2.put (finsMade pre) y none := by
      simp [hys, Stored.isPlain, bind, Except.bind, pure, Except.pure] at h4
      exact h4.1.symm
    subst hs4
    have hf : (s2.put (finsMade pre) y none).fins[finsMade pre]? = some ⟨y.throws, .own .owning none⟩ := by
      simp [FinState.put, hys, List.getElem?_set_self hyl]
    simp only [FinState.step, hf] at h6
    have := (call_ok h6).2.1 rfl
    simp [this]

/-- Non-vacuity of C53_returns: the original is changed and destroyed, and another finalizer is altered. -/
example : ∃ s as, runFins FinState.init
    ([FinOp.client (.object .owning 0), .returns (.temp .owning 8)] ++ [ClientOp.assign 0 5].map .client ++ [.returns (.named .owning 0)]
      ++ [.client (.assign 0 6), .call 1 .value, .client (.destroy 0), .call 0 (.reference (some 9))] ++ [.call 1 (.rvalue false)])
    = .ok (s, as) ∧ as.getLast? = some (.value 5) := ⟨_, _, rfl, rfl⟩

/-- Non-vacuity of C53_throws. -/
example : ∃ s as, runFins FinState.init
    ([FinOp.client (.object .owning 0)] ++ [ClientOp.assign 0 5].map .client ++ [.throws (.moved .owning 0)]
      ++ [.client (.assign 0 6), .call 0 .value] ++ [.call 0 .value])
    = .ok (s, as) ∧ as.getLast? = some (.thrown 5) := ⟨_, _, rfl, rfl⟩

/-- Non-vacuity of C53_reference, for a stored value and for a `std::reference_wrapper`. -/
example : ∃ s as, runFins FinState.init
    ([] ++ [FinOp.returns (.temp .plain 5)] ++ [.call 0 .value] ++ [.call 0 (.reference (some 7)), .call 0 .value])
    = .ok (s, as) ∧ as = [.nothing, .value 5, .value 5, .value 7] := ⟨_, _, rfl, rfl⟩
example : ∃ s as, runFins FinState.init
    ([FinOp.client (.object .plain 5)] ++ [FinOp.returns (.view 0)] ++ [.call 0 .value] ++ [.call 0 (.reference (some 7)), .call 0 .value])
    = .ok (s, as) ∧ as = [.nothing, .nothing, .value 5, .value 5, .value 7] := ⟨_, _, rfl, rfl⟩

/-- Non-vacuity of C53_wrapper and C53_dangles. -/
example : ∃ s as, runFins FinState.init
    ([FinOp.client (.object .plain 5)] ++ [FinOp.returns (.view 0)] ++ [] ++ [.client (.assign 0 6), .call 0 .value])
    = .ok (s, as) ∧ as = [.nothing, .nothing, .nothing, .value 6] := ⟨_, _, rfl, rfl⟩
example : ∃ s as, runFins FinState.init
    ([FinOp.client (.object .plain 5)] ++ [FinOp.returns (.view 0)] ++ [] ++ [.client (.destroy 0)]) = .ok (s, as) := ⟨_, _, rfl⟩

/-- Non-vacuity of C53_moved_out. -/
example : ∃ s as, runFins FinState.init
    ([] ++ [].map .client ++ [FinOp.returns (.temp .owning 5)] ++ [.call 0 .value] ++ [.call 0 (.rvalue true), .call 0 .value])
    = .ok (s, as) ∧ as = [.nothing, .value 5, .value 5, .unspecified] := ⟨_, _, rfl, rfl⟩

end Mimic.Capture
