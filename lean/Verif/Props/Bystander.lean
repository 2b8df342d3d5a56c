import Verif.Proofs.Bystander
import Verif.Props.Unused

/-!
# C74: expectations that are not used can be left out, with sequences

`Verif/Props/Unused.lean` is about expectations that belong to no sequence, and shows that the property does not hold in general for others. Here is
what holds for those.
-/

set_option autoImplicit false

namespace Mimic.Bystander

variable {α : Type}

/-- C74, exactly: a test without an expectation that is not used (and need not be, or belongs to no sequence) runs as before if and only if the same
choices are made without it, it was never the only one to keep a sequence in existence, and no call was rejected as inapplicable because of it
alone. -/
theorem C74_exactly {tr : Trace α} {w : World α} (h : Reach tr w) {e : Nat} {d : Decl α} (hd : tr.decl e = some d) (hm : d.seqs = [] ∨ d.min = 0)
    (hz : tr.matched e = 0) : (∃ w', Reach (without e tr) w') ↔ SameChoice tr e ∧ NeverAlone tr e ∧ NotAloneInapplicable tr e := by
  have hd' : ∀ d', tr.decl e = some d' → d'.seqs = [] ∨ d'.min = 0 := by
    intro d' h1
    rw [hd] at h1
    cases h1
    exact hm
  constructor
  · rintro ⟨w', h'⟩
    exact converse h hd' hz (Whole.reach_lawful h')
  · rintro ⟨h1, h2, h3⟩
    exact Whole.lawful_reach (main h hd' h1 h2 h3).1

/-- C74: an expectation that is not used, and need not be, can be left out of a test if all expectations that competed with it for calls belong to
the same sequences. -/
theorem C74_same_sequences_partial {tr : Trace α} {w : World α} (h : Reach tr w) {e : Nat} {d : Decl α} (hd : tr.decl e = some d)
    (hm : d.seqs = [] ∨ d.min = 0) (hz : tr.matched e = 0) (hs : SameSequences tr e) (hk : NeverAlone tr e) (hi : NotAloneInapplicable tr e) :
    ∃ w', Reach (without e tr) w' :=
  (C74_exactly h hd hm hz).2 ⟨hs.same h hz, hk, hi⟩

/-- C74: an expectation that need not be used, or belongs to no sequence, can be left out of a test if it was passed over: whenever it could have
resolved a call, a younger one could, too, and none of the younger ones gave way to it. Everything else happens as before; only where the members of
a sequence are counted, it is missing. (It must not have been the only one to keep a sequence in existence; without it, that sequence would have
ended earlier.) -/
theorem C74_passed_over_partial {tr : Trace α} {w : World α} (h : Reach tr w) {e : Nat} {d : Decl α} (hd : tr.decl e = some d)
    (hm : d.seqs = [] ∨ d.min = 0) (hp : PassedOver tr e) (hk : NeverAlone tr e) (hi : NotAloneInapplicable tr e) :
    ∃ w', Reach (without e tr) w' := by
  refine Whole.lawful_reach (main h (fun d' hd' => ?_) (hp.same (Whole.reach_lawful h)) hk hi).1
  rw [hd] at hd'
  cases hd'
  exact hm

/-- C74: if all sequences of a test are greedy ones, an expectation that need not be used and resolves no call can be left out. -/
theorem C74_greedy_partial {tr : Trace α} {w : World α} (h : Reach tr w) {e : Nat} {d : Decl α} (hd : tr.decl e = some d) (hm : d.min = 0)
    (hz : tr.matched e = 0) (hg : ∀ s, ¬ tr.kind s .lazy) (hk : NeverAlone tr e) (hi : NotAloneInapplicable tr e) :
    ∃ w', Reach (without e tr) w' := by
  refine C74_passed_over_partial h hd (.inr hm) ?_ hk hi
  intro pre m a ev post htr hc
  have hno : ∀ x y, ¬ pre.givesWay x y := by
    rintro x y ⟨d', -, -, h1⟩
    have : pre.kindCount d'.seqs .lazy = 0 := by
      unfold Trace.kindCount
      rw [List.countP_eq_zero]
      intro s _ hs
      simp only [decide_eq_true_eq] at hs
      refine hg s ?_
      unfold Trace.kind
      rw [htr]
      simp only [Trace.events, List.flatMap_append, List.mem_append]
      exact .inl hs
    omega
  refine ⟨?_, fun x _ _ => hno x e⟩
  obtain ⟨x, older, r, h1, h2, h3⟩ := candidate_resolved (Whole.reach_lawful h pre _ ev post htr).2.2 hc
  have hr : r = x := by
    clear h1 h3
    generalize hl : older = l at h2
    clear hl
    induction h2 with
    | done => rfl
    | move hw => exact absurd hw (hno _ _)
    | stay _ _ ih => exact ih
  have hre : r ≠ e := by
    rintro rfl
    have : 0 < tr.matched r := by
      unfold Trace.matched
      rw [List.count_pos_iff, htr]
      simp only [Trace.events, List.flatMap_append, List.flatMap_cons, List.mem_append]
      exact .inr (.inl h3)
    omega
  have hmem := (h1.2 e).2 hc
  simp only [List.mem_cons] at hmem
  rcases hmem with rfl | hmem
  · exact absurd hr hre
  · exact ⟨x, (List.pairwise_cons.mp h1.1).1 e hmem, (h1.2 x).1 (by simp)⟩

/-- C74: an expectation that need not be used and rejects all calls of its mock can be left out, whatever sequences it belongs to. -/
theorem C74_rejecting_partial {tr : Trace α} {w : World α} (h : Reach tr w) {e : Nat} {d : Decl α} (hd : tr.decl e = some d)
    (hm : d.seqs = [] ∨ d.min = 0) (hr : ∀ a ev, (Op.call d.mock a, ev) ∈ tr → ∃ p ∈ d.policies, p.accepts a ≠ some true) (hk : NeverAlone tr e) :
    ∃ w', Reach (without e tr) w' := by
  have hacc : ∀ (pre : Trace α) m a ev post, tr = pre ++ (Op.call m a, ev) :: post → ¬ pre.accepts m a e := by
    rintro pre m a ev post htr ⟨-, d', hd', hm', hall⟩
    have : d' = d := by
      have h1 : tr.decl e = some d' := by
        rw [htr]
        unfold Trace.decl at hd' ⊢
        rw [List.findSome?_append, hd']
        rfl
      rw [hd] at h1
      exact (Option.some.inj h1).symm
    subst this
    subst hm'
    obtain ⟨p, hp, hne⟩ := hr a ev (by rw [htr]; simp)
    exact hne (hall p hp)
  refine C74_passed_over_partial h hd hm (fun pre m a ev post htr hc => absurd hc.1 (hacc pre m a ev post htr)) hk ?_
  intro ns hns
  unfold Trace.events at hns
  rw [List.mem_flatMap] at hns
  obtain ⟨⟨o, ev⟩, hst, hev⟩ := hns
  obtain ⟨pre, post, htr⟩ := List.append_of_mem hst
  have hpr := (Whole.reach_lawful h pre o ev post htr).2.2
  cases hpr with
  | call h1 h2 =>
    cases h2 with
    | @inapplicable x es h3 h4 =>
      simp at hev
      subst hev
      refine ⟨x, by simp, ?_⟩
      rintro rfl
      exact hacc pre _ _ _ post htr ((h4.2 x).1 (by simp))
    | _ => simp at hev
  | drop h1 =>
    obtain ⟨_, ⟨_, _, h⟩ | h⟩ := Ends.plain h1 _ hev <;> cases h
  | fulfilled _ _ h1 =>
    simp only [List.mem_cons, reduceCtorEq, false_or] at hev
    obtain ⟨_, ⟨_, _, h⟩ | h⟩ := Ends.plain h1 _ hev <;> cases h
  | unfulfilled _ _ h1 =>
    simp only [List.mem_cons, reduceCtorEq, false_or] at hev
    obtain ⟨_, ⟨_, _, h⟩ | h⟩ := Ends.plain h1 _ hev <;> cases h
  | _ => simp at hev

/-- C74: an expectation that goes out of scope before the client's sequence objects it belongs to is never the only one to keep a sequence. -/
theorem C74_scoped {tr : Trace α} {w : World α} (h : Reach tr w) {e : Nat}
    (ho : ∀ (pre : Trace α) s ev post, tr = pre ++ (Op.dropSequence s, ev) :: post → pre.live e → ¬ pre.attached e s) : NeverAlone tr e := by
  intro pre post htr hl s ha
  left
  obtain ⟨d, hd, hs⟩ := id ha
  obtain ⟨q, ev, q', hq, hc⟩ := decl_split hd
  have hv := (Whole.reach_lawful h q (Op.expect d.mock d.min d.max d.seqs d.policies) ev (q' ++ post) (by rw [htr, hq]; simp)).1
  obtain ⟨⟨st, hst⟩, hnd⟩ := hv.2.1 s hs
  refine ⟨⟨st, ?_⟩, ?_⟩
  · unfold Trace.kind Trace.events at hst ⊢
    rw [hq, List.flatMap_append, List.mem_append]
    exact .inl hst
  · intro ev' hm
    rw [hq] at hm
    rcases List.mem_append.mp hm with hm | hm
    · exact hnd ev' hm
    · rcases List.mem_cons.mp hm with hm | hm
      · cases hm
      · obtain ⟨r, r', hr⟩ := List.append_of_mem hm
        have hsplit : pre = (q ++ (Op.expect d.mock d.min d.max d.seqs d.policies, ev) :: r) ++ (Op.dropSequence s, ev') :: r' := by
          rw [hq, hr]; simp
        have hdec : Trace.decl (q ++ (Op.expect d.mock d.min d.max d.seqs d.policies, ev) :: r) e = some d := by
          cases hx : Trace.decl (q ++ (Op.expect d.mock d.min d.max d.seqs d.policies, ev) :: r) e with
          | some d' =>
            rw [hsplit] at hd
            unfold Trace.decl at hd hx
            rw [List.findSome?_append, hx] at hd
            exact hd
          | none =>
            unfold Trace.decl at hx
            rw [List.findSome?_append, Option.or_eq_none_iff] at hx
            rw [List.findSome?_cons] at hx
            simp [hc] at hx
        refine ho (q ++ (Op.expect d.mock d.min d.max d.seqs d.policies, ev) :: r) s ev' (r' ++ post) (by rw [htr, hsplit]; simp) ⟨⟨d, hdec⟩, ?_⟩
          ⟨d, hdec, hs⟩
        intro hde
        refine hl.2 ?_
        unfold Trace.events at hde ⊢
        rw [hsplit, List.flatMap_append, List.mem_append]
        exact .inl hde

/-- A lazy sequence with two expectations, and one in between that belongs to no sequence; none of them has to be used. -/
def between : Trace Unit :=
  [(.newMock, [.mockCreated 0]), (.newSequence .lazy, [.sequenceCreated 0 .lazy]), (.expect 0 0 1 [0] [], [.created 0]),
   (.expect 0 0 1 [] [], [.created 1]), (.expect 0 0 1 [0] [], [.created 2]), (.call 0 (), [.fullMatch 0])]

/-- The same without the last one. -/
def between' : Trace Unit :=
  [(.newMock, [.mockCreated 0]), (.newSequence .lazy, [.sequenceCreated 0 .lazy]), (.expect 0 0 1 [0] [], [.created 0]),
   (.expect 0 0 1 [] [], [.created 1]), (.call 0 (), [.fullMatch 1])]

/-- C74 does not hold with one single sequence either, if it is lazy: with the last expectation, which is not used, the first one resolves the
call; without it, it is the second one. -/
theorem C74_single : (∃ w, Reach between w) ∧ between.matched 2 = 0 ∧ NeverAlone between 2 ∧ NotAloneInapplicable between 2 ∧
    (∃ w, Reach between' w) ∧ between'.map (·.1) = (without 2 between).map (·.1) ∧ ¬ ∃ w, Reach (without 2 between) w := by
  have h1 : Reach between _ := record_reach (between.map (·.1)) Reach.init rfl
  have h2 : Reach between' _ := record_reach (between'.map (·.1)) Reach.init rfl
  refine ⟨⟨_, h1⟩, rfl, C74_scoped h1 ?_, by simp [NotAloneInapplicable, between, Trace.events], ⟨_, h2⟩, rfl, ?_⟩
  · intro pre s ev post htr
    have : (Op.dropSequence s, ev) ∈ between := by rw [htr]; simp
    simp [between] at this
  · rintro ⟨w, h3⟩
    have := Whole.lawful_unique (Whole.reach_lawful h3) (Whole.reach_lawful h2) rfl
    have h4 := congrArg Trace.events this
    exact absurd h4 (by decide +kernel)

/-! ### Examples -/

def takes (k : Nat) : Policy Nat := { accepts := fun n => some (n == k) }

/-- A test with a greedy sequence of three expectations. The second one need not be used, and is not. -/
def queue : Trace Nat :=
  [(.newMock, [.mockCreated 0]), (.newSequence .greedy, [.sequenceCreated 0 .greedy]), (.expect 0 1 1 [0] [takes 1], [.created 0]),
   (.expect 0 0 1 [0] [takes 2], [.created 1]), (.expect 0 1 1 [0] [takes 3], [.created 2]), (.call 0 1, [.fullMatch 0])]

/-- All that is asked of it in `C74_greedy_partial`. -/
example : ∃ w d, Reach queue w ∧ queue.decl 1 = some d ∧ d.seqs = [0] ∧ d.min = 0 ∧ queue.matched 1 = 0 ∧ (∀ s, ¬ queue.kind s .lazy) ∧
    NeverAlone queue 1 ∧ NotAloneInapplicable queue 1 := by
  have h : Reach queue _ := record_reach (queue.map (·.1)) Reach.init rfl
  refine ⟨_, _, h, rfl, rfl, rfl, rfl, by simp [Trace.kind, queue, Trace.events], C74_scoped h ?_, by simp [NotAloneInapplicable, queue, Trace.events]⟩
  intro pre s ev post htr
  have : (Op.dropSequence s, ev) ∈ queue := by rw [htr]; simp
  simp [queue] at this

/-- At the end, two out of three expectations are reported to be satisfied; one out of two without the second one. -/
def ending : Trace Nat :=
  queue ++ [(.destroy 0, [.destroyed 0]), (.destroy 1, [.destroyed 1]), (.destroy 2, [.destroyed 2, .unfulfilled 2]),
    (.dropSequence 0, [.sequenceError 0 2 3, .sequenceDestroyed 0])]

example : (∃ w, Reach ending w) ∧ (without 1 ending).map (·.2) =
    [[.mockCreated 0], [.sequenceCreated 0 .greedy], [.created 0], [.created 1], [.fullMatch 0], [.destroyed 0], [.destroyed 1, .unfulfilled 1],
     [.sequenceError 0 1 2, .sequenceDestroyed 0]] :=
  ⟨⟨_, record_reach (tr := []) (tr' := ending) (ending.map (·.1)) Reach.init rfl⟩, by decide +kernel⟩

/-- A lazy sequence of two expectations that both fit the call: the younger one is not used. `C74_same_sequences_partial` applies, the others
do not. -/
def twins : Trace Unit :=
  [(.newMock, [.mockCreated 0]), (.newSequence .lazy, [.sequenceCreated 0 .lazy]), (.expect 0 0 1 [0] [], [.created 0]),
   (.expect 0 0 1 [0] [], [.created 1]), (.call 0 (), [.fullMatch 0])]

example : ∃ w d, Reach twins w ∧ twins.decl 1 = some d ∧ d.min = 0 ∧ twins.matched 1 = 0 ∧ SameSequences twins 1 ∧ NeverAlone twins 1 ∧
    NotAloneInapplicable twins 1 := by
  have h : Reach twins _ := record_reach (twins.map (·.1)) Reach.init rfl
  refine ⟨_, _, h, rfl, rfl, rfl, ?_, C74_scoped h ?_, by simp [NotAloneInapplicable, twins, Trace.events]⟩
  · intro pre m a ev post htr hc x hx s
    have hd : ∀ n d, pre.decl n = some d → d.seqs = [0] := by
      intro n d hn
      obtain ⟨q, ev', q', hq, -⟩ := decl_split hn
      have : (Op.expect d.mock d.min d.max d.seqs d.policies, ev') ∈ twins := by rw [htr, hq]; simp
      simp [twins] at this
      grind
    obtain ⟨d1, h1⟩ := candidate_decl hc
    obtain ⟨d2, h2⟩ := candidate_decl hx
    simp [Trace.attached, h1, h2, hd _ _ h1, hd _ _ h2]
  · intro pre s ev post htr
    have : (Op.dropSequence s, ev) ∈ twins := by rw [htr]; simp
    simp [twins] at this

end Mimic.Bystander
