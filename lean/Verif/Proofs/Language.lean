import Verif.Spec.Language
import Verif.Proofs.Bridge
import Verif.Proofs.Demo
import Verif.Props.Safety

/-! # Tests with one sequence as patterns: lemmas -/

set_option autoImplicit false

namespace Mimic.Language

variable {α : Type}

/-! ## The automaton and the regular expression -/

theorem accepted_word {st : Strategy} {p : Part α} {ps : List (Part α)}
    (hps : ∀ calls, accepted st 0 ps calls = true → Word ps calls) {calls : List (Nat × α)} {n : Nat}
    (hn : (n : Int) ≤ p.max) (h : accepted st n (p :: ps) calls = true) :
    ∃ block rest, calls = block ++ rest ∧ p.min ≤ n + block.length ∧ ((n + block.length : Nat) : Int) ≤ p.max ∧
      (∀ c ∈ block, p.takes c = true) ∧ Word ps rest := by
  induction calls generalizing n with
  | nil =>
    simp only [accepted, finished, Bool.and_eq_true, decide_eq_true_eq] at h
    exact ⟨[], [], rfl, by simpa using h.1, by simpa using hn, by simp, hps [] h.2⟩
  | cons c cs ih =>
    have hstay : (p.takes c = true ∧ (n : Int) < p.max ∧ accepted st (n + 1) (p :: ps) cs = true) ∨
        (p.min ≤ n ∧ accepted st 0 ps (c :: cs) = true) := by
      simp only [accepted, next] at h ⊢
      cases st <;> grind
    rcases hstay with ⟨h1, h2, h3⟩ | ⟨h1, h2⟩
    · obtain ⟨block, rest, rfl, h4, h5, h6, h7⟩ := ih (n := n + 1) (by omega) h3
      refine ⟨c :: block, rest, rfl, ?_, ?_, ?_, h7⟩
      · simp only [List.length_cons]; omega
      · simp only [List.length_cons]; omega
      · simpa [h1] using h6
    · exact ⟨[], c :: cs, rfl, by simpa using h1, by simpa using hn, by simp, hps _ h2⟩

theorem accepted_sound {st : Strategy} {parts : List (Part α)} (hv : ∀ p ∈ parts, 0 ≤ p.max) {calls : List (Nat × α)}
    (h : accepted st 0 parts calls = true) : Word parts calls := by
  induction parts generalizing calls with
  | nil =>
    cases calls with
    | nil => exact .nil
    | cons c cs => simp [accepted, next] at h
  | cons p ps ih =>
    obtain ⟨block, rest, rfl, h4, h5, h6, h7⟩ :=
      accepted_word (fun calls => ih (fun q hq => hv q (by simp [hq]))) (n := 0) (by simpa using hv p (by simp)) h
    exact .cons (by simpa using h4) (by simpa using h5) h6 h7

theorem Word.taken {parts : List (Part α)} {calls : List (Nat × α)} (h : Word parts calls) :
    ∀ c ∈ calls, ∃ p ∈ parts, p.takes c = true := by
  induction h with
  | nil => simp
  | cons h1 h2 h3 h4 ih => grind

theorem next_none {st : Strategy} {ps : List (Part α)} {c : Nat × α} (h : ∀ p ∈ ps, p.takes c = false) (n : Nat) :
    next st n ps c = none := by
  induction ps generalizing n with
  | nil => rfl
  | cons p ps ih =>
    have := ih (fun q hq => h q (by simp [hq])) 0
    have hp := h p (by simp)
    cases st <;> simp [next, this, hp]

theorem accepted_leave {st : Strategy} {p : Part α} {ps : List (Part α)} {calls : List (Nat × α)} {n : Nat}
    (h : ∀ c, calls.head? = some c → p.takes c = false) :
    accepted st n (p :: ps) calls = (decide (p.min ≤ n) && accepted st 0 ps calls) := by
  cases calls with
  | nil => rfl
  | cons c cs =>
    have hp := h c rfl
    by_cases hm : p.min ≤ n <;> cases st <;> simp [accepted, next, hp, hm]

theorem word_accepted {st : Strategy} {parts : List (Part α)} {calls : List (Nat × α)}
    (h : Word parts calls) (hu : Unambiguous parts calls) : accepted st 0 parts calls = true := by
  induction h with
  | nil => rfl
  | @cons p ps block rest h1 h2 h3 h4 ih =>
    have hrest : accepted st 0 ps rest = true := ih (fun c hc => (List.pairwise_cons.mp (hu c (by simp [hc]))).2)
    have key : ∀ (b : List (Nat × α)) (n : Nat), (∀ c ∈ b, p.takes c = true) → (∀ c ∈ b, c ∈ block) →
        p.min ≤ n + b.length → ((n + b.length : Nat) : Int) ≤ p.max →
        accepted st n (p :: ps) (b ++ rest) = true := by
      intro b
      induction b with
      | nil =>
        intro n _ _ hmin _
        rw [List.nil_append, accepted_leave]
        · simp only [List.length_nil] at hmin
          simp [hrest]; omega
        · intro c hc
          have hcm : c ∈ rest := List.mem_of_mem_head? (by simp [hc])
          obtain ⟨q, hq, hqc⟩ := h4.taken c hcm
          have := (List.pairwise_cons.mp (hu c (by simp [hcm]))).1 q hq
          grind
      | cons c b ih2 =>
        intro n hb hbm hmin hmax
        have hc := hb c (by simp)
        have hps : ∀ q ∈ ps, q.takes c = false := by
          intro q hq
          have := (List.pairwise_cons.mp (hu c (by simp [hbm c (by simp)]))).1 q hq
          grind
        have hlt : (n : Int) < p.max := by simp only [List.length_cons] at hmax; omega
        have hn := next_none (st := st) hps 0
        have : next st n (p :: ps) c = some (n + 1, p :: ps) := by
          cases st <;> simp [next, hc, hlt, hn]
        simp only [List.cons_append, accepted, this]
        apply ih2
        · exact fun d hd => hb d (by simp [hd])
        · exact fun d hd => hbm d (by simp [hd])
        · simp only [List.length_cons] at hmin; omega
        · simp only [List.length_cons] at hmax; omega
    exact key block 0 h3 (fun _ h => h) (by simpa using h1) (by simpa using h2)

theorem accepted_lazy {p : Part α} {ps : List (Part α)} (calls : List (Nat × α)) (n : Nat) :
    accepted .lazy n (p :: ps) calls =
      (decide (p.min ≤ n + ((calls.take (p.max.toNat - n)).takeWhile p.takes).length) &&
        accepted .lazy 0 ps (calls.drop ((calls.take (p.max.toNat - n)).takeWhile p.takes).length)) := by
  induction calls generalizing n with
  | nil => simp [accepted, finished]
  | cons c cs ih =>
    by_cases hc : p.takes c = true ∧ (n : Int) < p.max
    · have h1 : next .lazy n (p :: ps) c = some (n + 1, p :: ps) := by simp [next, hc]
      have h2 : p.max.toNat - n = (p.max.toNat - (n + 1)) + 1 := by omega
      simp only [accepted, h1, ih (n + 1), h2, List.take_succ_cons, List.takeWhile_cons, hc.1, if_true, List.length_cons,
        List.drop_succ_cons]
      congr 2
      simp only [eq_iff_iff]
      omega
    · have h0 : (((c :: cs).take (p.max.toNat - n)).takeWhile p.takes).length = 0 := by
        by_cases hlt : (n : Int) < p.max
        · have h2 : p.max.toNat - n = (p.max.toNat - (n + 1)) + 1 := by omega
          have : p.takes c = false := by grind
          simp [h2, this]
        · have h2 : p.max.toNat - n = 0 := by omega
          simp [h2]
      rw [h0]
      have h3 : (p.takes c && decide ((n : Int) < p.max)) = false := by
        cases ht : p.takes c <;> simp_all
      by_cases hm : p.min ≤ n <;> simp [accepted, next, h3, hm]

theorem accepted_possessive (parts : List (Part α)) (calls : List (Nat × α)) :
    accepted .lazy 0 parts calls = possessive parts calls := by
  induction parts generalizing calls with
  | nil => cases calls <;> simp [accepted, possessive, finished, next]
  | cons p ps ih => rw [accepted_lazy]; simp [possessive, ih]

/-! ## The automaton and the reference semantics -/

/-- Expectation number `i`, which has resolved `n` calls. -/
def cell (i : Nat) (p : Part α) (n : Nat) : Spec.Exp α :=
  { id := i, mock := p.mock, min := p.min, max := p.max, seqs := [0], policies := p.policies, count := n, alive := true }

/-- The expectations from number `k` on, if the first of them has resolved `n` calls and the others none. -/
def tail (k n : Nat) : List (Part α) → List (Spec.Exp α)
  | [] => []
  | p :: ps => cell k p n :: tail (k + 1) 0 ps

theorem tail_id {k n : Nat} {ps : List (Part α)} {x : Spec.Exp α} (h : x ∈ tail k n ps) : k ≤ x.id := by
  induction ps generalizing k n with
  | nil => simp [tail] at h
  | cons p ps ih =>
    simp only [tail, List.mem_cons] at h
    rcases h with rfl | h
    · simp [cell]
    · have := ih h; omega

/-- Can the expectation resolve the call, as far as the expectations before it in the list are concerned? -/
def ready (c : Nat × α) (n : Nat) : List (Part α) → Nat → Bool
  | [], _ => false
  | p :: _, 0 => p.takes c && decide ((n : Int) < p.max)
  | p :: ps, j + 1 => decide (p.min ≤ n) && ready c 0 ps j

/-- The first and the last expectation that can resolve the call. -/
def pick (st : Strategy) (Q : Spec.Exp α → Bool) (l : List (Spec.Exp α)) : Option (Spec.Exp α) :=
  match st with
  | .lazy => l.find? Q
  | .greedy => l.reverse.find? Q

theorem pick_cons (st : Strategy) (Q : Spec.Exp α → Bool) (x : Spec.Exp α) (l : List (Spec.Exp α)) :
    pick st Q (x :: l) = match st with
      | .lazy => (if Q x then some x else none) <|> pick st Q l
      | .greedy => pick st Q l <|> (if Q x then some x else none) := by
  cases st
  · cases h : Q x <;> simp [pick, h]
  · simp [pick, List.find?_append, List.find?_cons]
    cases h : Q x <;> simp

/-- What the automaton does is what `pick` does. -/
theorem pick_next {st : Strategy} {Q : Spec.Exp α → Bool} {c : Nat × α} {k n : Nat} {l : List (Part α)}
    (hQ : ∀ (j : Nat) (x : Spec.Exp α), (tail k n l)[j]? = some x → Q x = ready c n l j) :
    (next st n l c = none ∧ pick st Q (tail k n l) = none) ∨
    (∃ (skipped : List (Part α)) (q : Part α) (qs : List (Part α)) (i m : Nat),
      next st n l c = some (m + 1, q :: qs) ∧ l = skipped ++ q :: qs ∧ i = k + skipped.length ∧
      (skipped = [] → m = n) ∧ (skipped ≠ [] → m = 0) ∧ finished n skipped = true ∧
      pick st Q (tail k n l) = some (cell i q m)) := by
  induction l generalizing k n with
  | nil => left; cases st <;> simp [next, tail, pick]
  | cons p ps ih =>
    have h0 : Q (cell k p n) = (p.takes c && decide ((n : Int) < p.max)) := hQ 0 _ (by simp [tail])
    have hstay : (if Q (cell k p n) then some (cell k p n) else none) = none ↔
        (if p.takes c && decide ((n : Int) < p.max) then some (n + 1, p :: ps) else none) = none := by
      rw [h0]; cases (p.takes c && decide ((n : Int) < p.max)) <;> simp
    have hleave : ((if p.min ≤ n then next st 0 ps c else none) = none ∧ pick st Q (tail (k + 1) 0 ps) = none) ∨
        (∃ (skipped : List (Part α)) (q : Part α) (qs : List (Part α)) (i m : Nat),
          (if p.min ≤ n then next st 0 ps c else none) = some (m + 1, q :: qs) ∧ p :: ps = skipped ++ q :: qs ∧
          i = k + skipped.length ∧ skipped ≠ [] ∧ m = 0 ∧ finished n skipped = true ∧
          pick st Q (tail (k + 1) 0 ps) = some (cell i q m)) := by
      by_cases hm : p.min ≤ n
      · simp only [hm, if_true]
        have := ih (k := k + 1) (n := 0) (fun j x hx => by
          rw [hQ (j + 1) x (by simpa [tail] using hx)]
          simp [ready, hm])
        rcases this with h | ⟨skipped, q, qs, i, m, h1, h2, h3, h4, h5, h6, h7⟩
        · exact Or.inl h
        · right
          refine ⟨p :: skipped, q, qs, i, m, h1, by simp [h2], by simp [h3]; omega, by simp, ?_, ?_, h7⟩
          · by_cases hs : skipped = []
            · exact h4 hs
            · exact h5 hs
          · simp [finished, hm, h6]
      · left
        simp only [hm, if_false, true_and]
        have : ∀ x ∈ tail (k + 1) 0 ps, Q x = false := by
          intro x hx
          obtain ⟨j, hj⟩ := List.getElem?_of_mem hx
          rw [hQ (j + 1) x (by simpa [tail] using hj)]
          simp [ready, hm]
        cases st <;> simpa [pick] using this
    have hQ0 : Q (cell k p n) = true → next st n (p :: ps) c = some (n + 1, p :: ps) →
        pick st Q (tail k n (p :: ps)) = some (cell k p n) →
        (∃ (skipped : List (Part α)) (q : Part α) (qs : List (Part α)) (i m : Nat),
          next st n (p :: ps) c = some (m + 1, q :: qs) ∧ p :: ps = skipped ++ q :: qs ∧ i = k + skipped.length ∧
          (skipped = [] → m = n) ∧ (skipped ≠ [] → m = 0) ∧ finished n skipped = true ∧
          pick st Q (tail k n (p :: ps)) = some (cell i q m)) := fun _ h1 h2 =>
      ⟨[], p, ps, k, n, h1, rfl, rfl, fun _ => rfl, fun h => (h rfl).elim, rfl, h2⟩
    have hp : pick st Q (tail k n (p :: ps)) = _ := pick_cons st Q (cell k p n) (tail (k + 1) 0 ps)
    cases hq : (p.takes c && decide ((n : Int) < p.max)) with
    | true =>
      rw [hq] at h0
      simp only [h0, if_true] at hp
      cases st with
      | lazy =>
        right
        exact hQ0 h0 (by simp only [next, hq, if_true]; rfl) hp
      | greedy =>
        right
        rcases hleave with ⟨h1, h2⟩ | ⟨skipped, q, qs, i, m, h1, h2, h3, h4, h5, h6, h7⟩
        · exact hQ0 h0 (by simp only [next, hq, if_true, h1]; rfl) (by rw [hp, h2]; rfl)
        · exact ⟨skipped, q, qs, i, m, by simp only [next, h1]; rfl, h2, h3, fun h => (h4 h).elim, fun _ => h5, h6,
            by rw [hp, h7]; rfl⟩
    | false =>
      rw [hq] at h0
      simp only [h0, Bool.false_eq_true, if_false] at hp
      rcases hleave with ⟨h1, h2⟩ | ⟨skipped, q, qs, i, m, h1, h2, h3, h4, h5, h6, h7⟩
      · left
        refine ⟨?_, ?_⟩
        · cases st <;> simp only [next, hq, h1] <;> rfl
        · rw [hp, h2]; cases st <;> rfl
      · right
        refine ⟨skipped, q, qs, i, m, ?_, h2, h3, fun h => (h4 h).elim, fun _ => h5, h6, ?_⟩
        · cases st <;> simp only [next, hq, h1] <;> rfl
        · rw [hp, h7]; cases st <;> rfl

theorem ready_iff {c : Nat × α} {n k : Nat} {l : List (Part α)} {j : Nat} {x : Spec.Exp α}
    (hx : (tail k n l)[j]? = some x) :
    ready c n l j = true ↔ (x.mock = c.1 ∧ x.accepts c.2 = true ∧ (x.count : Int) < x.max) ∧
      ∀ y ∈ tail k n l, y.id < x.id → y.min ≤ (y.count : Int) := by
  induction l generalizing k n j with
  | nil => simp [tail] at hx
  | cons p ps ih =>
    cases j with
    | zero =>
      simp only [tail, List.getElem?_cons_zero, Option.some.injEq] at hx
      subst hx
      simp only [ready, Part.takes, Bool.and_eq_true, decide_eq_true_eq, beq_iff_eq, tail, List.mem_cons, forall_eq_or_imp]
      have : ∀ y ∈ tail (k + 1) 0 ps, y.id < (cell k p n).id → y.min ≤ (y.count : Int) := by
        intro y hy hlt
        have := tail_id hy
        simp [cell] at hlt; omega
      constructor
      · rintro ⟨⟨h1, h2⟩, h3⟩
        exact ⟨⟨h1.symm, h2, h3⟩, by simp, this⟩
      · rintro ⟨⟨h1, h2, h3⟩, -⟩
        exact ⟨⟨h1.symm, h2⟩, h3⟩
    | succ j =>
      simp only [tail, List.getElem?_cons_succ] at hx
      have hid := tail_id (List.mem_of_getElem? hx)
      simp only [ready, Bool.and_eq_true, decide_eq_true_eq, ih hx, tail, List.mem_cons, forall_eq_or_imp]
      have : (cell k p n).id < x.id := by simp [cell]; omega
      constructor
      · rintro ⟨h1, h2, h3⟩
        exact ⟨h2, fun _ => h1, h3⟩
      · rintro ⟨h2, h1, h3⟩
        exact ⟨h1 this, h2, h3⟩

theorem tail_zero {k n : Nat} {l : List (Part α)} {j : Nat} {x y : Spec.Exp α} (hx : (tail k n l)[j]? = some x)
    (hy : y ∈ tail k n l) (h : x.id < y.id) : y.count = 0 := by
  induction l generalizing k n j with
  | nil => simp [tail] at hx
  | cons p ps ih =>
    simp only [tail, List.mem_cons] at hy
    rcases hy with rfl | hy
    · have := tail_id (List.mem_of_getElem? hx)
      simp [cell] at h; omega
    · clear ih hx
      have : ∀ (k : Nat) (l : List (Part α)), ∀ y ∈ tail k 0 l, y.count = 0 := by
        intro k l
        induction l generalizing k with
        | nil => simp [tail]
        | cons p ps ih => simpa [tail, cell] using ih (k + 1)
      exact this _ _ y hy

/-- The state of the reference semantics when the expectations in `done` were left and the next has resolved `n` calls. -/
def state (st : Strategy) (mocks : Nat) (done : List (Spec.Exp α)) (n : Nat) (l : List (Part α)) : Spec.State α :=
  { seqs := [{ strategy := st, handle := true }], exps := done ++ tail done.length n l, mocks := mocks }

/-- What is known about the expectations that were left. -/
structure Left (done : List (Spec.Exp α)) (n : Nat) (l : List (Part α)) : Prop where
  id : ∀ x ∈ done, x.id < done.length
  seqs : ∀ x ∈ done, x.seqs = [0]
  enough : ∀ x ∈ done, x.min ≤ (x.count : Int)
  satisfied : ∀ x ∈ done, ∀ q ∈ x.policies, q.isSatisfied = true
  moved : done = [] ∨ (l ≠ [] ∧ 0 < n)

theorem tail_seqs {k n : Nat} {l : List (Part α)} {x : Spec.Exp α} (h : x ∈ tail k n l) : x.seqs = [0] ∧ x.alive = true := by
  induction l generalizing k n with
  | nil => simp [tail] at h
  | cons p ps ih =>
    simp only [tail, List.mem_cons] at h
    rcases h with rfl | h
    · exact ⟨rfl, rfl⟩
    · exact ih h

theorem state_attached {st : Strategy} {mocks n : Nat} {done : List (Spec.Exp α)} {l : List (Part α)} (hd : Left done n l) :
    (state st mocks done n l).attached 0 = done ++ tail done.length n l := by
  change List.filter _ (done ++ tail done.length n l) = _
  rw [List.filter_eq_self]
  intro x hx
  have : x.seqs = [0] := by
    rw [List.mem_append] at hx
    rcases hx with hx | hx
    · exact hd.seqs x hx
    · exact (tail_seqs hx).1
  simp [this]

theorem state_applicable {st : Strategy} {mocks n : Nat} {done : List (Spec.Exp α)} {l : List (Part α)} (hd : Left done n l)
    {x : Spec.Exp α} (hx : x.seqs = [0]) :
    (state st mocks done n l).applicable x = true ↔ (x.count : Int) < x.max ∧
      ∀ y ∈ done ++ tail done.length n l, (y.id < x.id → y.min ≤ (y.count : Int)) ∧ (x.id < y.id → y.count = 0) := by
  unfold Spec.State.applicable
  rw [hx]
  simp only [List.all_cons, List.all_nil, Bool.and_true, state_attached hd, Bool.and_eq_true, decide_eq_true_eq,
    List.all_eq_true, Bool.or_eq_true, Bool.not_eq_true', decide_eq_false_iff_not, beq_iff_eq, ← Decidable.imp_iff_not_or]

/-- The expectations that can resolve the call `c`. -/
def can (S : Spec.State α) (c : Nat × α) (x : Spec.Exp α) : Bool :=
  x.alive && x.mock == c.1 && x.accepts c.2 && S.applicable x

theorem state_can {st : Strategy} {mocks n : Nat} {done : List (Spec.Exp α)} {l : List (Part α)} (hd : Left done n l)
    (c : Nat × α) :
    (∀ x ∈ done, can (state st mocks done n l) c x = false) ∧
    ∀ (j : Nat) (x : Spec.Exp α), (tail done.length n l)[j]? = some x → can (state st mocks done n l) c x = ready c n l j := by
  refine ⟨?_, ?_⟩
  · intro x hx
    have hl : ¬ (state st mocks done n l).applicable x = true := by
      rw [state_applicable hd (hd.seqs x hx)]
      rintro ⟨-, h⟩
      rcases hd.moved with h0 | ⟨h0, h1⟩
      · simp [h0] at hx
      · match l, h0 with
        | p :: ps, _ =>
          have := (h (cell done.length p n) (by simp [tail])).2 (by simpa [cell] using hd.id x hx)
          simp [cell] at this
          omega
    unfold can
    grind
  · intro j x hx
    have hm := List.mem_of_getElem? hx
    obtain ⟨hs, ha⟩ := tail_seqs hm
    rw [Bool.eq_iff_iff, ready_iff hx]
    simp only [can, ha, Bool.true_and, Bool.and_eq_true, beq_iff_eq, state_applicable hd hs, List.mem_append]
    constructor
    · rintro ⟨⟨h1, h2⟩, h3, h4⟩
      exact ⟨⟨h1, h2, h3⟩, fun y hy => (h4 y (Or.inr hy)).1⟩
    · rintro ⟨⟨h1, h2, h3⟩, h4⟩
      refine ⟨⟨h1, h2⟩, h3, ?_⟩
      rintro y (hy | hy)
      · refine ⟨fun _ => hd.enough y hy, fun hlt => ?_⟩
        have := hd.id y hy
        have := tail_id hm
        omega
      · exact ⟨h4 y hy, fun hlt => tail_zero hx hy hlt⟩

theorem select_one {st : Strategy} {S : Spec.State α} (hS : S.seqs = [{ strategy := st, handle := true }])
    {x : Spec.Exp α} {ys : List (Spec.Exp α)} (hx : x.seqs = [0]) (hy : ∀ y ∈ ys, y.seqs = [0]) :
    some (S.select x ys) = match st with
      | .lazy => (x :: ys).getLast?
      | .greedy => some x := by
  induction ys generalizing x with
  | nil => cases st <;> rfl
  | cons y ys ih =>
    have hyy := hy y (by simp)
    have hys : ∀ z ∈ ys, z.seqs = [0] := fun z hz => hy z (by simp [hz])
    cases st with
    | lazy =>
      have : S.displaces y x = true := by
        simp [Spec.State.displaces, Spec.State.kindCount, hx, hyy, hS]
      simp only [Spec.State.select, this, if_true, List.getLast?_cons_cons]
      exact ih hyy hys
    | greedy =>
      have : S.displaces y x = false := by
        simp [Spec.State.displaces, Spec.State.kindCount, hx, hyy, hS]
      simp only [Spec.State.select, this, Bool.false_eq_true, if_false]
      exact ih hx hys

/-- Which expectation resolves a call. -/
theorem call_pick {st : Strategy} {S : Spec.State α} (hS : S.seqs = [{ strategy := st, handle := true }])
    (hx : ∀ x ∈ S.exps, x.seqs = [0]) (c : Nat × α) :
    match pick st (can S c) S.exps with
    | some b => (S.call c.1 c.2).1 = S.countMatch b.id ∧ ∀ ev ∈ (S.call c.1 c.2).2.1, failure ev = false
    | none => ∃ ev ∈ (S.call c.1 c.2).2.1, failure ev = true := by
  have hlist : ((S.candidates c.1).filter (·.accepts c.2)).filter S.applicable = (S.exps.filter (can S c)).reverse := by
    simp only [Spec.State.candidates, List.filter_reverse, List.filter_filter]
    congr 1
    apply List.filter_congr
    intro x _
    unfold can
    grind
  have hun : ∀ ev ∈ ((S.candidates c.1).filter (·.throws c.2)).map (fun x => Event.unhandled x.id), failure ev = false := by
    intro ev hev
    obtain ⟨x, -, rfl⟩ := List.mem_map.mp hev
    rfl
  cases hf : (S.exps.filter (can S c)).reverse with
  | nil =>
    have h0 : S.exps.filter (can S c) = [] := by simpa using hf
    have hp : pick st (can S c) S.exps = none := by
      cases st <;> simpa [pick] using List.filter_eq_nil_iff.mp h0
    rw [hp]
    simp only [Spec.State.call, hlist, hf]
    split
    · exact ⟨_, List.mem_append_right _ (List.mem_singleton.mpr rfl), rfl⟩
    · exact ⟨_, List.mem_append_right _ (List.mem_singleton.mpr rfl), rfl⟩
  | cons x older =>
    have hall : ∀ y ∈ x :: older, y.seqs = [0] := by
      intro y hy
      rw [← hf] at hy
      simp only [List.mem_reverse, List.mem_filter] at hy
      exact hx y hy.1
    have hsel := select_one hS (hall x (by simp)) (fun y hy => hall y (by simp [hy])) (ys := older)
    have hp : pick st (can S c) S.exps = some (S.select x older) := by
      rw [hsel]
      cases st with
      | lazy => simp only [pick, ← hf]; rw [List.getLast?_reverse, List.head?_filter]
      | greedy =>
        have : some x = (x :: older).head? := rfl
        simp only [pick, this, ← hf, ← List.head?_filter, List.filter_reverse]
    rw [hp]
    simp only [Spec.State.call, hlist, hf]
    refine ⟨trivial, ?_⟩
    intro ev hev
    simp only [List.mem_append, List.mem_singleton] at hev
    rcases hev with hev | rfl
    · exact hun ev hev
    · rfl

theorem tail_append {k n : Nat} {skipped : List (Part α)} {l : List (Part α)} (h : skipped ≠ []) :
    tail k n (skipped ++ l) = tail k n skipped ++ tail (k + skipped.length) 0 l := by
  induction skipped generalizing k n with
  | nil => exact (h rfl).elim
  | cons p ps ih =>
    by_cases h0 : ps = []
    · subst h0; simp [tail]
    · simp only [List.cons_append, tail, ih h0, List.length_cons]
      rw [Nat.add_right_comm, Nat.add_assoc]

theorem tail_length {k n : Nat} {l : List (Part α)} : (tail k n l).length = l.length := by
  induction l generalizing k n with
  | nil => rfl
  | cons p ps ih => simp [tail, ih]

theorem tail_lt {k n : Nat} {ps : List (Part α)} {x : Spec.Exp α} (h : x ∈ tail k n ps) : x.id < k + ps.length := by
  induction ps generalizing k n with
  | nil => simp [tail] at h
  | cons p ps ih =>
    simp only [tail, List.mem_cons] at h
    rcases h with rfl | h
    · simp [cell]
    · have := ih h; simp; omega

theorem tail_enough {k n : Nat} {ps : List (Part α)} :
    finished n ps = true ↔ ∀ x ∈ tail k n ps, x.min ≤ (x.count : Int) := by
  induction ps generalizing k n with
  | nil => simp [finished, tail]
  | cons p ps ih => simp [finished, tail, cell, ih (k := k + 1) (n := 0)]

theorem tail_satisfied {k n : Nat} {ps : List (Part α)} (h : ∀ p ∈ ps, ∀ q ∈ p.policies, q.isSatisfied = true) :
    ∀ x ∈ tail k n ps, ∀ q ∈ x.policies, q.isSatisfied = true := by
  induction ps generalizing k n with
  | nil => simp [tail]
  | cons p ps ih =>
    intro x hx
    simp only [tail, List.mem_cons] at hx
    rcases hx with rfl | hx
    · exact h p (by simp)
    · exact ih (fun q hq => h q (by simp [hq])) x hx

theorem count_other {i : Nat} {l : List (Spec.Exp α)} (h : ∀ x ∈ l, x.id ≠ i) :
    l.map (fun x => if x.id = i then { x with count := x.count + 1 } else x) = l := by
  conv => rhs; rw [← List.map_id l]
  apply List.map_congr_left
  intro x hx
  simp [h x hx]

theorem call_step {st : Strategy} {mocks n : Nat} {done : List (Spec.Exp α)} {l : List (Part α)} (hd : Left done n l)
    (hl : ∀ p ∈ l, ∀ q ∈ p.policies, q.isSatisfied = true) (c : Nat × α) :
    match next st n l c with
    | some (n', l') => ∃ done', ((state st mocks done n l).call c.1 c.2).1 = state st mocks done' n' l' ∧ Left done' n' l' ∧
        done'.length + l'.length = done.length + l.length ∧ (∀ p ∈ l', p ∈ l) ∧
        ∀ ev ∈ ((state st mocks done n l).call c.1 c.2).2.1, failure ev = false
    | none => ∃ ev ∈ ((state st mocks done n l).call c.1 c.2).2.1, failure ev = true := by
  obtain ⟨hc1, hc2⟩ := state_can (st := st) (mocks := mocks) hd c
  have hseqs : ∀ x ∈ (state st mocks done n l).exps, x.seqs = [0] := by
    intro x hx
    rcases List.mem_append.mp hx with hx | hx
    · exact hd.seqs x hx
    · exact (tail_seqs hx).1
  have hcall := call_pick (S := state st mocks done n l) rfl hseqs c
  have hpick : pick st (can (state st mocks done n l) c) (state st mocks done n l).exps =
      pick st (can (state st mocks done n l) c) (tail done.length n l) := by
    have h0 : done.find? (can (state st mocks done n l) c) = none := by simpa using hc1
    have h1 : done.reverse.find? (can (state st mocks done n l) c) = none := by simpa using hc1
    cases st with
    | lazy =>
      show List.find? _ (done ++ _) = List.find? _ _
      rw [List.find?_append, h0]; rfl
    | greedy =>
      show List.find? _ (List.reverse (done ++ _)) = List.find? _ _
      rw [List.reverse_append, List.find?_append, h1]; simp
  rw [hpick] at hcall
  rcases pick_next (st := st) hc2 with ⟨h1, h2⟩ | ⟨skipped, q, qs, i, m, h1, h2, h3, h4, h5, h6, h7⟩
  · rw [h1]
    rw [h2] at hcall
    exact hcall
  · rw [h1]
    rw [h7] at hcall
    obtain ⟨hst, hev⟩ := hcall
    subst h2
    refine ⟨done ++ tail done.length n skipped, ?_, ?_, ?_, ?_, hev⟩
    · rw [hst]
      have hexps : (state st mocks done n (skipped ++ q :: qs)).exps =
          (done ++ tail done.length n skipped) ++ cell i q m :: tail (i + 1) 0 qs := by
        by_cases h0 : skipped = []
        · subst h0
          simp only [h4 rfl, h3, state, tail, List.nil_append, List.length_nil, Nat.add_zero, List.append_nil]
        · simp only [h5 h0, h3, state, tail_append h0, tail, List.append_assoc]
      have hbefore : ∀ x ∈ done ++ tail done.length n skipped, x.id ≠ i := by
        intro x hx
        rcases List.mem_append.mp hx with hx | hx
        · have := hd.id x hx; omega
        · have := tail_lt hx; omega
      have hafter : ∀ x ∈ tail (i + 1) 0 qs, x.id ≠ i := by
        intro x hx
        have := tail_id hx; omega
      unfold Spec.State.countMatch
      rw [hexps]
      simp only [List.map_append, List.map_cons]
      rw [show (cell i q m).id = i from rfl, count_other hafter, ← List.map_append, count_other hbefore]
      simp only [state, List.length_append, tail_length, ← h3, tail]
      rfl
    · refine ⟨?_, ?_, ?_, ?_, ?_⟩
      · intro x hx
        simp only [List.length_append, tail_length]
        rcases List.mem_append.mp hx with hx | hx
        · have := hd.id x hx; omega
        · exact tail_lt hx
      · intro x hx
        rcases List.mem_append.mp hx with hx | hx
        · exact hd.seqs x hx
        · exact (tail_seqs hx).1
      · intro x hx
        rcases List.mem_append.mp hx with hx | hx
        · exact hd.enough x hx
        · exact tail_enough.mp h6 x hx
      · intro x hx
        rcases List.mem_append.mp hx with hx | hx
        · exact hd.satisfied x hx
        · exact tail_satisfied (fun p hp => hl p (by simp [hp])) x hx
      · exact Or.inr ⟨by simp, by omega⟩
    · simp [tail_length]; omega
    · exact fun p hp => by simp at hp; simp [hp]

/-! ## The calls -/

theorem spec_run_append {S S'' : Spec.State α} {ops ops' : List (Op α)} {evs : List Event}
    (h : S.run (ops ++ ops') = some (S'', evs)) :
    ∃ S' ev ev', S.run ops = some (S', ev) ∧ S'.run ops' = some (S'', ev') ∧ evs = ev ++ ev' := by
  induction ops generalizing S evs with
  | nil => exact ⟨S, [], evs, rfl, h, rfl⟩
  | cons op ops ih =>
    simp only [List.cons_append, Spec.State.run] at h ⊢
    cases hs : S.step op with
    | none => rw [hs] at h; cases h
    | some r =>
      rw [hs] at h
      simp only at h ⊢
      cases hr : r.1.run (ops ++ ops') with
      | none => rw [hr] at h; cases h
      | some q =>
        rw [hr] at h
        simp only [Option.some.injEq, Prod.mk.injEq] at h
        obtain ⟨rfl, rfl⟩ := h
        obtain ⟨S', ev, ev', h1, h2, h3⟩ := ih (S := r.1) (evs := q.2) hr
        exact ⟨S', r.2 ++ ev, ev', by simp [h1], h2, by simp [h3]⟩

/-- While the calls are made. -/
theorem calls_run {st : Strategy} {mocks n : Nat} {done : List (Spec.Exp α)} {l : List (Part α)} (hd : Left done n l)
    (hl : ∀ p ∈ l, ∀ q ∈ p.policies, q.isSatisfied = true) {calls : List (Nat × α)} {S : Spec.State α} {evs : List Event}
    (h : (state st mocks done n l).run (calls.map (fun c => .call c.1 c.2)) = some (S, evs)) :
    (passes evs → ∃ done' n' l', S = state st mocks done' n' l' ∧ Left done' n' l' ∧
      done'.length + l'.length = done.length + l.length ∧ (∀ p ∈ l', p ∈ l) ∧
      accepted st n l calls = finished n' l') ∧
    (¬ passes evs → accepted st n l calls = false) := by
  induction calls generalizing n done l evs with
  | nil =>
    simp only [List.map_nil, Spec.State.run, Option.some.injEq, Prod.mk.injEq] at h
    obtain ⟨rfl, rfl⟩ := h
    exact ⟨fun _ => ⟨done, n, l, rfl, hd, rfl, fun _ h => h, rfl⟩, fun h => (h (by simp [passes])).elim⟩
  | cons c cs ih =>
    simp only [List.map_cons, Spec.State.run, Spec.State.step] at h
    have hstep := call_step (st := st) (mocks := mocks) hd hl c
    split at h
    · cases h
    · rename_i S1 ev1 hs1
      split at hs1
      · simp only [Option.some.injEq, Prod.mk.injEq] at hs1
        obtain ⟨rfl, rfl⟩ := hs1
        cases hn : next st n l c with
        | none =>
          rw [hn] at hstep
          obtain ⟨ev, hev, hf⟩ := hstep
          have hacc : accepted st n l (c :: cs) = false := by simp [accepted, hn]
          split at h
          · cases h
          · simp only [Option.some.injEq, Prod.mk.injEq] at h
            obtain ⟨rfl, rfl⟩ := h
            refine ⟨fun hp => ?_, fun _ => hacc⟩
            have := hp ev (by simp [hev])
            rw [hf] at this; cases this
        | some r =>
          obtain ⟨n', l'⟩ := r
          rw [hn] at hstep
          obtain ⟨done', h1, h2, h3, h4, h5⟩ := hstep
          have hacc : accepted st n l (c :: cs) = accepted st n' l' cs := by simp [accepted, hn]
          rw [h1] at h
          split at h
          · cases h
          · rename_i S2 ev2 hs2
            simp only [Option.some.injEq, Prod.mk.injEq] at h
            obtain ⟨rfl, rfl⟩ := h
            obtain ⟨i1, i2⟩ := ih h2 (fun p hp => hl p (h4 p hp)) hs2
            rw [hacc]
            have hpass : passes (((state st mocks done n l).call c.1 c.2).2.1 ++ ev2) ↔ passes ev2 := by
              constructor
              · exact fun h ev hev => h ev (by simp [hev])
              · intro h ev hev
                rcases List.mem_append.mp hev with hev | hev
                · exact h5 ev hev
                · exact h ev hev
            rw [hpass]
            refine ⟨fun hp => ?_, i2⟩
            obtain ⟨d, m, k, j1, j2, j3, j4, j5⟩ := i1 hp
            exact ⟨d, m, k, j1, j2, by omega, fun p hp => h4 p (j4 p hp), j5⟩
      · cases hs1

/-! ## The end -/

/-- The operation ends the life of something. -/
def isEnd : Op α → Bool
  | .destroy _ => true
  | .dropSequence _ => true
  | _ => false

/-- Nothing is missing: nothing is reported in the end. -/
theorem end_clean {ends : List (Op α)} (he : ∀ op ∈ ends, isEnd op = true) {S S' : Spec.State α} {evs : List Event}
    (h : S.run ends = some (S', evs))
    (hx : ∀ x ∈ S.exps, x.min ≤ (x.count : Int) ∧ ∀ q ∈ x.policies, q.isSatisfied = true) : passes evs := by
  have hend : ∀ (S : Spec.State α), (∀ x ∈ S.exps, x.min ≤ (x.count : Int) ∧ ∀ q ∈ x.policies, q.isSatisfied = true) →
      ∀ ss, passes (S.release ss) := by
    intro S hx ss ev hev
    simp only [Spec.State.release, List.mem_flatMap] at hev
    obtain ⟨s, -, hev⟩ := hev
    split at hev
    · cases hev
    · have : (S.attached s).findIdx? (·.unfulfilled) = none := by
        rw [List.findIdx?_eq_none_iff]
        intro x hm
        have := (hx x (List.mem_filter.mp hm).1).1
        simp [Spec.Exp.unfulfilled]; omega
      simp only [Spec.State.sequenceEnd, this, List.nil_append, List.mem_singleton] at hev
      subst hev; rfl
  induction ends generalizing S evs with
  | nil => simp only [Spec.State.run, Option.some.injEq, Prod.mk.injEq] at h; rw [← h.2]; simp [passes]
  | cons op ends ih =>
    simp only [Spec.State.run] at h
    split at h
    · cases h
    · rename_i S1 ev1 hs1
      split at h
      · cases h
      · rename_i S2 ev2 hs2
        simp only [Option.some.injEq, Prod.mk.injEq] at h
        obtain ⟨rfl, rfl⟩ := h
        have key : passes ev1 ∧ ∀ x ∈ S1.exps, x.min ≤ (x.count : Int) ∧ ∀ q ∈ x.policies, q.isSatisfied = true := by
          have ho := he op (by simp)
          cases op with
          | dropSequence s =>
            simp only [Spec.State.step] at hs1
            split at hs1
            · simp only [Option.some.injEq, Prod.mk.injEq] at hs1
              obtain ⟨rfl, rfl⟩ := hs1
              exact ⟨hend { S with seqs := S.seqs.modify s (fun q => { q with handle := false }) } hx _, hx⟩
            · cases hs1
          | destroy e =>
            simp only [Spec.State.step] at hs1
            split at hs1
            · cases hs1
            · rename_i x hf
              simp only [Option.some.injEq, Prod.mk.injEq] at hs1
              obtain ⟨rfl, rfl⟩ := hs1
              have hw : ∀ x ∈ (S.withdraw e).exps, x.min ≤ (x.count : Int) ∧ ∀ q ∈ x.policies, q.isSatisfied = true := by
                intro y hy
                obtain ⟨z, hz, rfl⟩ := List.mem_map.mp hy
                have := hx z hz
                split <;> exact this
              refine ⟨?_, hw⟩
              have hxx := hx x (List.mem_of_find?_eq_some hf)
              have hu : (x.unfulfilled || !(x.policies.all (·.isSatisfied))) = false := by
                have h1 : x.unfulfilled = false := by simp [Spec.Exp.unfulfilled]; omega
                have h2 : x.policies.all (·.isSatisfied) = true := by simpa using hxx.2
                simp [h1, h2]
              intro ev hev
              simp only [hu, List.cons_append, List.nil_append, List.mem_cons, Bool.false_eq_true, if_false] at hev
              rcases hev with rfl | hev
              · rfl
              · exact hend _ hw _ ev hev
          | _ => simp [isEnd] at ho
        have := ih (fun op hop => he op (by simp [hop])) hs2 key.2
        intro ev hev
        rcases List.mem_append.mp hev with hev | hev
        · exact key.1 ev hev
        · exact this ev hev

/-- Something is missing: it is reported in the end. -/
theorem end_missing {ends : List (Op α)} (he : ∀ op ∈ ends, isEnd op = true) {S S' : Spec.State α} {evs : List Event}
    (h : S.run ends = some (S', evs)) {e : Nat} (hx : ∀ x ∈ S.exps, x.id = e → (x.count : Int) < x.min)
    (hd : .destroy e ∈ ends) : ¬ passes evs := by
  induction ends generalizing S evs with
  | nil => cases hd
  | cons op ends ih =>
    simp only [Spec.State.run] at h
    split at h
    · cases h
    · rename_i S1 ev1 hs1
      split at h
      · cases h
      · rename_i S2 ev2 hs2
        simp only [Option.some.injEq, Prod.mk.injEq] at h
        obtain ⟨rfl, rfl⟩ := h
        have hS1 : ∀ x ∈ S1.exps, x.id = e → (x.count : Int) < x.min := by
          have ho := he op (by simp)
          cases op with
          | dropSequence s =>
            simp only [Spec.State.step] at hs1
            split at hs1
            · simp only [Option.some.injEq, Prod.mk.injEq] at hs1
              obtain ⟨rfl, rfl⟩ := hs1
              exact hx
            · cases hs1
          | destroy e =>
            simp only [Spec.State.step] at hs1
            split at hs1
            · cases hs1
            · simp only [Option.some.injEq, Prod.mk.injEq] at hs1
              obtain ⟨rfl, rfl⟩ := hs1
              intro y hy
              obtain ⟨z, hz, rfl⟩ := List.mem_map.mp hy
              have := hx z hz
              split <;> exact this
          | _ => simp [isEnd] at ho
        rcases List.mem_cons.mp hd with rfl | hd
        · simp only [Spec.State.step] at hs1
          split at hs1
          · cases hs1
          · rename_i x hf
            simp only [Option.some.injEq, Prod.mk.injEq] at hs1
            obtain ⟨rfl, rfl⟩ := hs1
            have hid : x.id = e := by
              have := List.find?_some hf
              simp only [Bool.and_eq_true, beq_iff_eq] at this
              exact this.1
            have hu : x.unfulfilled = true := by
              have := hx x (List.mem_of_find?_eq_some hf) hid
              simp [Spec.Exp.unfulfilled, this]
            intro hp
            have := hp (.unfulfilled e) (by simp [hu])
            cases this
        · intro hp
          exact ih (fun op hop => he op (by simp [hop])) hs2 hS1 hd (fun ev hev => hp ev (by simp [hev]))

/-! ## The whole test -/

theorem mocks_run {S S' : Spec.State α} {k : Nat} {evs : List Event}
    (h : S.run (List.replicate k .newMock) = some (S', evs)) :
    S' = { S with mocks := S.mocks + k } ∧ passes evs := by
  induction k generalizing S evs with
  | zero =>
    simp only [List.replicate_zero, Spec.State.run, Option.some.injEq, Prod.mk.injEq] at h
    obtain ⟨rfl, rfl⟩ := h
    exact ⟨rfl, by simp [passes]⟩
  | succ k ih =>
    simp only [List.replicate_succ, Spec.State.run, Spec.State.step] at h
    split at h
    · cases h
    · rename_i S2 ev2 hs2
      simp only [Option.some.injEq, Prod.mk.injEq] at h
      obtain ⟨rfl, rfl⟩ := h
      obtain ⟨rfl, h2⟩ := ih hs2
      refine ⟨by simp; omega, ?_⟩
      intro ev hev
      simp only [List.cons_append, List.nil_append, List.mem_cons] at hev
      rcases hev with rfl | hev
      · rfl
      · exact h2 ev hev

theorem tail_snoc {k : Nat} {l l' : List (Part α)} : tail k 0 (l ++ l') = tail k 0 l ++ tail (k + l.length) 0 l' := by
  by_cases h : l = []
  · subst h; simp [tail]
  · exact tail_append h

theorem parts_run {st : Strategy} {mocks : Nat} {pre parts : List (Part α)} {S : Spec.State α} {evs : List Event}
    (hv : ∀ p ∈ parts, 0 ≤ p.min ∧ p.min ≤ p.max)
    (h : (state st mocks [] 0 pre).run (parts.map (fun p => .expect p.mock p.min p.max [0] p.policies)) = some (S, evs)) :
    S = state st mocks [] 0 (pre ++ parts) ∧ passes evs := by
  induction parts generalizing pre evs with
  | nil =>
    simp only [List.map_nil, Spec.State.run, Option.some.injEq, Prod.mk.injEq] at h
    obtain ⟨rfl, rfl⟩ := h
    exact ⟨by simp, by simp [passes]⟩
  | cons p ps ih =>
    simp only [List.map_cons, Spec.State.run, Spec.State.step] at h
    split at h
    · cases h
    · rename_i S1 ev1 hs1
      split at hs1
      · have hp := hv p (by simp)
        rw [if_pos ⟨hp, by simp⟩] at hs1
        simp only [Option.some.injEq, Prod.mk.injEq] at hs1
        obtain ⟨rfl, rfl⟩ := hs1
        split at h
        · cases h
        · rename_i S2 ev2 hs2
          simp only [Option.some.injEq, Prod.mk.injEq] at h
          obtain ⟨rfl, rfl⟩ := h
          have := ih (pre := pre ++ [p]) (evs := ev2) (fun q hq => hv q (by simp [hq])) (by
            rw [← hs2]
            congr 1
            simp [state, tail_snoc, tail, cell, tail_length])
          obtain ⟨h1, h2⟩ := this
          refine ⟨by simpa using h1, ?_⟩
          intro ev hev
          simp only [List.cons_append, List.nil_append, List.mem_cons] at hev
          rcases hev with rfl | hev
          · rfl
          · exact h2 ev hev
      · cases hs1

theorem passes_append {evs evs' : List Event} : passes (evs ++ evs') ↔ passes evs ∧ passes evs' := by
  simp only [passes, List.mem_append]
  grind

theorem tail_inj {k n : Nat} {l : List (Part α)} {x y : Spec.Exp α} (hx : x ∈ tail k n l) (hy : y ∈ tail k n l)
    (h : x.id = y.id) : x = y := by
  induction l generalizing k n with
  | nil => simp [tail] at hx
  | cons p ps ih =>
    simp only [tail, List.mem_cons] at hx hy
    rcases hx with rfl | hx <;> rcases hy with rfl | hy
    · rfl
    · have := tail_id hy; simp [cell] at h; omega
    · have := tail_id hx; simp [cell] at h; omega
    · exact ih hx hy

/-- In the reference semantics, the test passes iff the automaton accepts the calls. -/
theorem test_spec {st : Strategy} {mocks : Nat} {parts : List (Part α)} {calls : List (Nat × α)} {ends : List (Op α)}
    (hv : ∀ p ∈ parts, 0 ≤ p.min ∧ p.min ≤ p.max) (hq : ∀ p ∈ parts, ∀ q ∈ p.policies, q.isSatisfied = true)
    (he : ends.Perm (allEnds parts)) {S : Spec.State α} {evs : List Event}
    (h : Spec.State.init.run (test st mocks parts calls ends) = some (S, evs)) :
    passes evs ↔ accepted st 0 parts calls = true := by
  have hends : ∀ op ∈ ends, isEnd op = true := by
    intro op hop
    have := he.mem_iff.mp hop
    simp only [allEnds, List.mem_cons, List.mem_map] at this
    rcases this with rfl | ⟨i, -, rfl⟩ <;> rfl
  unfold test at h
  obtain ⟨S3, e3, e4, h3, h4, rfl⟩ := spec_run_append h
  obtain ⟨S2, e2, e3, h2, h3, rfl⟩ := spec_run_append h3
  obtain ⟨S1, e1, e2, h1, h2, rfl⟩ := spec_run_append h2
  simp only [Spec.State.run, Spec.State.step] at h1
  split at h1
  · cases h1
  · rename_i S0 e0 h0
    simp only [Option.some.injEq, Prod.mk.injEq] at h1
    obtain ⟨rfl, rfl⟩ := h1
    obtain ⟨rfl, p0⟩ := mocks_run h0
    have hst : ({ seqs := [{ strategy := st, handle := true }], exps := [], mocks := 0 + mocks } : Spec.State α) =
        state st mocks [] 0 [] := by simp [state, tail]
    obtain ⟨rfl, p2⟩ := parts_run (st := st) (mocks := mocks) (pre := []) hv (by rw [← hst]; exact h2)
    have hleft : Left ([] : List (Spec.Exp α)) 0 parts :=
      ⟨by simp, by simp, by simp, by simp, Or.inl rfl⟩
    obtain ⟨c1, c2⟩ := calls_run (st := st) (mocks := mocks) hleft hq h3
    have pfirst : passes ([Event.sequenceCreated (Spec.State.init : Spec.State α).seqs.length st] ++ e0) := by
      rw [passes_append]
      exact ⟨by simp [passes, failure], p0⟩
    rw [passes_append, passes_append, passes_append]
    by_cases hp : passes e3
    · obtain ⟨done, n, l, rfl, i1, i2, i3, i4⟩ := c1 hp
      rw [i4]
      constructor
      · rintro ⟨-, hpe⟩
        apply Classical.byContradiction
        intro hf
        have hf' : ¬ ∀ x ∈ tail done.length n l, x.min ≤ (x.count : Int) := fun h => hf (tail_enough.mpr h)
        have : ∃ x ∈ tail done.length n l, (x.count : Int) < x.min := by
          apply Classical.byContradiction
          intro hne
          apply hf'
          intro x hx
          apply Classical.byContradiction
          intro hlt
          exact hne ⟨x, hx, by omega⟩
        obtain ⟨x, hx, hlt⟩ := this
        refine end_missing hends h4 (e := x.id) ?_ ?_ hpe
        · intro y hy hid
          rcases List.mem_append.mp hy with hy | hy
          · have := i1.id y hy
            have := tail_id hx
            omega
          · rw [tail_inj hy hx hid]; exact hlt
        · refine he.mem_iff.mpr (List.mem_cons_of_mem _ (List.mem_map.mpr ⟨x.id, ?_, rfl⟩))
          have := tail_lt hx
          rw [List.mem_range]
          simp only [List.length_nil] at i2
          omega
      · intro hf
        refine ⟨⟨⟨pfirst, p2⟩, hp⟩, end_clean hends h4 ?_⟩
        intro x hx
        rcases List.mem_append.mp hx with hx | hx
        · exact ⟨i1.enough x hx, i1.satisfied x hx⟩
        · exact ⟨tail_enough.mp hf x hx, tail_satisfied (fun p hp => hq p (i3 p hp)) x hx⟩
    · rw [c2 hp]
      simp [hp]

theorem spec_run_snoc {S S' S'' : Spec.State α} {ops : List (Op α)} {op : Op α} {ev ev' : List Event}
    (h : S.run ops = some (S', ev)) (hs : S'.step op = some (S'', ev')) : S.run (ops ++ [op]) = some (S'', ev ++ ev') := by
  induction ops generalizing S ev with
  | nil =>
    simp only [Spec.State.run, Option.some.injEq, Prod.mk.injEq] at h
    obtain ⟨rfl, rfl⟩ := h
    simp [Spec.State.run, hs]
  | cons o ops ih =>
    simp only [List.cons_append, Spec.State.run] at h ⊢
    split at h
    · cases h
    · split at h
      · cases h
      · rename_i S1 ev1 h1 S2 ev2 h2
        simp only [Option.some.injEq, Prod.mk.injEq] at h
        obtain ⟨rfl, rfl⟩ := h
        simp [ih h2]

/-- Programs do what the reference semantics says. -/
theorem reach_spec_run {tr : Trace α} {w : World α} (h : Reach tr w) :
    (Spec.State.init : Spec.State α).run (tr.map (·.1)) = some (abs w, tr.events) := by
  induction h with
  | init => rfl
  | step hr hs ih =>
    have := spec_run_snoc ih (hr.spec_step hs)
    simpa [Trace.events] using this

/-! ## Such tests run -/

theorem spec_run_join {S S' S'' : Spec.State α} {ops ops' : List (Op α)} {ev ev' : List Event}
    (h : S.run ops = some (S', ev)) (h' : S'.run ops' = some (S'', ev')) : S.run (ops ++ ops') = some (S'', ev ++ ev') := by
  induction ops generalizing S ev with
  | nil =>
    simp only [Spec.State.run, Option.some.injEq, Prod.mk.injEq] at h
    obtain ⟨rfl, rfl⟩ := h
    simpa using h'
  | cons o ops ih =>
    simp only [List.cons_append, Spec.State.run] at h ⊢
    split at h
    · cases h
    · split at h
      · cases h
      · rename_i S1 ev1 h1 S2 ev2 h2
        simp only [Option.some.injEq, Prod.mk.injEq] at h
        obtain ⟨rfl, rfl⟩ := h
        simp [ih h2]

/-- The operation creates an expectation. -/
def isExpect : Op α → Bool
  | .expect .. => true
  | _ => false

theorem step_length {S S' : Spec.State α} {op : Op α} {ev : List Event} (h : S.step op = some (S', ev)) :
    S'.exps.length ≤ S.exps.length + if isExpect op then 1 else 0 := by
  cases op with
  | call m a =>
    simp only [Spec.State.step, Spec.State.call] at h
    split at h
    · simp only [Option.some.injEq, Prod.mk.injEq] at h
      obtain ⟨rfl, -⟩ := h
      split
      · simp [Spec.State.countMatch, isExpect]
      · split <;> simp [isExpect]
    · cases h
  | _ =>
    simp only [Spec.State.step] at h
    simp only [isExpect]
    grind [Spec.State.withdraw]

/-- What the reference semantics allows is carried out by the library. -/
theorem run_exists {tr : Trace α} {w : World α} (hr : Reach tr w) {ops : List (Op α)} {S : Spec.State α} {evs : List Event}
    (h : (abs w).run ops = some (S, evs)) (hn : (((abs w).exps.length + ops.countP isExpect : Nat) : Int) ≤ intMax + 1) :
    ∃ w' evs', w.run ops = .ok (w', evs') := by
  induction ops generalizing tr w S evs with
  | nil => exact ⟨w, [], rfl⟩
  | cons op ops ih =>
    simp only [Spec.State.run] at h
    split at h
    · cases h
    · rename_i S1 ev1 hs1
      split at h
      · cases h
      · rename_i S2 ev2 hs2
        have hv : tr.valid op := (hr.view.2.valid_iff op).mpr ⟨_, hs1⟩
        have ho : ¬ tr.overflows op := by
          rw [overflows_iff hr.view.2]
          cases op with
          | expect c min max tags ps =>
            rintro ⟨-, -, s, -, hs⟩
            apply hs
            have : ((abs w).attached s).length ≤ (abs w).exps.length := List.length_filter_le _ _
            simp only [List.countP_cons, isExpect, if_true] at hn
            omega
          | _ => exact id
        obtain ⟨w', ev, hw⟩ := (C17_progress hr op).1 hv ho
        have hsp := hr.spec_step hw
        rw [hs1] at hsp
        simp only [Option.some.injEq, Prod.mk.injEq] at hsp
        obtain ⟨rfl, rfl⟩ := hsp
        have hlen := step_length hs1
        simp only [List.countP_cons] at hn
        obtain ⟨w'', evs', hw'⟩ := ih (hr.step hw) hs2 (by omega)
        exact ⟨w'', ev1 ++ evs', by simp [World.run, hw, hw', bind, Except.bind, pure, Except.pure]⟩

theorem calls_exist {calls : List (Nat × α)} {S : Spec.State α} (hc : ∀ c ∈ calls, c.1 < S.mocks) :
    ∃ S' evs, S.run (calls.map (fun c => .call c.1 c.2)) = some (S', evs) ∧ S'.seqs = S.seqs ∧
      ∀ e, (∃ x ∈ S.exps, x.id = e ∧ x.alive = true) → ∃ x ∈ S'.exps, x.id = e ∧ x.alive = true := by
  induction calls generalizing S with
  | nil => exact ⟨S, [], rfl, rfl, fun _ h => h⟩
  | cons c cs ih =>
    have h1 : (S.call c.1 c.2).1.mocks = S.mocks ∧ (S.call c.1 c.2).1.seqs = S.seqs ∧
        ∀ e, (∃ x ∈ S.exps, x.id = e ∧ x.alive = true) → ∃ x ∈ (S.call c.1 c.2).1.exps, x.id = e ∧ x.alive = true := by
      simp only [Spec.State.call]
      split
      · refine ⟨rfl, rfl, ?_⟩
        rintro e ⟨x, hx, h1, h2⟩
        refine ⟨_, List.mem_map.mpr ⟨x, hx, rfl⟩, ?_⟩
        split <;> exact ⟨h1, h2⟩
      · split <;> exact ⟨rfl, rfl, fun _ h => h⟩
    obtain ⟨S', evs, i1, i2, i3⟩ := ih (S := (S.call c.1 c.2).1) (by
      rw [h1.1]; exact fun d hd => hc d (by simp [hd]))
    refine ⟨S', (S.call c.1 c.2).2.1 ++ evs, ?_, i2.trans h1.2.1, fun e he => i3 e (h1.2.2 e he)⟩
    simp [Spec.State.run, Spec.State.step, hc c (by simp), i1]

theorem ends_exist {ends : List (Op α)} (he : ∀ op ∈ ends, op = .dropSequence 0 ∨ ∃ e, op = .destroy e)
    (hn : ends.Pairwise (· ≠ ·)) {S : Spec.State α} (hs : .dropSequence 0 ∈ ends → S.hasHandle 0 = true)
    (hd : ∀ e, .destroy e ∈ ends → ∃ x ∈ S.exps, x.id = e ∧ x.alive = true) :
    ∃ S' evs, S.run ends = some (S', evs) := by
  induction ends generalizing S with
  | nil => exact ⟨S, [], rfl⟩
  | cons op ends ih =>
    rw [List.pairwise_cons] at hn
    have key : ∃ S1 ev, S.step op = some (S1, ev) ∧ (.dropSequence 0 ∈ ends → S1.hasHandle 0 = true) ∧
        (∀ e, .destroy e ∈ ends → ∃ x ∈ S1.exps, x.id = e ∧ x.alive = true) := by
      rcases he op (by simp) with rfl | ⟨e, rfl⟩
      · have h0 := hs (by simp)
        have hst : ∃ ev, S.step (.dropSequence 0) =
            some ({ S with seqs := S.seqs.modify 0 (fun q => { q with handle := false }) }, ev) := by
          simp only [Spec.State.step, h0, if_true]
          exact ⟨_, rfl⟩
        obtain ⟨ev, hst⟩ := hst
        exact ⟨_, ev, hst, fun h => (hn.1 _ h rfl).elim, fun e he => hd e (by simp [he])⟩
      · obtain ⟨x, hx, hid, ha⟩ := hd e (by simp)
        have hf : ∃ y, S.exps.find? (fun x => x.id == e && x.alive) = some y := by
          cases h : S.exps.find? (fun x => x.id == e && x.alive) with
          | some y => exact ⟨y, rfl⟩
          | none =>
            have := List.find?_eq_none.mp h x hx
            simp [hid, ha] at this
        obtain ⟨y, hy⟩ := hf
        have hst : ∃ ev, S.step (.destroy e) = some (S.withdraw e, ev) := by
          simp only [Spec.State.step, hy]
          exact ⟨_, rfl⟩
        obtain ⟨ev, hst⟩ := hst
        refine ⟨S.withdraw e, ev, hst, ?_, ?_⟩
        · exact fun h => hs (by simp [h])
        · intro e' he'
          obtain ⟨z, hz, h1, h2⟩ := hd e' (by simp [he'])
          refine ⟨_, List.mem_map.mpr ⟨z, hz, rfl⟩, ?_⟩
          have : z.id ≠ e := by
            intro h
            have hee : e' = e := h1.symm.trans h
            exact hn.1 _ he' (by rw [hee])
          rw [if_neg this]
          exact ⟨h1, h2⟩
    obtain ⟨S1, ev, h1, h2, h3⟩ := key
    obtain ⟨S', evs, h4⟩ := ih (fun op hop => he op (by simp [hop])) hn.2 h2 h3
    exact ⟨S', ev ++ evs, by simp [Spec.State.run, h1, h4]⟩

theorem mocks_exist {S : Spec.State α} (k : Nat) : ∃ evs,
    S.run (List.replicate k .newMock) = some ({ S with mocks := S.mocks + k }, evs) := by
  induction k generalizing S with
  | zero => exact ⟨[], rfl⟩
  | succ k ih =>
    obtain ⟨evs, h⟩ := ih (S := { S with mocks := S.mocks + 1 })
    refine ⟨[.mockCreated S.mocks] ++ evs, ?_⟩
    simp only [List.replicate_succ, Spec.State.run, Spec.State.step, h]
    simp; omega

theorem parts_exist {st : Strategy} {mocks : Nat} {pre parts : List (Part α)}
    (hv : ∀ p ∈ parts, 0 ≤ p.min ∧ p.min ≤ p.max) (hm : ∀ p ∈ parts, p.mock < mocks) (hi : ∀ p ∈ parts, p.max ≤ intMax) :
    ∃ evs, (state st mocks [] 0 pre).run (parts.map (fun p => .expect p.mock p.min p.max [0] p.policies)) =
      some (state st mocks [] 0 (pre ++ parts), evs) := by
  induction parts generalizing pre with
  | nil => exact ⟨[], by simp [Spec.State.run]⟩
  | cons p ps ih =>
    obtain ⟨evs, h⟩ := ih (pre := pre ++ [p]) (fun q hq => hv q (by simp [hq])) (fun q hq => hm q (by simp [hq]))
      (fun q hq => hi q (by simp [hq]))
    have h1 := hv p (by simp)
    have h2 := hm p (by simp)
    have h3 := hi p (by simp)
    have hint : isInt p.min = true ∧ isInt p.max = true := by
      unfold intMax at h3
      have e1 : isInt p.min = true := by unfold isInt intMin intMax; grind
      have e2 : isInt p.max = true := by unfold isInt intMin intMax; grind
      exact ⟨e1, e2⟩
    have hstep : (state st mocks [] 0 pre).step (.expect p.mock p.min p.max [0] p.policies) =
        some (state st mocks [] 0 (pre ++ [p]), [.created pre.length]) := by
      have hc : p.mock < (state st mocks [] 0 pre).mocks ∧ [0].all (state st mocks [] 0 pre).hasHandle ∧ isInt p.min ∧
          isInt p.max := ⟨h2, rfl, hint.1, hint.2⟩
      simp only [Spec.State.step]
      rw [if_pos hc, if_pos ⟨h1, by simp⟩]
      simp [state, tail_snoc, tail, cell, tail_length]
    refine ⟨[.created pre.length] ++ evs, ?_⟩
    simp only [List.map_cons, Spec.State.run, hstep, h]
    simp

theorem tail_alive {k n : Nat} {l : List (Part α)} {e : Nat} (h1 : k ≤ e) (h2 : e < k + l.length) :
    ∃ x ∈ tail k n l, x.id = e ∧ x.alive = true := by
  induction l generalizing k n with
  | nil => simp at h2; omega
  | cons p ps ih =>
    by_cases h : k = e
    · exact ⟨cell k p n, by simp [tail], h, rfl⟩
    · simp only [List.length_cons] at h2
      obtain ⟨x, hx, h3⟩ := ih (k := k + 1) (n := 0) (by omega) (by omega)
      exact ⟨x, by simp [tail, hx], h3⟩

theorem test_exists {st : Strategy} {mocks : Nat} {parts : List (Part α)} {calls : List (Nat × α)} {ends : List (Op α)}
    (hv : ∀ p ∈ parts, 0 ≤ p.min ∧ p.min ≤ p.max) (he : ends.Perm (allEnds parts)) (hm : ∀ p ∈ parts, p.mock < mocks)
    (hc : ∀ c ∈ calls, c.1 < mocks) (hi : ∀ p ∈ parts, p.max ≤ intMax) :
    ∃ S evs, Spec.State.init.run (test st mocks parts calls ends) = some (S, evs) := by
  obtain ⟨e1, h1⟩ := mocks_exist (S := ({ seqs := [{ strategy := st, handle := true }], exps := [], mocks := 0 } : Spec.State α)) mocks
  obtain ⟨e2, h2⟩ := parts_exist (st := st) (mocks := mocks) (pre := []) hv hm hi
  obtain ⟨S3, e3, h3, h4, h5⟩ := calls_exist (calls := calls) (S := state st mocks [] 0 ([] ++ parts)) hc
  have hends := ends_exist (ends := ends) (S := S3) (by
      intro op hop
      have := he.mem_iff.mp hop
      simp only [allEnds, List.mem_cons, List.mem_map] at this
      rcases this with rfl | ⟨i, -, rfl⟩
      · exact Or.inl rfl
      · exact Or.inr ⟨i, rfl⟩)
    (by
      refine (he.symm.pairwise ?_ (fun h => Ne.symm h))
      simp only [allEnds, List.pairwise_cons, List.mem_map, List.pairwise_map]
      refine ⟨?_, ?_⟩
      · rintro _ ⟨i, -, rfl⟩; simp
      · exact (List.nodup_range (n := parts.length)).imp (fun h h' => h (by simpa using h')))
    (by
      intro _
      simp [Spec.State.hasHandle, h4, state])
    (by
      intro e hop
      have := he.mem_iff.mp hop
      simp only [allEnds, List.mem_cons, List.mem_map, reduceCtorEq, false_or, Op.destroy.injEq, exists_eq_right,
        List.mem_range] at this
      apply h5
      obtain ⟨x, hx, h6⟩ := tail_alive (k := 0) (n := 0) (l := parts) (Nat.zero_le e) (by omega)
      exact ⟨x, by simpa [state] using hx, h6⟩)
  obtain ⟨S4, e4, h6⟩ := hends
  have hfirst : Spec.State.init.run (.newSequence st :: List.replicate mocks .newMock) =
      some (state st mocks [] 0 ([] : List (Part α)), [.sequenceCreated 0 st] ++ e1) := by
    simp only [Spec.State.run, Spec.State.step, Spec.State.init, List.nil_append, List.length_nil, h1]
    simp [state, tail]
  exact ⟨S4, _, spec_run_join (spec_run_join (spec_run_join hfirst h2) h3) h6⟩

theorem test_expects {st : Strategy} {mocks : Nat} {parts : List (Part α)} {calls : List (Nat × α)} {ends : List (Op α)}
    (he : ends.Perm (allEnds parts)) : (test st mocks parts calls ends).countP isExpect = parts.length := by
  have h1 : ends.countP isExpect = 0 := by
    rw [he.countP_eq, List.countP_eq_zero]
    intro op hop
    simp only [allEnds, List.mem_cons, List.mem_map] at hop
    rcases hop with rfl | ⟨i, -, rfl⟩ <;> simp [isExpect]
  have h2 : (calls.map (fun c => (.call c.1 c.2 : Op α))).countP isExpect = 0 := by
    rw [List.countP_eq_zero]
    intro op hop
    obtain ⟨c, -, rfl⟩ := List.mem_map.mp hop
    simp [isExpect]
  have h3 : (List.replicate mocks (.newMock : Op α)).countP isExpect = 0 := by
    rw [List.countP_eq_zero]
    intro op hop
    rw [(List.mem_replicate.mp hop).2]
    simp [isExpect]
  have h4 : (parts.map (fun p => (.expect p.mock p.min p.max [0] p.policies : Op α))).countP isExpect = parts.length := by
    rw [List.countP_map, List.countP_eq_length]
    intro p _
    rfl
  simp [test, List.countP_append, h1, h2, h3, h4, isExpect]

end Mimic.Language
