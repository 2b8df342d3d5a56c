import Verif.Spec.Tell
import Verif.Proofs.SpecRun
import Verif.Props.Alike
import Verif.Props.Reorder

/-!
# Lemmas about declarations that mean the same
-/

set_option autoImplicit false

namespace Mimic.Tell

variable {α : Type}

/-! ## Runs of the reference semantics -/

/-- A run in which no sequence gets too long. -/
def Go (S : Spec.State α) (ops : List (Op α)) (evs : List Event) (S' : Spec.State α) : Prop :=
  S.run ops = some (S', evs) ∧ S.fits ops

theorem Go.nil (S : Spec.State α) : Go S [] [] S := ⟨rfl, trivial⟩

theorem Go.cons {S S' S'' : Spec.State α} {o : Op α} {ops : List (Op α)} {ev evs : List Event} (hs : S.step o = some (S', ev))
    (hf : ¬ S.full o) (h : Go S' ops evs S'') : Go S (o :: ops) (ev ++ evs) S'' := by
  refine ⟨by simp [Spec.State.run, hs, h.1], hf, fun S₁ ev₁ h₁ => ?_⟩
  rw [hs] at h₁
  simp only [Option.some.injEq, Prod.mk.injEq] at h₁
  obtain ⟨rfl, rfl⟩ := h₁
  exact h.2

theorem Go.append {S S' S'' : Spec.State α} {ops ops' : List (Op α)} {evs evs' : List Event} (h : Go S ops evs S')
    (h' : Go S' ops' evs' S'') : Go S (ops ++ ops') (evs ++ evs') S'' := by
  induction ops generalizing S evs with
  | nil =>
    have h1 := h.1
    simp only [Spec.State.run, Option.some.injEq, Prod.mk.injEq] at h1
    obtain ⟨rfl, rfl⟩ := h1
    exact h'
  | cons o ops ih =>
    obtain ⟨h1, h2, h3⟩ := h
    simp only [Spec.State.run] at h1
    cases hs : S.step o with
    | none => simp [hs] at h1
    | some v =>
      obtain ⟨S₁, ev⟩ := v
      simp only [hs] at h1
      cases hr : S₁.run ops with
      | none => simp [hr] at h1
      | some v =>
        obtain ⟨S₂, ev'⟩ := v
        simp only [hr, Option.some.injEq, Prod.mk.injEq] at h1
        obtain ⟨rfl, rfl⟩ := h1
        have := Go.cons hs h2 (ih ⟨hr, h3 S₁ ev hs⟩)
        simpa [List.append_assoc] using this

theorem Go.program {ops : List (Op α)} {evs : List Event} {S : Spec.State α} (h : Go Spec.State.init ops evs S) :
    ∃ w, runProgram ops = .ok (w, evs) := by
  have := (run_iff_spec (tr := []) (w := World.init) .init (ops := ops) (evs := evs)).mpr ⟨⟨S, h.1⟩, h.2⟩
  exact this

/-! ## The tests that tell declarations from each other -/

/-- `N` sequences and `n` mocks. -/
def setup (N n : Nat) : List (Op α) := List.replicate N (.newSequence .lazy) ++ List.replicate n .newMock

/-- The state after that. -/
def base (N n : Nat) : Spec.State α := { seqs := List.replicate N { strategy := .lazy, handle := true }, exps := [], mocks := n }

theorem setup_seqs (N : Nat) : ∃ evs, Go (Spec.State.init : Spec.State α) (List.replicate N (.newSequence .lazy)) evs (base N 0) ∧
    evs.filter reported = [] := by
  induction N with
  | zero => exact ⟨[], .nil _, rfl⟩
  | succ N ih =>
    obtain ⟨evs, h1, h2⟩ := ih
    refine ⟨evs ++ ([.sequenceCreated N .lazy] ++ []), ?_, by simp [h2, reported]⟩
    rw [List.replicate_succ']
    refine h1.append (.cons (S' := base (N + 1) 0) ?_ (by simp [Spec.State.full]) (.nil _))
    simp [Spec.State.step, base, List.replicate_succ']

theorem setup_mocks (N n : Nat) : ∃ evs, Go (base N 0 : Spec.State α) (List.replicate n .newMock) evs (base N n) ∧
    evs.filter reported = [] := by
  induction n with
  | zero => exact ⟨[], .nil _, rfl⟩
  | succ n ih =>
    obtain ⟨evs, h1, h2⟩ := ih
    refine ⟨evs ++ ([.mockCreated n] ++ []), ?_, by simp [h2, reported]⟩
    rw [List.replicate_succ']
    refine h1.append (.cons (S' := base N (n + 1)) ?_ (by simp [Spec.State.full]) (.nil _))
    simp [Spec.State.step, base]

theorem setup_go (N n : Nat) : ∃ evs, Go (Spec.State.init : Spec.State α) (setup N n) evs (base N n) ∧ evs.filter reported = [] := by
  obtain ⟨evs, h1, h2⟩ := setup_seqs (α := α) N
  obtain ⟨evs', h3, h4⟩ := setup_mocks (α := α) N n
  exact ⟨_, h1.append h3, by simp [h2, h4]⟩

/-- The expectation after `c` calls. -/
def entry (i : Nat) (d : Decl α) (c : Nat) (alive : Bool) : Spec.Exp α :=
  { id := i, mock := d.mock, min := d.min, max := d.max, seqs := d.seqs, policies := d.policies, count := c, alive := alive }

/-- There are enough mocks and sequences for the declaration. -/
structure Fits (N n : Nat) (d : Decl α) : Prop where
  mock : d.mock < n
  seqs : ∀ q ∈ d.seqs, q < N

theorem base_handle (N n : Nat) (es : List (Spec.Exp α)) {q : Nat} (h : q < N) :
    ({ (base N n : Spec.State α) with exps := es }).hasHandle q = true := by
  simp [Spec.State.hasHandle, base, h]

theorem declare {N n : Nat} {d : Decl α} (hd : Proper d) (hf : Fits N n d) (es : List (Spec.Exp α)) (hl : es.length < 2147483647)
    {ops : List (Op α)} {evs : List Event} {S : Spec.State α}
    (h : Go { (base N n : Spec.State α) with exps := es ++ [entry es.length d 0 true] } ops evs S) :
    Go { (base N n : Spec.State α) with exps := es } (op d :: ops) (.created es.length :: evs) S := by
  have := Go.cons (S := { (base N n : Spec.State α) with exps := es }) (o := op d) (ev := [.created es.length]) ?_ ?_ h
  · exact this
  · have h1 : d.seqs.all ({ (base N n : Spec.State α) with exps := es }).hasHandle = true :=
      List.all_eq_true.mpr fun q hq => base_handle N n es (hf.seqs q hq)
    have h2 : isInt d.min = true := by
      have := hd.low; have := hd.order; have := hd.high
      simp only [isInt, Bool.and_eq_true, decide_eq_true_eq]
      unfold intMin intMax at *
      omega
    have h3 : isInt d.max = true := by
      have := hd.low; have := hd.order; have := hd.high
      simp only [isInt, Bool.and_eq_true, decide_eq_true_eq]
      unfold intMin intMax at *
      omega
    have h4 : d.mock < (base N n : Spec.State α).mocks := hf.mock
    simp only [op, Spec.State.step]
    rw [if_pos ⟨h4, h1, h2, h3⟩, if_pos ⟨⟨hd.low, hd.order⟩, hd.distinct⟩]
    rfl
  · simp only [op, Spec.State.full]
    rintro ⟨-, -, s, -, hs⟩
    apply hs
    exact Int.le_trans (Int.ofNat_le.mpr (List.length_filter_le ..)) (by unfold intMax; exact Int.ofNat_le.mpr (Nat.le_of_lt hl))

@[simp] theorem entry_id (i : Nat) (d : Decl α) (c : Nat) (b : Bool) : (entry i d c b).id = i := rfl

/-- What the expectation says about a call. -/
theorem says_cases (d : Decl α) (i c : Nat) (b : Bool) (a : α) :
    (Policy.says d.policies a = none → (entry i d c b).throws a = true ∧ (entry i d c b).accepts a = false) ∧
    (Policy.says d.policies a = some false → (entry i d c b).throws a = false ∧ (entry i d c b).accepts a = false) ∧
    (Policy.says d.policies a = some true → (entry i d c b).throws a = false ∧ (entry i d c b).accepts a = true) := by
  have ht : (entry i d c b).throws a = d.policies.any (fun p => p.accepts a == none) := rfl
  have ha : (entry i d c b).accepts a = d.policies.all (fun p => p.accepts a == some true) := rfl
  rw [ht, ha]
  unfold Policy.says
  refine ⟨fun h => ?_, fun h => ?_, fun h => ?_⟩
  · split at h
    · rename_i hp
      refine ⟨hp, ?_⟩
      rw [List.any_eq_true] at hp
      obtain ⟨p, hp1, hp2⟩ := hp
      cases hall : d.policies.all (fun p => p.accepts a == some true) with
      | false => rfl
      | true =>
        rw [List.all_eq_true] at hall
        have := hall p hp1
        simp only [beq_iff_eq] at this hp2
        rw [hp2] at this
        cases this
    · cases h
  · split at h
    · cases h
    · rename_i hp
      simp only [Option.some.injEq] at h
      exact ⟨by simpa using hp, h⟩
  · split at h
    · cases h
    · rename_i hp
      simp only [Option.some.injEq] at h
      exact ⟨by simpa using hp, h⟩

/-- The state with the one expectation. -/
def single (N n : Nat) (d : Decl α) (c : Nat) : Spec.State α := { (base N n : Spec.State α) with exps := [entry 0 d c true] }

theorem single_applicable (N n : Nat) (d : Decl α) (c : Nat) :
    (single N n d c).applicable (entry 0 d c true) = decide ((c : Int) < d.max) := by
  unfold Spec.State.applicable
  have : (entry 0 d c true).seqs.all (fun s => ((single N n d c).attached s).all (fun y =>
      (!decide (y.id < (entry 0 d c true).id) || decide (y.min ≤ (y.count : Int)))
      && (!decide ((entry 0 d c true).id < y.id) || y.count == 0))) = true := by
    rw [List.all_eq_true]
    intro s _
    rw [List.all_eq_true]
    intro y hy
    have : y = entry 0 d c true := by
      have := (List.mem_filter.mp hy).1
      simpa [single] using this
    subst this
    simp [entry]
  rw [this, Bool.and_true]
  rfl

theorem single_candidates (N n : Nat) (d : Decl α) (c m : Nat) :
    (single N n d c).candidates m = if d.mock = m then [entry 0 d c true] else [] := by
  unfold Spec.State.candidates single
  by_cases h : d.mock = m
  · simp [entry, h]
  · simp [entry, h]

/-- What a call of mock `m` with `a` leads to if there is only the one expectation. -/
def answer (d : Decl α) (m : Nat) (a : α) : List Event :=
  if d.mock = m then
    match Policy.says d.policies a with
    | none => [.unhandled 0, .noMatch []]
    | some false => [.noMatch [0]]
    | some true => if 0 < d.max then [.fullMatch 0] else [.inapplicable [0]]
  else [.noMatch []]

theorem first_call {N n : Nat} {d : Decl α} {m : Nat} (hm : m < n) (a : α) :
    ∃ S, Go (single N n d 0) [.call m a] (answer d m a) S := by
  have hmm : m < (single N n d 0).mocks := hm
  have : (single N n d 0).call m a = (((single N n d 0).call m a).1, answer d m a, ((single N n d 0).call m a).2.2) := by
    obtain ⟨s1, s2, s3⟩ := says_cases d 0 0 true a
    unfold Spec.State.call answer
    simp only [single_candidates]
    by_cases h : d.mock = m
    · simp only [h, if_true]
      cases hs : Policy.says d.policies a with
      | none =>
        obtain ⟨t1, t2⟩ := s1 hs
        simp [t1, t2]
      | some b =>
        cases b with
        | false =>
          obtain ⟨t1, t2⟩ := s2 hs
          simp [t1, t2]
        | true =>
          obtain ⟨t1, t2⟩ := s3 hs
          have h3 := single_applicable N n d 0
          by_cases hmax : 0 < d.max
          · have h3' : (single N n d 0).applicable (entry 0 d 0 true) = true := by rw [h3]; simpa using hmax
            simp [t1, t2, h3', hmax, Spec.State.select]
          · have h3' : (single N n d 0).applicable (entry 0 d 0 true) = false := by rw [h3]; simpa using hmax
            simp [t1, t2, h3', hmax]
    · simp [h]
  refine ⟨((single N n d 0).call m a).1, ?_⟩
  have h2 := Go.cons (S := single N n d 0) (o := .call m a) (ev := answer d m a) (S' := ((single N n d 0).call m a).1) ?_
    (by simp [Spec.State.full]) (.nil _)
  · simpa using h2
  · simp only [Spec.State.step, hmm, if_true]
    rw [this]

/-- One more accepted call. -/
theorem next_call {N n : Nat} {d : Decl α} {a : α} (hm : d.mock < n) (hs : Policy.says d.policies a = some true) (c : Nat)
    {ops : List (Op α)} {evs : List Event} {S : Spec.State α} :
    ((c : Int) < d.max → Go (single N n d (c + 1)) ops evs S → Go (single N n d c) (.call d.mock a :: ops) (.fullMatch 0 :: evs) S) ∧
    (¬ (c : Int) < d.max → Go (single N n d c) ops evs S → Go (single N n d c) (.call d.mock a :: ops) (.inapplicable [0] :: evs) S) := by
  have hmm : d.mock < (single N n d c).mocks := hm
  obtain ⟨t1, t2⟩ := (says_cases d 0 c true a).2.2 hs
  have h3 := single_applicable N n d c
  constructor
  · intro hc h
    refine Go.cons (ev := [.fullMatch 0]) ?_ (by simp [Spec.State.full]) h
    have h3' : (single N n d c).applicable (entry 0 d c true) = true := by rw [h3]; simpa using hc
    simp only [Spec.State.step, hmm, if_true, Spec.State.call, single_candidates]
    simp [t1, t2, h3', Spec.State.select, Spec.State.countMatch]
    simp [single, entry]
  · intro hc h
    refine Go.cons (ev := [.inapplicable [0]]) ?_ (by simp [Spec.State.full]) h
    have h3' : (single N n d c).applicable (entry 0 d c true) = false := by rw [h3]; simpa using hc
    simp only [Spec.State.step, hmm, if_true, Spec.State.call, single_candidates]
    simp [t1, t2, h3']

/-- What `k` accepted calls lead to, if `c` have been before. -/
def series (d : Decl α) : Nat → Nat → List Event
  | 0, c => .destroyed 0 :: (if (c : Int) < d.min then [.unfulfilled 0] else [])
  | k + 1, c => if (c : Int) < d.max then .fullMatch 0 :: series d k (c + 1) else .inapplicable [0] :: series d k c

theorem released {N n : Nat} {es : List (Spec.Exp α)} {ss : List Nat} (h : ∀ q ∈ ss, q < N) :
    ({ (base N n : Spec.State α) with exps := es }).release ss = [] := by
  unfold Spec.State.release
  rw [List.flatMap_eq_nil_iff]
  intro q hq
  have : ({ (base N n : Spec.State α) with exps := es }).owned q = true := by
    simp [Spec.State.owned, base, h q hq]
  simp [this]

/-- The end of the expectation. -/
theorem end_go {N n : Nat} {d : Decl α} (hd : Proper d) (hf : Fits N n d) (c : Nat) :
    ∃ S, Go (single N n d c) [.destroy 0] (series d 0 c) S := by
  have hcont : d.policies.all (·.isSatisfied) = true := List.all_eq_true.mpr hd.content
  refine ⟨(single N n d c).withdraw 0, ?_⟩
  · have := Go.cons (S := single N n d c) (o := .destroy 0) (S' := (single N n d c).withdraw 0) (ev := series d 0 c) ?_
      (by simp [Spec.State.full]) (.nil _)
    · simpa using this
    · have hfind : (single N n d c).exps.find? (fun x => x.id == 0 && x.alive) = some (entry 0 d c true) := by
        simp [single, entry]
      simp only [Spec.State.step, hfind]
      have hrel : ((single N n d c).withdraw 0).release (entry 0 d c true).seqs = [] :=
        released (es := ((single N n d c).withdraw 0).exps) hf.seqs
      rw [hrel]
      simp only [series, Option.some.injEq, Prod.mk.injEq, true_and, List.append_nil]
      have : (entry 0 d c true).policies.all (·.isSatisfied) = true := hcont
      rw [this]
      by_cases hlt : (c : Int) < d.min
      · simp [Spec.Exp.unfulfilled, entry, hlt]
      · simp [Spec.Exp.unfulfilled, entry, hlt]

theorem series_go {N n : Nat} {d : Decl α} (hd : Proper d) (hf : Fits N n d) {a : α} (hs : Policy.says d.policies a = some true)
    (k c : Nat) : ∃ S, Go (single N n d c) (List.replicate k (.call d.mock a) ++ [.destroy 0]) (series d k c) S := by
  induction k generalizing c with
  | zero => exact end_go hd hf c
  | succ k ih =>
    by_cases hc : (c : Int) < d.max
    · obtain ⟨S, h⟩ := ih (c + 1)
      refine ⟨S, ?_⟩
      simp only [List.replicate_succ, List.cons_append, series, hc, if_true]
      exact (next_call hf.mock hs c).1 hc h
    · obtain ⟨S, h⟩ := ih c
      refine ⟨S, ?_⟩
      simp only [List.replicate_succ, List.cons_append, series, hc, if_false]
      exact (next_call hf.mock hs c).2 hc h

/-- The first call too many is noticed. -/
theorem series_inapplicable {d : Decl α} (k c : Nat) : Event.inapplicable [0] ∈ series d k c ↔ 0 < k ∧ d.max < (c : Int) + k := by
  induction k generalizing c with
  | zero =>
    simp only [series]
    split <;> simp
  | succ k ih =>
    simp only [series]
    split
    · rw [List.mem_cons, ih]
      simp only [reduceCtorEq, false_or]
      constructor
      · rintro ⟨_, h⟩
        exact ⟨by omega, by omega⟩
      · rintro ⟨_, h⟩
        exact ⟨by omega, by omega⟩
    · simp only [List.mem_cons, true_or, true_iff]
      exact ⟨by omega, by omega⟩

/-- Calls that are missing are noticed. -/
theorem series_unfulfilled {d : Decl α} (ho : d.min ≤ d.max) (k c : Nat) :
    Event.unfulfilled 0 ∈ series d k c ↔ (c : Int) + k < d.min := by
  induction k generalizing c with
  | zero =>
    simp only [series]
    split
    · rename_i h
      simp
      omega
    · rename_i h
      simp
      omega
  | succ k ih =>
    simp only [series]
    split
    · rw [List.mem_cons, ih]
      simp only [reduceCtorEq, false_or]
      constructor <;> intro h <;> omega
    · rw [List.mem_cons, ih]
      simp only [reduceCtorEq, false_or]
      constructor <;> intro h <;> omega

/-- An expectation that demands one call in sequence `q`. -/
def guard (m q : Nat) : Decl α := { mock := m, min := 1, max := 1, seqs := [q], policies := [] }

theorem guard_proper (m q : Nat) : Proper (guard m q : Decl α) :=
  ⟨by simp [guard], by simp [guard], by simp [guard], by simp [guard], by simp [guard]⟩

/-- The end of an expectation while all sequences have handles. -/
theorem destroy_go {N n : Nat} {es : List (Spec.Exp α)} {e : Nat} {x : Spec.Exp α}
    (hx : es.find? (fun x => x.id == e && x.alive) = some x) (hs : ∀ q ∈ x.seqs, q < N) {ops : List (Op α)} {evs : List Event}
    {S : Spec.State α}
    (h : Go { (base N n : Spec.State α) with exps := es.map (fun x => if x.id = e then { x with alive := false } else x) } ops evs S) :
    ∃ mid : List Event, (∀ ev ∈ mid, ev = .destroyed e ∨ ev = .unfulfilled e) ∧
      Go { (base N n : Spec.State α) with exps := es } (.destroy e :: ops) (mid ++ evs) S := by
  refine ⟨_, ?_, Go.cons (S := { (base N n : Spec.State α) with exps := es }) (o := .destroy e)
    (ev := .destroyed e :: (if x.unfulfilled || !(x.policies.all (·.isSatisfied)) then [Event.unfulfilled e] else [])) ?_
    (by simp [Spec.State.full]) h⟩
  · intro ev hev
    rcases List.mem_cons.mp hev with h | h
    · exact .inl h
    · split at h
      · exact .inr (by simpa using h)
      · cases h
  · have hrel : (({ (base N n : Spec.State α) with exps := es }).withdraw e).release x.seqs = [] :=
      released (es := (({ (base N n : Spec.State α) with exps := es }).withdraw e).exps) hs
    simp only [Spec.State.step, hx]
    rw [hrel, List.append_nil]
    rfl

/-- What the end of sequence `q` tells about the expectation. -/
theorem sequence_go {N n : Nat} {d : Decl α} (hd : Proper d) (hf : Fits N n d) {m q : Nat} (hm : m < n) (hq : q < N) :
    ∃ (mid last : List Event) (S : Spec.State α), (∀ ev ∈ mid, ∀ k l, ev ≠ .sequenceError q k l) ∧
      (if q ∈ d.seqs then ∃ k, last = [.sequenceError q k 2, .sequenceDestroyed q]
        else last = [.sequenceError q 0 1, .sequenceDestroyed q]) ∧
      Go (base N n) (op d :: op (guard m q) :: [.destroy 0, .destroy 1, .dropSequence q]) (mid ++ last) S := by
  let E : List (Spec.Exp α) := [entry 0 d 0 false, entry 1 (guard m q) 0 false]
  let T : Spec.State α := { (base N n : Spec.State α) with exps := E, seqs := (base N n : Spec.State α).seqs.modify q (fun x => { x with handle := false }) }
  have howned : T.owned q = false := by
    have : (List.replicate N ({ strategy := .lazy, handle := true } : Spec.Seq))[q]? = some { strategy := .lazy, handle := true } := by
      simp [hq]
    simp only [Spec.State.owned, T, base, E]
    rw [List.getElem?_modify, this]
    simp [entry]
  have hlast : Go { (base N n : Spec.State α) with exps := E } [.dropSequence q] (T.sequenceEnd q ++ []) T := by
    refine Go.cons ?_ (by simp [Spec.State.full]) (.nil _)
    simp only [Spec.State.step, base_handle N n E hq, if_true]
    have : T.release [q] = T.sequenceEnd q := by simp [Spec.State.release, howned]
    rw [← this]
  obtain ⟨m2, k2, g2⟩ := destroy_go (N := N) (n := n) (es := [entry 0 d 0 false, entry 1 (guard m q) 0 true]) (e := 1)
    (x := entry 1 (guard m q) 0 true) (by simp [entry]) (by simp [entry, guard, hq]) (by simpa [entry, E] using hlast)
  obtain ⟨m1, k1, g1⟩ := destroy_go (N := N) (n := n) (es := [entry 0 d 0 true, entry 1 (guard m q) 0 true]) (e := 0)
    (x := entry 0 d 0 true) (by simp [entry]) hf.seqs (by simpa [entry] using g2)
  have g3 := declare hd hf [] (by simp) (declare (guard_proper m q) (N := N) (n := n)
    ⟨hm, by simp [guard, hq]⟩ [entry 0 d 0 true] (by simp) g1)
  refine ⟨.created 0 :: .created 1 :: (m1 ++ m2), T.sequenceEnd q, T, ?_, ?_, ?_⟩
  · intro ev hev k l
    simp only [List.mem_cons, List.mem_append] at hev
    rcases hev with h | h | h | h
    · rw [h]; simp
    · rw [h]; simp
    · rcases k1 ev h with h | h <;> rw [h] <;> simp
    · rcases k2 ev h with h | h <;> rw [h] <;> simp
  · split
    · rename_i hin
      have ha : T.attached q = E := by simp [Spec.State.attached, T, E, entry, guard, hin]
      unfold Spec.State.sequenceEnd
      rw [ha]
      by_cases hu : (entry 0 d 0 false).unfulfilled = true
      · exact ⟨0, by simp [E, List.findIdx?_cons, hu]⟩
      · have hg : (entry 1 (guard m q) 0 false : Spec.Exp α).unfulfilled = true := by simp [Spec.Exp.unfulfilled, entry, guard]
        exact ⟨1, by simp [E, List.findIdx?_cons, hu, hg]⟩
    · rename_i hin
      have ha : T.attached q = [entry 1 (guard m q) 0 false] := by simp [Spec.State.attached, T, E, entry, guard, hin]
      have hg : (entry 1 (guard m q) 0 false : Spec.Exp α).unfulfilled = true := by simp [Spec.Exp.unfulfilled, entry, guard]
      unfold Spec.State.sequenceEnd
      rw [ha]
      simp [List.findIdx?_cons, hg]
  · have : Go (base N n) (op d :: op (guard m q) :: [.destroy 0, .destroy 1, .dropSequence q])
        (.created 0 :: .created 1 :: (m1 ++ (m2 ++ T.sequenceEnd q))) T := g3
    simpa [List.append_assoc] using this

/-! ## Using that no test tells the declarations from each other -/

/-- If both tests are known, then the same is reported. -/
theorem same_reports {d d' : Decl α} (h : Replaceable d d') {N n : Nat} {after : List (Op α)} {evs evs' : List Event}
    {S S' : Spec.State α} (hg : Go (base N n) (op d :: after) evs S) (hg' : Go (base N n) (op d' :: after) evs' S') :
    (evs.filter reported).Perm (evs'.filter reported) := by
  obtain ⟨ev0, h0, h1⟩ := setup_go (α := α) N n
  obtain ⟨w, hw⟩ := (h0.append hg).program
  obtain ⟨w', hw'⟩ := (h0.append hg').program
  obtain ⟨w₂, ev₂, h2, h3⟩ := h _ _ _ _ hw
  rw [hw'] at h2
  simp only [Except.ok.injEq, Prod.mk.injEq] at h2
  obtain ⟨-, rfl⟩ := h2
  simpa [h1] using h3

theorem bound (l : List Nat) : ∃ N, ∀ q ∈ l, q < N := by
  induction l with
  | nil => exact ⟨0, by simp⟩
  | cons a l ih =>
    obtain ⟨N, h⟩ := ih
    refine ⟨N + a + 1, fun q hq => ?_⟩
    rcases List.mem_cons.mp hq with h' | h'
    · omega
    · have := h q h'
      omega

theorem room (d d' : Decl α) : ∃ N n, Fits N n d ∧ Fits N n d' := by
  obtain ⟨N, h⟩ := bound (d.seqs ++ d'.seqs)
  exact ⟨N, d.mock + d'.mock + 1, ⟨by omega, fun q hq => h q (List.mem_append_left _ hq)⟩,
    ⟨by omega, fun q hq => h q (List.mem_append_right _ hq)⟩⟩

theorem same_answer {d d' : Decl α} (h : Replaceable d d') (hd : Proper d) (hd' : Proper d') (m : Nat) (a : α) :
    (answer d m a).Perm (answer d' m a) := by
  obtain ⟨N, n, hf, hf'⟩ := room d d'
  have hf : Fits N (n + m + 1) d := ⟨by have := hf.mock; omega, hf.seqs⟩
  have hf' : Fits N (n + m + 1) d' := ⟨by have := hf'.mock; omega, hf'.seqs⟩
  obtain ⟨S, h1⟩ := first_call (N := N) (n := n + m + 1) (d := d) (m := m) (by omega) a
  obtain ⟨S', h2⟩ := first_call (N := N) (n := n + m + 1) (d := d') (m := m) (by omega) a
  have := same_reports h (declare hd hf [] (by simp) h1) (declare hd' hf' [] (by simp) h2)
  have key : ∀ d : Decl α, (Event.created 0 :: answer d m a).filter reported = answer d m a := by
    intro d
    unfold answer
    split
    · split
      · rfl
      · rfl
      · split <;> rfl
    · rfl
  rwa [show ([] : List (Spec.Exp α)).length = 0 from rfl, key, key] at this

theorem same_series {d d' : Decl α} (h : Replaceable d d') (hd : Proper d) (hd' : Proper d') (hm : d.mock = d'.mock) {a : α}
    (ha : Policy.says d.policies a = some true) (ha' : Policy.says d'.policies a = some true) (k : Nat) :
    ((series d k 0).filter reported).Perm ((series d' k 0).filter reported) := by
  obtain ⟨N, n, hf, hf'⟩ := room d d'
  obtain ⟨S, h1⟩ := series_go hd hf ha k 0
  obtain ⟨S', h2⟩ := series_go hd' hf' ha' k 0
  rw [← hm] at h2
  have := same_reports h (declare hd hf [] (by simp) h1) (declare hd' hf' [] (by simp) h2)
  simpa [reported] using this

theorem same_limits {d d' : Decl α} (h : Replaceable d d') (hd : Proper d) (hd' : Proper d') (hm : d.mock = d'.mock) {a : α}
    (ha : Policy.says d.policies a = some true) (ha' : Policy.says d'.policies a = some true) : d.min = d'.min ∧ d.max = d'.max := by
  have key : ∀ (k : Nat) (ev : Event), reported ev = true → (ev ∈ series d k 0 ↔ ev ∈ series d' k 0) := by
    intro k ev hr
    have := (same_series h hd hd' hm ha ha' k).mem_iff (a := ev)
    simpa [List.mem_filter, hr] using this
  have hmax : ∀ k : Nat, d.max < ((k + 1 : Nat) : Int) ↔ d'.max < ((k + 1 : Nat) : Int) := by
    intro k
    have := key (k + 1) (.inapplicable [0]) rfl
    rw [series_inapplicable, series_inapplicable] at this
    simpa using this
  have hmin : ∀ k : Nat, (k : Int) < d.min ↔ (k : Int) < d'.min := by
    intro k
    have := key k (.unfulfilled 0) rfl
    rw [series_unfulfilled hd.order, series_unfulfilled hd'.order] at this
    simpa using this
  have := hd.low; have := hd.order; have := hd'.low; have := hd'.order
  have a1 := hmax d.max.toNat
  have a2 := hmax d'.max.toNat
  have b1 := hmin d.min.toNat
  have b2 := hmin d'.min.toNat
  omega

theorem same_sequences {d d' : Decl α} (h : Replaceable d d') (hd : Proper d) (hd' : Proper d') (q : Nat) :
    q ∈ d.seqs ↔ q ∈ d'.seqs := by
  obtain ⟨N, n, hf, hf'⟩ := room d d'
  by_cases hq : q < N
  · obtain ⟨mid, last, S, h1, h2, h3⟩ := sequence_go hd hf (m := d.mock) hf.mock hq
    obtain ⟨mid', last', S', h1', h2', h3'⟩ := sequence_go hd' hf' (m := d.mock) hf.mock hq
    have hp := same_reports h h3 h3'
    have key : ∀ k l, Event.sequenceError q k l ∈ last ↔ Event.sequenceError q k l ∈ last' := by
      intro k l
      have := hp.mem_iff (a := .sequenceError q k l)
      simp only [List.mem_filter, List.mem_append, reported, and_true] at this
      constructor
      · intro hl
        rcases this.mp (.inr hl) with h | h
        · exact absurd rfl (h1' _ h k l)
        · exact h
      · intro hl
        rcases this.mpr (.inr hl) with h | h
        · exact absurd rfl (h1 _ h k l)
        · exact h
    constructor
    · intro hin
      rw [if_pos hin] at h2
      apply Classical.byContradiction
      intro hn
      rw [if_neg hn] at h2'
      obtain ⟨k, rfl⟩ := h2
      have := (key k 2).mp (by simp)
      rw [h2'] at this
      simp at this
    · intro hin
      rw [if_pos hin] at h2'
      apply Classical.byContradiction
      intro hn
      rw [if_neg hn] at h2
      obtain ⟨k, rfl⟩ := h2'
      have := (key k 2).mpr (by simp)
      rw [h2] at this
      simp at this
  · exact ⟨fun h => absurd (hf.seqs q h) hq, fun h => absurd (hf'.seqs q h) hq⟩

theorem same_zero {d d' : Decl α} (h : Replaceable d d') (hd : Proper d) (hd' : Proper d') : d.min = 0 ↔ d'.min = 0 := by
  obtain ⟨N, n, hf, hf'⟩ := room d d'
  obtain ⟨S, h1⟩ := end_go hd hf 0
  obtain ⟨S', h2⟩ := end_go hd' hf' 0
  have key := (same_reports h (declare hd hf [] (by simp) h1) (declare hd' hf' [] (by simp) h2)).mem_iff (a := .unfulfilled 0)
  have l1 := hd.low
  have l2 := hd'.low
  have u := series_unfulfilled hd.order 0 0
  have u' := series_unfulfilled hd'.order 0 0
  simp only [List.mem_filter, List.mem_cons, reported, and_true, reduceCtorEq, false_or] at key
  rw [u, u'] at key
  omega

end Mimic.Tell
