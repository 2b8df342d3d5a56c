import Verif.Spec.History

/-!
# Representation of a sequence object by the list of attached expectations

Helper lemmas: a single sequence object.
-/

set_option autoImplicit false

namespace Mimic

variable {α : Type}

/-- The entry state that belongs to an expectation. -/
def stOf (y : Spec.Exp α) : EState :=
  if (y.count : Int) < y.min then .unsatisfied
  else if (y.count : Int) = y.max ∧ y.min ≠ y.max then .saturated
  else .satisfied

/-- `y` has legal limits and a legal count. -/
structure ExpOk (y : Spec.Exp α) : Prop where
  min_nonneg : 0 ≤ y.min
  min_le_max : y.min ≤ y.max
  max_le : y.max ≤ intMax
  count_le : (y.count : Int) ≤ y.max

/-- The object `q` represents a sequence to which the expectations `A` are attached. -/
structure SeqRep (q : Sequence) (A : List (Spec.Exp α)) : Prop where
  entries : q.entries = A.map stOf
  len : (A.length : Int) ≤ intMax + 1
  cur_nonneg : 0 ≤ q.cursor
  cur_le : q.cursor = 0 ∨ q.cursor < A.length
  before : ∀ (n : Nat) (y : Spec.Exp α), A[n]? = some y → (n : Int) < q.cursor → y.min ≤ y.count
  after : ∀ (n : Nat) (y : Spec.Exp α), A[n]? = some y → q.cursor < (n : Int) → y.count = 0
  at_cur : ∀ (n : Nat) (y : Spec.Exp α), A[n]? = some y → (n : Int) = q.cursor → 0 < n → 0 < y.count

/-- `x` may be consumed as far as the expectations `A` of one sequence are concerned. -/
def okIn (A : List (Spec.Exp α)) (x : Spec.Exp α) : Bool :=
  A.all (fun y =>
    (!decide (y.id < x.id) || decide (y.min ≤ (y.count : Int)))
      && (!decide (x.id < y.id) || y.count == 0))

theorem done_stOf (y : Spec.Exp α) : (stOf y).done = decide (y.min ≤ (y.count : Int)) := by
  unfold stOf EState.done
  split
  · rename_i h
    have : ¬ (y.min ≤ (y.count : Int)) := by omega
    simp [this]
  · rename_i h
    have : y.min ≤ (y.count : Int) := by omega
    split <;> simp [this]

theorem stOf_not_saturated {y : Spec.Exp α} (h : (y.count : Int) < y.max) :
    (stOf y == .unsatisfied || stOf y == .satisfied) = true := by
  unfold stOf
  split
  · simp
  · split
    · omega
    · simp

/-- ids increase along the list -/
abbrev Sorted (A : List (Spec.Exp α)) : Prop := A.Pairwise (fun a b => a.id < b.id)

theorem sorted_getElem?_lt {A : List (Spec.Exp α)} (hs : Sorted A) {m n : Nat} {x y : Spec.Exp α}
    (hm : A[m]? = some y) (hn : A[n]? = some x) : y.id < x.id ↔ m < n := by
  obtain ⟨hm', rfl⟩ := List.getElem?_eq_some_iff.mp hm
  obtain ⟨hn', rfl⟩ := List.getElem?_eq_some_iff.mp hn
  have key := List.pairwise_iff_getElem.mp hs
  constructor
  · intro h
    rcases Nat.lt_trichotomy m n with h1 | h1 | h1
    · exact h1
    · subst h1; omega
    · have := key n m hn' hm' h1; omega
  · intro h; exact key m n hm' hn' h

theorem sorted_getElem?_id {A : List (Spec.Exp α)} (hs : Sorted A) {m n : Nat} {x y : Spec.Exp α}
    (hm : A[m]? = some y) (hn : A[n]? = some x) (h : y.id = x.id) : m = n := by
  have h1 := sorted_getElem?_lt hs hm hn
  have h2 := sorted_getElem?_lt hs hn hm
  omega

theorem okIn_iff {A : List (Spec.Exp α)} (hs : Sorted A) {n : Nat} {x : Spec.Exp α}
    (hn : A[n]? = some x) :
    okIn A x = true ↔
      (∀ m y, A[m]? = some y → m < n → y.min ≤ (y.count : Int)) ∧
      (∀ m y, A[m]? = some y → n < m → y.count = 0) := by
  unfold okIn
  rw [List.all_eq_true]
  constructor
  · intro h
    refine ⟨fun m y hm hlt => ?_, fun m y hm hlt => ?_⟩
    · have := h y (List.mem_of_getElem? hm)
      have hlt' := (sorted_getElem?_lt hs hm hn).mpr hlt
      simp [hlt'] at this
      exact this.1
    · have := h y (List.mem_of_getElem? hm)
      have hlt' := (sorted_getElem?_lt hs hn hm).mpr hlt
      simp [hlt'] at this
      exact this.2
  · rintro ⟨h1, h2⟩ y hy
    obtain ⟨m, hm⟩ := List.mem_iff_getElem?.mp hy
    have e1 := sorted_getElem?_lt hs hm hn
    have e2 := sorted_getElem?_lt hs hn hm
    have := h1 m y hm
    have := h2 m y hm
    simp
    constructor
    · rcases Nat.lt_or_ge m n with h | h
      · right; exact h1 m y hm h
      · left; omega
    · rcases Nat.lt_or_ge n m with h | h
      · right; exact h2 m y hm h
      · left; omega

theorem getElem?_lt {β : Type} {l : List β} {n : Nat} {x : β} (h : l[n]? = some x) :
    n < l.length := by
  obtain ⟨h', _⟩ := List.getElem?_eq_some_iff.mp h
  exact h'

theorem SeqRep.isConsumable {q : Sequence} {A : List (Spec.Exp α)} (h : SeqRep q A)
    (hs : Sorted A) {n : Nat} {x : Spec.Exp α} (hn : A[n]? = some x)
    (hx : (x.count : Int) < x.max) : q.isConsumable n = .ok (okIn A x) := by
  have hlen := getElem?_lt hn
  have hent : q.entries[n]? = some (stOf x) := by
    rw [h.entries, List.getElem?_map, hn]; rfl
  have hlen' : q.entries.length = A.length := by rw [h.entries, List.length_map]
  have hok := okIn_iff hs hn
  have h0 := h.cur_nonneg
  have hnn : ¬ ((n : Int) < 0) := by omega
  simp only [Sequence.isConsumable, Sequence.isValid, check, Sequence.entry, hnn, if_false,
    Int.toNat_natCast, hent, hlen', bind, Except.bind, pure, Except.pure]
  have c1 : (decide (0 ≤ (n : Int)) && decide ((n : Int) < (A.length : Int))) = true := by
    simp; omega
  simp only [c1, if_true]
  have c2 : decide (0 ≤ q.cursor) = true := by simp [h0]
  simp only [c2, if_true, stOf_not_saturated hx, Bool.and_true]
  split
  · rename_i hcur
    congr 1
    rw [Bool.eq_iff_iff, hok, List.all_eq_true]
    constructor
    · intro hall
      refine ⟨fun m y hm hlt => ?_, fun m y hm hlt => ?_⟩
      · rcases Int.lt_or_le (m : Int) q.cursor with hc | hc
        · exact h.before m y hm hc
        · have hmem : stOf y ∈ List.drop q.cursor.toNat (List.take n q.entries) := by
            rw [List.mem_iff_getElem?]
            refine ⟨m - q.cursor.toNat, ?_⟩
            rw [List.getElem?_drop, List.getElem?_take]
            have : q.cursor.toNat + (m - q.cursor.toNat) = m := by omega
            rw [this, if_pos hlt, h.entries, List.getElem?_map, hm]; rfl
          have := hall _ hmem
          rw [done_stOf] at this
          simpa using this
      · exact h.after m y hm (by omega)
    · rintro ⟨h1, _⟩ st hst
      obtain ⟨k, hk⟩ := List.mem_iff_getElem?.mp hst
      rw [List.getElem?_drop, List.getElem?_take] at hk
      split at hk
      · rename_i hlt
        rw [h.entries, List.getElem?_map] at hk
        cases hA : A[q.cursor.toNat + k]? with
        | none => rw [hA] at hk; simp at hk
        | some y =>
          rw [hA] at hk
          simp at hk
          subst hk
          rw [done_stOf]
          simpa using h1 _ y hA hlt
      · simp at hk
  · rename_i hcur
    congr 1
    rw [eq_comm, Bool.eq_false_iff]
    intro hk
    have ⟨_, h2⟩ := hok.mp hk
    rcases h.cur_le with hc | hc
    · omega
    · have hex : A[q.cursor.toNat]? = some A[q.cursor.toNat] := by
        rw [List.getElem?_eq_getElem]
      have e1 := h2 q.cursor.toNat _ hex (by omega)
      have e2 := h.at_cur q.cursor.toNat _ hex (by omega) (by omega)
      omega

/-- The priority of position `n` relative to cursor `c`. -/
def prio (st : Strategy) (n : Nat) (c : Int) : Int :=
  match st with
  | .lazy => intMax - (n - c)
  | .greedy => n - c

theorem Strategy.priority_ok {st : Strategy} {n : Nat} {c : Int} (h0 : 0 ≤ c) (h1 : c ≤ n)
    (h2 : (n : Int) ≤ intMax) : st.priority n c = .ok (prio st n c) := by
  have e1 : intMin ≤ (n : Int) - c ∧ (n : Int) - c ≤ intMax := by
    simp only [intMin, intMax] at *; omega
  have e2 : intMin ≤ intMax - ((n : Int) - c) ∧ intMax - ((n : Int) - c) ≤ intMax := by
    simp only [intMin, intMax] at *; omega
  cases st <;>
    simp [Strategy.priority, check, h1, toInt, bind, Except.bind, pure, Except.pure, prio, e1, e2]

theorem okIn_cursor_le {q : Sequence} {A : List (Spec.Exp α)} (h : SeqRep q A) (hs : Sorted A)
    {n : Nat} {x : Spec.Exp α} (hn : A[n]? = some x) (hok : okIn A x = true) : q.cursor ≤ n := by
  have ⟨_, h2⟩ := (okIn_iff hs hn).mp hok
  rcases h.cur_le with hc | hc
  · omega
  · rcases Int.lt_or_le (n : Int) q.cursor with hlt | hle
    · have h0 := h.cur_nonneg
      have hex : A[q.cursor.toNat]? = some A[q.cursor.toNat] := by
        rw [List.getElem?_eq_getElem]
      have e1 := h2 q.cursor.toNat _ hex (by omega)
      have e2 := h.at_cur q.cursor.toNat _ hex (by omega) (by omega)
      omega
    · exact hle

theorem SeqRep.isValid {q : Sequence} {A : List (Spec.Exp α)} (h : SeqRep q A)
    {n : Nat} {x : Spec.Exp α} (hn : A[n]? = some x) : q.isValid n = true := by
  have hlen := getElem?_lt hn
  have hlen' : q.entries.length = A.length := by rw [h.entries, List.length_map]
  simp [Sequence.isValid, hlen']; omega

theorem SeqRep.entry {q : Sequence} {A : List (Spec.Exp α)} (h : SeqRep q A)
    {n : Nat} {x : Spec.Exp α} (hn : A[n]? = some x) : q.entry n = .ok (stOf x) := by
  have hent : q.entries[n]? = some (stOf x) := by
    rw [h.entries, List.getElem?_map, hn]; rfl
  have hnn : ¬ ((n : Int) < 0) := by omega
  simp [Sequence.entry, hnn, hent]

theorem SeqRep.priorityOf {q : Sequence} {A : List (Spec.Exp α)} (h : SeqRep q A)
    (hs : Sorted A) {n : Nat} {x : Spec.Exp α} (hn : A[n]? = some x)
    (hx : (x.count : Int) < x.max) :
    q.priorityOf n = .ok (if okIn A x then some (prio q.strategy n q.cursor) else none) := by
  have hlen := getElem?_lt hn
  have hl := h.len
  simp only [Sequence.priorityOf, h.isValid hn, check, if_true, bind, Except.bind,
    h.isConsumable hs hn hx, pure, Except.pure]
  split
  · rename_i hok
    rw [Strategy.priority_ok h.cur_nonneg (okIn_cursor_le h hs hn hok) (by omega)]
  · rfl

/-- One more resolved call for expectation `e`. -/
def bumpExp (e : Nat) (x : Spec.Exp α) : Spec.Exp α :=
  if x.id = e then { x with count := x.count + 1 } else x

def bump (A : List (Spec.Exp α)) (e : Nat) : List (Spec.Exp α) := A.map (bumpExp e)

theorem bump_eq_set {A : List (Spec.Exp α)} (hs : Sorted A) {n : Nat} {x : Spec.Exp α}
    (hn : A[n]? = some x) : bump A x.id = A.set n { x with count := x.count + 1 } := by
  apply List.ext_getElem?
  intro m
  unfold bump
  rw [List.getElem?_map, List.getElem?_set]
  split
  · rename_i hm
    subst hm
    rw [hn, if_pos (getElem?_lt hn)]
    simp [bumpExp]
  · rename_i hm
    cases hA : A[m]? with
    | none => rfl
    | some y =>
      have : y.id ≠ x.id := fun he => hm (sorted_getElem?_id hs hA hn he).symm
      simp [bumpExp, this]

theorem SeqRep.consume {q : Sequence} {A : List (Spec.Exp α)} (h : SeqRep q A)
    (hs : Sorted A) {n : Nat} {x : Spec.Exp α} (hn : A[n]? = some x)
    (hx : (x.count : Int) < x.max) (hok : okIn A x = true) :
    q.consume n = .ok { q with cursor := n } := by
  simp [Sequence.consume, h.isConsumable hs hn hx, hok, check, bind, Except.bind, pure, Except.pure]

/-- The state update done for one sequence by `update_sequence_states`. -/
def seqUpdate (count min max : Int) (q : Sequence) (id : Int) : M Sequence :=
  if count = min then q.setSatisfied id
  else if count = max then q.setSaturated id
  else .ok q

theorem SeqRep.setSatisfied {q : Sequence} {A : List (Spec.Exp α)} {n : Nat} {st : EState}
    (hlen : n < A.length) (hlen' : q.entries.length = A.length) (hent : q.entries[n]? = some st)
    (hcur : q.cursor ≤ n) (hst : st = .unsatisfied) :
    q.setSatisfied n = .ok { q with entries := q.entries.set n .satisfied } := by
  have hnn : ¬ ((n : Int) < 0) := by omega
  have hv : q.isValid n = true := by simp [Sequence.isValid, hlen']; omega
  simp [Sequence.setSatisfied, check, hv, hcur, Sequence.entry, hnn, hent, hst,
    Sequence.setEntry, hlen', bind, Except.bind]
  omega

theorem SeqRep.setSaturated {q : Sequence} {A : List (Spec.Exp α)} {n : Nat} {st : EState}
    (hlen : n < A.length) (hlen' : q.entries.length = A.length) (hent : q.entries[n]? = some st)
    (hcur : q.cursor ≤ n) (hst : (st == .unsatisfied || st == .satisfied) = true) :
    q.setSaturated n = .ok { q with entries := q.entries.set n .saturated } := by
  have hnn : ¬ ((n : Int) < 0) := by omega
  have hv : q.isValid n = true := by simp [Sequence.isValid, hlen']; omega
  simp only [Sequence.setSaturated, check, hv, if_true, hcur, decide_true, Sequence.entry, hnn,
    if_false, Int.toNat_natCast, hent, hst, Sequence.setEntry, hlen', bind, Except.bind]
  rw [if_pos (by omega)]

theorem SeqRep.update {q : Sequence} {A : List (Spec.Exp α)} (h : SeqRep q A)
    (hs : Sorted A) {n : Nat} {x : Spec.Exp α} (hn : A[n]? = some x)
    (hx : (x.count : Int) < x.max) (hmm : x.min ≤ x.max) (hok : okIn A x = true) :
    ∃ q', seqUpdate (x.count + 1) x.min x.max { q with cursor := (n : Int) } n = .ok q' ∧
      q'.strategy = q.strategy ∧ SeqRep q' (bump A x.id) := by
  have hlen := getElem?_lt hn
  have hlen' : q.entries.length = A.length := by rw [h.entries, List.length_map]
  have hent : q.entries[n]? = some (stOf x) := by
    rw [h.entries, List.getElem?_map, hn]; rfl
  have ⟨hb, ha⟩ := (okIn_iff hs hn).mp hok
  have key : ∀ (es : List EState), es = (bump A x.id).map stOf →
      SeqRep { q with cursor := (n : Int), entries := es } (bump A x.id) := by
    intro es hes
    have hbs := bump_eq_set hs hn
    refine ⟨hes, ?_, by simp, ?_, ?_, ?_, ?_⟩
    · simpa [bump] using h.len
    · right; simp [bump]; omega
    · intro m y hm hlt
      rw [hbs, List.getElem?_set] at hm
      have : n ≠ m := by simp at hlt; omega
      rw [if_neg this] at hm
      exact hb m y hm (by simp at hlt; omega)
    · intro m y hm hlt
      rw [hbs, List.getElem?_set] at hm
      have : n ≠ m := by simp at hlt; omega
      rw [if_neg this] at hm
      exact ha m y hm (by simp at hlt; omega)
    · intro m y hm heq _
      rw [hbs, List.getElem?_set] at hm
      have : n = m := by simp at heq; omega
      rw [if_pos this, if_pos hlen] at hm
      simp at hm
      rw [← hm]; simp
  have hset : ∀ st, stOf { x with count := x.count + 1 } = st →
      q.entries.set n st = (bump A x.id).map stOf := by
    intro st hst
    rw [bump_eq_set hs hn, List.map_set, h.entries, hst]
  unfold seqUpdate
  split
  · rename_i hc
    refine ⟨_, SeqRep.setSatisfied (A := A) (q := { q with cursor := (n : Int) }) hlen hlen' hent
      (by simp) ?_, rfl, key _ (hset _ ?_)⟩
    · unfold stOf; rw [if_pos (by omega)]
    · unfold stOf
      rw [if_neg (by simp; omega), if_neg (by simp; omega)]
  · rename_i hc
    split
    · rename_i hc2
      refine ⟨_, SeqRep.setSaturated (A := A) (q := { q with cursor := (n : Int) }) hlen hlen' hent
        (by simp) (stOf_not_saturated hx), rfl, key _ (hset _ ?_)⟩
      unfold stOf
      rw [if_neg (by simp; omega), if_pos (by simp; omega)]
    · rename_i hc2
      refine ⟨_, rfl, rfl, key q.entries ?_⟩
      rw [← hset (stOf x) ?_]
      · symm
        apply List.ext_getElem?
        intro m
        rw [List.getElem?_set]
        split
        · rename_i hm; subst hm; rw [if_pos (by omega), hent]
        · rfl
      · unfold stOf
        simp only []
        split
        · rw [if_pos (by omega)]
        · rw [if_neg (by omega), if_neg (by omega), if_neg (by omega)]

theorem SeqRep.add {q : Sequence} {A : List (Spec.Exp α)} (h : SeqRep q A)
    (hlen : (A.length : Int) ≤ intMax) :
    q.add = some ({ q with entries := q.entries ++ [.unsatisfied] }, (A.length : Int)) := by
  have hlen' : q.entries.length = A.length := by rw [h.entries, List.length_map]
  simp [Sequence.add, hlen', hlen]

theorem SeqRep.add_none {q : Sequence} {A : List (Spec.Exp α)} (h : SeqRep q A)
    (hlen : ¬ (A.length : Int) ≤ intMax) : q.add = none := by
  have hlen' : q.entries.length = A.length := by rw [h.entries, List.length_map]
  simp [Sequence.add, hlen', hlen]

/-- Attaching a new expectation: `add` followed by the state update of the constructor. -/
theorem SeqRep.attach {q : Sequence} {A : List (Spec.Exp α)} (h : SeqRep q A)
    (hlen : (A.length : Int) ≤ intMax) (x : Spec.Exp α) (hx : x.count = 0) (hmin : 0 ≤ x.min)
    (hmm : x.min ≤ x.max) :
    ∃ q', seqUpdate 0 x.min x.max { q with entries := q.entries ++ [.unsatisfied] } A.length = .ok q' ∧
      q'.strategy = q.strategy ∧ SeqRep q' (A ++ [x]) := by
  have hlen' : q.entries.length = A.length := by rw [h.entries, List.length_map]
  have hcl := h.cur_le
  have h0 := h.cur_nonneg
  have key : ∀ st, stOf x = st → ∀ (es : List EState), es = q.entries ++ [st] →
      SeqRep { q with entries := es } (A ++ [x]) := by
    intro st hst es hes
    refine ⟨?_, ?_, h.cur_nonneg, ?_, ?_, ?_, ?_⟩
    · simp [hes, h.entries, hst]
    · simp; omega
    · simp; omega
    · intro m y hm hlt
      simp only at hlt
      rw [List.getElem?_append_left (by omega)] at hm
      exact h.before m y hm hlt
    · intro m y hm hlt
      simp only at hlt
      rcases Nat.lt_or_ge m A.length with hm' | hm'
      · rw [List.getElem?_append_left (by omega)] at hm
        exact h.after m y hm hlt
      · rw [List.getElem?_append_right (by omega)] at hm
        have := getElem?_lt hm
        simp at this
        have e : m - A.length = 0 := by omega
        rw [e] at hm; simp at hm; rw [← hm]; exact hx
    · intro m y hm heq hpos
      simp only at heq
      rw [List.getElem?_append_left (by omega)] at hm
      exact h.at_cur m y hm heq hpos
  unfold seqUpdate
  split
  · rename_i hc
    refine ⟨_, SeqRep.setSatisfied (A := A ++ [x])
      (q := { q with entries := q.entries ++ [.unsatisfied] }) (n := A.length) (by simp)
      (by simp [hlen']) (st := .unsatisfied) (by simp [← hlen']) (by simp; omega) rfl, rfl,
      key .satisfied ?_ _ ?_⟩
    · unfold stOf; rw [if_neg (by simp [hx]; omega), if_neg (by simp [hx]; omega)]
    · simp [hlen']
  · rename_i hc
    rw [if_neg (by omega)]
    refine ⟨_, rfl, rfl, key .unsatisfied ?_ _ rfl⟩
    unfold stOf; rw [if_pos (by simp [hx]; omega)]

/-- The destructor reports the first unfulfilled expectation. -/
theorem SeqRep.destruct {q : Sequence} {A : List (Spec.Exp α)} (h : SeqRep q A) :
    q.destruct = .ok ((A.findIdx? (·.unfulfilled)).map (fun k => (k, A.length))) := by
  have hlen' : q.entries.length = A.length := by rw [h.entries, List.length_map]
  have hcl := h.cur_le
  have h0 := h.cur_nonneg
  have c1 : (decide (0 ≤ q.cursor) && decide (q.cursor ≤ (q.entries.length : Int))) = true := by
    simp; omega
  simp only [Sequence.destruct, check, c1, if_true, bind, Except.bind, pure, Except.pure]
  have hp : ∀ y : Spec.Exp α, (!(stOf y).done) = y.unfulfilled := by
    intro y
    rw [done_stOf]; unfold Spec.Exp.unfulfilled
    rw [Bool.eq_iff_iff]; simp
  have hsplit : A.findIdx? (·.unfulfilled)
      = ((A.drop q.cursor.toNat).findIdx? (·.unfulfilled)).map (q.cursor.toNat + ·) := by
    conv => lhs; rw [← List.take_append_drop q.cursor.toNat A]
    rw [List.findIdx?_append]
    have hnone : (A.take q.cursor.toNat).findIdx? (·.unfulfilled) = none := by
      rw [List.findIdx?_eq_none_iff]
      intro y hy
      obtain ⟨m, hm⟩ := List.mem_iff_getElem?.mp hy
      rw [List.getElem?_take] at hm
      split at hm
      · have := h.before m y hm (by omega)
        simp [Spec.Exp.unfulfilled]; omega
      · simp at hm
    have hl : (A.take q.cursor.toNat).length = q.cursor.toNat := by
      rw [List.length_take]; omega
    rw [hnone, hl]
    simp [Nat.add_comm]
  have hfind : (q.entries.drop q.cursor.toNat).findIdx? (fun e => !e.done)
      = (A.drop q.cursor.toNat).findIdx? (·.unfulfilled) := by
    rw [h.entries, ← List.map_drop, List.findIdx?_map]
    congr 1
    funext y
    exact hp y
  rw [hfind, hsplit, hlen']
  cases (A.drop q.cursor.toNat).findIdx? (·.unfulfilled) <;> rfl

end Mimic
