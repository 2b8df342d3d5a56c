import Verif.Spec.Block

/-!
# Lemmas about threads that wait for each other
-/

set_option autoImplicit false

namespace Mimic.Block

variable {α : Type} {r : Layers} {C : Client α}

theorem Act.under_mono {n n' : Nat} (hn : n ≤ n') {k : Act α} (h : k.under r n) : k.under r n' := by
  cases k <;> simp only [Act.under] at h ⊢
  · omega
  · omega
  · exact ⟨by omega, fun s hs => by have := h.2 s hs; omega⟩
  · omega

theorem Code.Under.mono {n n' : Nat} (hn : n ≤ n') {c : Code α} (h : c.Under r n) : c.Under r n' := by
  induction h with
  | stop => exact .stop
  | act hk _ ih => exact .act (Act.under_mono hn hk) ih

theorem Act.under_mutex {n m : Nat} {k : Act α} (h : k.under r n) (hm : k.mutex = some m) : r.mock m < n := by
  cases k <;> simp only [Act.mutex, Option.some.injEq, reduceCtorEq] at hm <;> subst hm
  · exact h
  · exact h
  · exact h.1

/-- Code limited to layers below an optional bound. -/
def UnderO (r : Layers) (b : Option Nat) (c : Code α) : Prop := ∀ n, b = some n → c.Under r n

/-- The bound for the code that is running. -/
def limit (r : Layers) : Thread α → Option Nat
  | [] => none
  | L :: st => match L.lock with
    | some m => some (r.mock m)
    | none => limit r st

/-- The bounds are kept. -/
def Sound (r : Layers) : Thread α → Prop
  | [] => True
  | L :: st => Sound r st ∧ (∀ m, L.lock = some m → ∀ n, limit r st = some n → r.mock m < n) ∧
    (∀ c ∈ L.now, UnderO r (limit r (L :: st)) c) ∧ ∀ c ∈ L.later, UnderO r (limit r st) c

/-- Operations wait for the one inside them; the last level holds no mutex. -/
def Waits : Thread α → Prop
  | [] => False
  | [L] => L.lock = none ∧ L.later = []
  | _ :: L :: st => (∃ k next qs, L.now = .act k next :: qs) ∧ Waits (L :: st)

theorem limit_le {st : Thread α} (h : Sound r st) : ∀ L ∈ st, ∀ m, L.lock = some m → ∃ b, limit r st = some b ∧ b ≤ r.mock m := by
  induction st with
  | nil => simp
  | cons K st ih =>
    obtain ⟨h1, h2, _, _⟩ := h
    intro L hL m hm
    rcases List.mem_cons.mp hL with rfl | hL
    · exact ⟨r.mock m, by simp [limit, hm], Nat.le_refl _⟩
    · obtain ⟨b, hb, hle⟩ := ih h1 L hL m hm
      cases hk : K.lock with
      | none => exact ⟨b, by simp [limit, hk, hb], hle⟩
      | some m' =>
        have := h2 m' hk b hb
        exact ⟨r.mock m', by simp [limit, hk], by omega⟩

/-- What an operation runs, if it stays within a bound. -/
theorem Does.under {d : Nat} (hi : C.Inner r) (ho : C.Outer r d) {k : Act α} {ps rs : List (Code α)} (h : Does C k ps rs) {n : Nat}
    (hk : k.under r n) (hd : d ≤ 1) : ∀ c ∈ rs, c.Under r n := by
  cases h with
  | call _ h2 =>
    simp only [Act.under] at hk
    intro c hc
    rcases h2 c hc with h | h | h
    · exact (hi.printing h).mono (by omega)
    · exact (ho.outcome h).mono (by omega)
    · exact (ho.effects h).mono (by omega)
  | declare => simp
  | withdraw _ h2 =>
    obtain ⟨hm, hs⟩ := hk
    intro c hc
    rcases h2 c hc with h | ⟨s, h1, h⟩
    · exact (ho.ending h).mono (by omega)
    · have := hs s h1
      exact (ho.broken h).mono (by omega)
  | drop h2 =>
    simp only [Act.under] at hk
    intro c hc
    exact (ho.broken (h2 c hc)).mono (by omega)

theorem Does.inner (hi : C.Inner r) {k : Act α} {ps rs : List (Code α)} (h : Does C k ps rs) {m : Nat} (hm : k.mutex = some m) :
    ∀ c ∈ ps, c.Under r (r.mock m) := by
  cases h with
  | call h1 _ =>
    simp only [Act.mutex, Option.some.injEq] at hm
    subst hm
    intro c hc
    rcases h1 c hc with h | h | h
    · exact hi.matching h
    · exact hi.printing h
    · exact hi.unhandled h
  | declare => simp
  | withdraw h1 _ =>
    simp only [Act.mutex, Option.some.injEq] at hm
    subst hm
    exact fun c hc => hi.unfulfilled (h1 c hc)
  | drop _ => simp

theorem Does.none {k : Act α} {ps rs : List (Code α)} (h : Does C k ps rs) (hm : k.mutex = none) : ps = [] := by
  cases h <;> simp_all [Act.mutex]

theorem limit_congr {L L' : Level α} {st : Thread α} (h : L'.lock = L.lock) : limit r (L' :: st) = limit r (L :: st) := by
  simp [limit, h]

theorem TStep.sound (hi : C.Inner r) (ho : C.Outer r 1) {t t' : Thread α} (h : TStep C t t') (hs : Sound r t) : Sound r t' := by
  cases h with
  | @enter k ps rs l next qs later st hd =>
    refine ⟨hs, ?_, ?_, ?_⟩
    · intro m hm n hn
      have hu := hs.2.2.1 (.act k next) (by simp) n hn
      cases hu with
      | act hk _ => exact Act.under_mutex hk hm
    · intro c hc n hn
      simp only [limit] at hn
      cases hm : k.mutex with
      | none => rw [hd.none hm] at hc; simp at hc
      | some m =>
        simp only [hm, Option.some.injEq] at hn
        subst hn
        exact hd.inner hi hm c hc
    · intro c hc n hn
      have hu := hs.2.2.1 (.act k next) (by simp) n hn
      cases hu with
      | act hk _ => exact hd.under hi ho hk (Nat.le_refl _) c hc
  | @stop l qs later st i j =>
    obtain ⟨h1, h2, h3, h4⟩ := hs
    refine ⟨h1, h2, fun c hc => ?_, fun c hc => ?_⟩
    · exact h3 c (by simp [List.mem_of_mem_drop hc])
    · exact h4 c (List.mem_of_mem_drop hc)
  | @unlock l c later st =>
    obtain ⟨h1, h2, h3, h4⟩ := hs
    exact ⟨h1, by simp, h4, by simp⟩
  | @back l l' k next qs later st x =>
    obtain ⟨⟨h1, h2, h3, h4⟩, _⟩ := hs
    refine ⟨h1, h2, fun c hc => ?_, h4⟩
    rcases List.mem_cons.mp hc with rfl | hc
    · intro n hn
      have hu := h3 (.act k next) (by simp) n hn
      cases hu with
      | act _ h => exact h x
    · exact h3 c (by simp [hc])

theorem waits_top {L L' : Level α} {st : Thread α} (h : Waits (L :: st)) (h1 : L.lock = none → L'.lock = none) (h2 : L.later = [] → L'.later = []) :
    Waits (L' :: st) := by
  cases st with
  | nil => exact ⟨h1 h.1, h2 h.2⟩
  | cons K st => exact h

theorem TStep.waits {t t' : Thread α} (h : TStep C t t') (hs : Waits t) : Waits t' := by
  cases h with
  | enter hd => exact ⟨⟨_, _, _, rfl⟩, hs⟩
  | stop i j => exact waits_top hs id (by simp; rintro rfl; simp)
  | unlock => exact waits_top hs (fun _ => rfl) (by simp)
  | back x => exact waits_top hs.2 id id

theorem LReach.waits {ts : List (Thread α)} (h : LReach C ts) : ∀ t ∈ ts, Waits t := by
  induction h with
  | start mains =>
    intro t ht
    obtain ⟨c, _, rfl⟩ := List.mem_map.mp ht
    exact ⟨rfl, rfl⟩
  | step _ hs ih =>
    cases hs with
    | @go pre post t t' ht _ =>
      intro u hu
      simp only [List.mem_append, List.mem_cons] at hu
      rcases hu with hu | rfl | hu
      · exact ih u (by simp [hu])
      · exact ht.waits (ih t (by simp))
      · exact ih u (by simp [hu])

theorem LReach.sound (hi : C.Inner r) (ho : C.Outer r 1) {ts : List (Thread α)} (h : LReach C ts) : ∀ t ∈ ts, Sound r t := by
  induction h with
  | start mains =>
    intro t ht
    obtain ⟨c, _, rfl⟩ := List.mem_map.mp ht
    exact ⟨trivial, by simp, by simp [limit, UnderO], by simp⟩
  | step _ hs ih =>
    cases hs with
    | @go pre post t t' ht _ =>
      intro u hu
      simp only [List.mem_append, List.mem_cons] at hu
      rcases hu with hu | rfl | hu
      · exact ih u (by simp [hu])
      · exact ht.sound hi ho (ih t (by simp))
      · exact ih u (by simp [hu])

/-- Every operation may run nothing at all. -/
theorem does_nothing (k : Act α) : Does C k [] [] := by
  cases k with
  | call m a => exact .call (by simp) (by simp)
  | declare m => exact .declare
  | withdraw m ss => exact .withdraw (by simp) (by simp)
  | drop s => exact .drop (by simp)

theorem thread_step {t : Thread α} (hw : Waits t) (hd : ¬ t.done) : ∃ t', TStep C t t' := by
  cases t with
  | nil => exact absurd hw id
  | cons L st =>
    obtain ⟨l, now, later⟩ := L
    cases now with
    | cons c qs =>
      cases c with
      | stop => exact ⟨_, .stop 0 0⟩
      | act k next => exact ⟨_, .enter (does_nothing k)⟩
    | nil =>
      cases later with
      | cons c later => exact ⟨_, .unlock⟩
      | nil =>
        cases st with
        | nil =>
          have : l = none := hw.1
          subst this
          exact absurd rfl hd
        | cons K st =>
          obtain ⟨⟨k, next, qs, hk⟩, _⟩ := hw
          obtain ⟨l', now', later'⟩ := K
          simp only at hk
          subst hk
          exact ⟨_, .back none⟩

/-- What a thread waits for is below all it holds. -/
theorem wants_lt {t : Thread α} (h : Sound r t) {m m' : Nat} (hw : t.wants = some m) (hl : t.locks m') : r.mock m < r.mock m' := by
  obtain ⟨L, hL, hm'⟩ := hl
  obtain ⟨b, hb, hle⟩ := limit_le h L hL m' hm'
  cases t with
  | nil => simp at hL
  | cons K st =>
    obtain ⟨l, now, later⟩ := K
    cases now with
    | nil => simp [Thread.wants] at hw
    | cons c qs =>
      cases c with
      | stop => simp [Thread.wants] at hw
      | act k next =>
        have hu := h.2.2.1 (.act k next) (by simp) b hb
        cases hu with
        | act hk _ =>
          have := Act.under_mutex hk hw
          omega

theorem go_on {ts : List (Thread α)} {t : Thread α} (ht : t ∈ ts) (hw : Waits t) (hd : ¬ t.done)
    (hf : ∀ m, t.wants = some m → ∀ u ∈ ts, ¬ u.locks m) : ∃ ts', LStep C ts ts' := by
  obtain ⟨t', h⟩ := thread_step (C := C) hw hd
  obtain ⟨pre, post, rfl⟩ := List.append_of_mem ht
  exact ⟨_, .go h hf⟩

theorem locks_not_done {t : Thread α} {m : Nat} (h : t.locks m) : ¬ t.done := by
  intro hd
  obtain ⟨L, hL, hm⟩ := h
  rw [hd] at hL
  simp only [List.mem_singleton] at hL
  subst hL
  simp at hm

theorem holder_step {ts : List (Thread α)} (hs : ∀ t ∈ ts, Sound r t) (hw : ∀ t ∈ ts, Waits t) (n : Nat) :
    ∀ t ∈ ts, ∀ m, t.locks m → r.mock m = n → ∃ ts', LStep C ts ts' := by
  induction n using Nat.strongRecOn with
  | _ n ih =>
    intro t ht m hl hn
    by_cases hfree : ∀ m', t.wants = some m' → ∀ u ∈ ts, ¬ u.locks m'
    · exact go_on ht (hw t ht) (locks_not_done hl) hfree
    · simp only [Classical.not_forall, Classical.not_not] at hfree
      obtain ⟨m', hw', u, hu, hul⟩ := hfree
      have := wants_lt (hs t ht) hw' hl
      exact ih (r.mock m') (by omega) u hu m' hul rfl

theorem no_deadlock {ts : List (Thread α)} (hs : ∀ t ∈ ts, Sound r t) (hw : ∀ t ∈ ts, Waits t) {t : Thread α} (ht : t ∈ ts)
    (hd : ¬ t.done) : ∃ ts', LStep C ts ts' := by
  by_cases hfree : ∀ m', t.wants = some m' → ∀ u ∈ ts, ¬ u.locks m'
  · exact go_on ht (hw t ht) hd hfree
  · simp only [Classical.not_forall, Classical.not_not] at hfree
    obtain ⟨m', _, u, hu, hul⟩ := hfree
    exact holder_step hs hw (r.mock m') u hu m' hul rfl

/-! ## Every schedule ends -/

/-- The thread can only make finitely many steps. -/
abbrev Halts (C : Client α) (t : Thread α) : Prop := Acc (fun b a => TStep C a b) t

/-- Operations of this kind return. -/
def Returns (C : Client α) (k : Act α) : Prop :=
  ∀ ps rs, Does C k ps rs → ∀ st : Thread α, (∀ l, Halts C (⟨l, [], []⟩ :: st)) → Halts C (⟨k.mutex, ps, rs⟩ :: st)

/-- All operations of the code do. -/
inductive Tame (C : Client α) : Code α → Prop where
  | stop : Tame C .stop
  | act {k : Act α} {next : Option Nat → Code α} : Returns C k → (∀ x, Tame C (next x)) → Tame C (.act k next)

theorem run_code {c : Code α} (h : Tame C c) (l : Option Nat) (qs later : List (Code α)) (st : Thread α)
    (hn : ∀ i j, Halts C (⟨l, qs.drop i, later.drop j⟩ :: st)) : Halts C (⟨l, c :: qs, later⟩ :: st) := by
  induction h with
  | stop =>
    refine ⟨_, fun t' hs => ?_⟩
    cases hs with
    | stop i j => exact hn i j
  | @act k next hk _ ih =>
    refine ⟨_, fun t' hs => ?_⟩
    cases hs with
    | enter hd =>
      refine hk _ _ hd _ fun l' => ⟨_, fun t' hs => ?_⟩
      cases hs with
      | back x => exact ih x

theorem run_level (n : Nat) : ∀ (ps rs : List (Code α)), 2 * rs.length + ps.length ≤ n → (∀ c ∈ ps, Tame C c) → (∀ c ∈ rs, Tame C c) →
    ∀ (l : Option Nat) (st : Thread α), (∀ l, Halts C (⟨l, [], []⟩ :: st)) → Halts C (⟨l, ps, rs⟩ :: st) := by
  induction n with
  | zero =>
    intro ps rs hle _ _ l st hb
    have h1 : ps = [] := List.eq_nil_of_length_eq_zero (by omega)
    have h2 : rs = [] := List.eq_nil_of_length_eq_zero (by omega)
    subst h1 h2
    exact hb l
  | succ n ih =>
    intro ps rs hle hps hrs l st hb
    cases ps with
    | cons c qs =>
      refine run_code (hps c (by simp)) l qs rs st fun i j => ?_
      refine ih _ _ ?_ (fun c hc => hps c (by simp [List.mem_of_mem_drop hc])) (fun c hc => hrs c (List.mem_of_mem_drop hc)) l st hb
      simp only [List.length_drop, List.length_cons] at hle ⊢
      omega
    | nil =>
      cases rs with
      | nil => exact hb l
      | cons c rs =>
        refine ⟨_, fun t' hs => ?_⟩
        cases hs with
        | unlock =>
          refine ih _ _ ?_ hrs (by simp) none st hb
          simp only [List.length_cons, List.length_nil] at hle ⊢
          omega

theorem returns_of {k : Act α} (h : ∀ ps rs, Does C k ps rs → (∀ c ∈ ps, Tame C c) ∧ ∀ c ∈ rs, Tame C c) : Returns C k := by
  intro ps rs hd st hb
  obtain ⟨h1, h2⟩ := h ps rs hd
  exact run_level _ ps rs (Nat.le_refl _) h1 h2 _ _ hb

theorem does_under {k : Act α} (hi : C.Inner r) (ho : C.Outer r 0) {n : Nat} (hk : k.under r (n + 1)) {ps rs : List (Code α)} (h : Does C k ps rs) :
    (∀ c ∈ ps, c.Under r n) ∧ ∀ c ∈ rs, c.Under r n := by
  constructor
  · cases hm : k.mutex with
    | none => simp [h.none hm]
    | some m =>
      intro c hc
      have := Act.under_mutex hk hm
      exact (h.inner hi hm c hc).mono (by omega)
  · cases h with
    | call _ h2 =>
      simp only [Act.under] at hk
      intro c hc
      rcases h2 c hc with h | h | h
      · exact (hi.printing h).mono (by omega)
      · exact (ho.outcome h).mono (by omega)
      · exact (ho.effects h).mono (by omega)
    | declare => simp
    | withdraw _ h2 =>
      obtain ⟨hm, hs⟩ := hk
      intro c hc
      rcases h2 c hc with h | ⟨s, h1, h⟩
      · exact (ho.ending h).mono (by omega)
      · have := hs s h1
        exact (ho.broken h).mono (by omega)
    | drop h2 =>
      simp only [Act.under] at hk
      intro c hc
      exact (ho.broken (h2 c hc)).mono (by omega)

theorem returns_under (hi : C.Inner r) (ho : C.Outer r 0) (n : Nat) : ∀ k : Act α, k.under r n → Returns C k := by
  induction n with
  | zero => intro k hk; cases k <;> simp [Act.under] at hk
  | succ n ih =>
    intro k hk
    have htame : ∀ c : Code α, c.Under r n → Tame C c := by
      intro c hc
      induction hc with
      | stop => exact .stop
      | act hk _ ih' => exact .act (ih _ hk) ih'
    refine returns_of fun ps rs hd => ?_
    obtain ⟨h1, h2⟩ := does_under hi ho hk hd
    exact ⟨fun c hc => htame c (h1 c hc), fun c hc => htame c (h2 c hc)⟩

theorem seq_bound (r : Layers) (ss : List Nat) : ∃ n, ∀ s ∈ ss, r.seq s < n := by
  induction ss with
  | nil => exact ⟨0, by simp⟩
  | cons s ss ih =>
    obtain ⟨n, hn⟩ := ih
    refine ⟨n + r.seq s + 1, fun s' hs' => ?_⟩
    rcases List.mem_cons.mp hs' with rfl | hs'
    · omega
    · have := hn s' hs'
      omega

theorem act_bound (r : Layers) (k : Act α) : ∃ n, k.under r n := by
  cases k with
  | call m a => exact ⟨r.mock m + 1, Nat.lt_succ_self _⟩
  | declare m => exact ⟨r.mock m + 1, Nat.lt_succ_self _⟩
  | withdraw m ss =>
    obtain ⟨n, hn⟩ := seq_bound r ss
    exact ⟨n + r.mock m + 1, by omega, fun s hs => by have := hn s hs; omega⟩
  | drop s => exact ⟨r.seq s + 1, Nat.lt_succ_self _⟩

theorem all_return (hi : C.Inner r) (ho : C.Outer r 0) (k : Act α) : Returns C k :=
  let ⟨n, hn⟩ := act_bound r k
  returns_under hi ho n k hn

theorem all_tame (h : ∀ k, Returns C k) (c : Code α) : Tame C c := by
  induction c with
  | stop => exact .stop
  | act k next ih => exact .act (h k) ih

theorem start_halts (h : ∀ k, Returns C k) (c : Code α) : Halts C (Thread.start c) := by
  refine run_code (all_tame h c) none [] [] [] fun i j => ⟨_, fun t' hs => ?_⟩
  simp only [List.drop_nil] at hs
  cases hs

theorem step_halts {t t' : Thread α} (h : TStep C t t') (ha : Halts C t) : Halts C t' := ha.inv h

/-- If each thread makes finitely many steps, then all do together. -/
theorem all_halt : ∀ ts : List (Thread α), (∀ t ∈ ts, Halts C t) → Ends C ts := by
  intro ts
  induction ts with
  | nil =>
    intro _
    refine ⟨_, fun ts' hs => ?_⟩
    generalize hts : ([] : List (Thread α)) = ts at hs
    cases hs with
    | go => simp at hts
  | cons t ts ih =>
    intro h
    have h1 : Halts C t := h t (by simp)
    -- other threads only make it harder to go on, so one may forget about them
    have key : ∀ t, Halts C t → ∀ us, Acc (fun b a => ∃ pre post u u', a = pre ++ u :: post ∧ b = pre ++ u' :: post ∧ TStep C u u') us →
        Acc (fun b a => ∃ pre post u u', a = pre ++ u :: post ∧ b = pre ++ u' :: post ∧ TStep C u u') (t :: us) := by
      intro t ht
      induction ht with
      | intro t _ iht =>
        intro us hus
        induction hus with
        | intro us hus' ihus =>
          refine ⟨_, fun ts' hs => ?_⟩
          obtain ⟨pre, post, u, u', ha, rfl, hu⟩ := hs
          cases pre with
          | nil =>
            simp only [List.nil_append, List.cons.injEq] at ha
            obtain ⟨rfl, rfl⟩ := ha
            exact iht u' hu _ ⟨_, hus'⟩
          | cons p pre =>
            simp only [List.cons_append, List.cons.injEq] at ha
            obtain ⟨rfl, rfl⟩ := ha
            exact ihus _ ⟨pre, post, u, u', rfl, rfl, hu⟩
    have free : ∀ us : List (Thread α), (∀ t ∈ us, Halts C t) →
        Acc (fun b a => ∃ pre post u u', a = pre ++ u :: post ∧ b = pre ++ u' :: post ∧ TStep C u u') us := by
      intro us
      induction us with
      | nil => intro _; exact ⟨_, fun ts' ⟨pre, post, u, u', ha, _⟩ => by simp at ha⟩
      | cons u us ihu => exact fun hh => key u (hh u (by simp)) us (ihu fun t ht => hh t (by simp [ht]))
    refine Subrelation.accessible ?_ (free (t :: ts) h)
    intro b a hs
    cases hs with
    | go h _ => exact ⟨_, _, _, _, rfl, rfl, h⟩

theorem LReach.halts (h : ∀ k, Returns C k) {ts : List (Thread α)} (hr : LReach C ts) : ∀ t ∈ ts, Halts C t := by
  induction hr with
  | start mains =>
    intro t ht
    obtain ⟨c, _, rfl⟩ := List.mem_map.mp ht
    exact start_halts h c
  | step _ hs ih =>
    cases hs with
    | @go pre post t t' ht _ =>
      intro u hu
      simp only [List.mem_append, List.mem_cons] at hu
      rcases hu with hu | rfl | hu
      · exact ih u (by simp [hu])
      · exact step_halts ht (ih t (by simp))
      · exact ih u (by simp [hu])

/-! ## Mutual exclusion -/

/-- The mutexes that are held, with repetitions. -/
def held (ts : List (Thread α)) : List Nat := ts.flatMap (fun t => t.filterMap (·.lock))

theorem mem_held {ts : List (Thread α)} {m : Nat} : m ∈ held ts ↔ ∃ t ∈ ts, t.locks m := by
  simp [held, Thread.locks]

theorem TStep.held {t t' : Thread α} (h : TStep C t t') :
    (t'.filterMap (·.lock)).Sublist (t.filterMap (·.lock)) ∨ ∃ m, t.wants = some m ∧ t'.filterMap (·.lock) = m :: t.filterMap (·.lock) := by
  cases h with
  | @enter k ps rs l next qs later st hd =>
    cases hm : k.mutex with
    | none => left; simp
    | some m => right; exact ⟨m, by simp [Thread.wants, hm], by simp [List.filterMap_cons]⟩
  | stop i j => left; simp [List.filterMap_cons]
  | @unlock l c later st =>
    left
    cases l <;> simp
  | @back l l' k next qs later st x =>
    left
    cases l <;> cases l' <;> simp

theorem LReach.nodup {ts : List (Thread α)} (h : LReach C ts) : (held ts).Nodup := by
  induction h with
  | start mains =>
    have : held (mains.map Thread.start) = ([] : List Nat) := by
      induction mains with
      | nil => rfl
      | cons c cs ih => simp [held, Thread.start]
    simp [this]
  | @step ts ts' _ hs ih =>
    cases hs with
    | @go pre post t t' ht hf =>
      have e1 : held (pre ++ t :: post) = held pre ++ (t.filterMap (·.lock) ++ held post) := by simp [held]
      have e2 : held (pre ++ t' :: post) = held pre ++ (t'.filterMap (·.lock) ++ held post) := by simp [held]
      rcases ht.held with hsub | ⟨m, hw, heq⟩
      · rw [e1] at ih
        rw [e2]
        exact ih.sublist (List.Sublist.append (List.Sublist.refl _) (List.Sublist.append hsub (List.Sublist.refl _)))
      · have hno : m ∉ held (pre ++ t :: post) := by
          rw [mem_held]
          rintro ⟨u, hu, hl⟩
          exact hf m hw u hu hl
        rw [e1] at ih hno
        rw [e2, heq]
        have : (held pre ++ (m :: t.filterMap (·.lock) ++ held post)).Perm (m :: (held pre ++ (t.filterMap (·.lock) ++ held post))) :=
          List.perm_middle
        exact this.nodup_iff.mpr (List.nodup_cons.mpr ⟨hno, ih⟩)

end Mimic.Block
