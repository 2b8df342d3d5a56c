import Verif.Proofs.Block

/-!
# C106: threads whose client code of all kinds uses mocks
-/

set_option autoImplicit false

namespace Mimic.Block

variable {α : Type} {C : Client α}

/-- C106: if code that runs while a mutex is held keeps to lower layers, and the other code does not go to higher ones, then in every schedule
somebody can go on, until all threads are done. -/
theorem C106_no_deadlock_partial {r : Layers} (hi : C.Inner r) (ho : C.Outer r 1) {ts : List (Thread α)} (h : LReach C ts) : ¬ Deadlock C ts := by
  rintro ⟨⟨t, ht, hd⟩, hn⟩
  obtain ⟨ts', hs⟩ := no_deadlock (h.sound hi ho) h.waits ht hd
  exact hn ts' hs

/-- C106: and no thread ever locks a mutex it already holds. -/
theorem C106_no_relock_partial {r : Layers} (hi : C.Inner r) (ho : C.Outer r 1) {ts : List (Thread α)} (h : LReach C ts) : ¬ Relock ts := by
  rintro ⟨t, ht, m, hw, hl⟩
  exact Nat.lt_irrefl _ (wants_lt (h.sound hi ho t ht) hw hl)

/-- C106: if the other code keeps to lower layers, too, every schedule comes to an end, and it does so only when all threads are done. -/
theorem C106_ends_partial {r : Layers} (hi : C.Inner r) (ho : C.Outer r 0) {ts : List (Thread α)} (h : LReach C ts) :
    Ends C ts ∧ ((∀ ts', ¬ LStep C ts ts') → ∀ t ∈ ts, t.done) := by
  have ho' : C.Outer r 1 := ⟨fun h => (ho.outcome h).mono (by omega), fun h => (ho.effects h).mono (by omega),
    fun h => (ho.ending h).mono (by omega), fun h => (ho.broken h).mono (by omega)⟩
  refine ⟨all_halt ts (h.halts (all_return hi ho)), fun hn t ht => ?_⟩
  exact Classical.byContradiction fun hd => C106_no_deadlock_partial hi ho' h ⟨⟨t, ht, hd⟩, hn⟩

/-- C106: if matchers, printers of arguments, and the reporter when it gets an exception or an unfulfilled expectation make no use of mocks,
then nothing need be required of side effects, finalizers, the reporter when it gets the outcome of a call or the error of a sequence, and
destructors: no thread ever waits for itself, and somebody can always go on. -/
theorem C106_free (hm : ∀ m a c, C.matching m a c → c.Plain) (hp : ∀ m a c, C.printing m a c → c.Plain)
    (hu : ∀ m c, C.unhandled m c → c.Plain) (hf : ∀ m c, C.unfulfilled m c → c.Plain) {ts : List (Thread α)} (h : LReach C ts) :
    ¬ Deadlock C ts ∧ ¬ Relock ts := by
  have hall : ∀ c : Code α, c.Under ⟨fun _ => 0, fun _ => 0⟩ 1 := by
    intro c
    induction c with
    | stop => exact .stop
    | act k next ih => exact .act (by cases k <;> simp [Act.under]) ih
  have hplain : ∀ {c : Code α} {r : Layers} {n : Nat}, c.Plain → c.Under r n := by
    rintro c r n rfl
    exact .stop
  have hi : C.Inner ⟨fun _ => 0, fun _ => 0⟩ :=
    ⟨fun h => hplain (hm _ _ _ h), fun h => hplain (hp _ _ _ h), fun h => hplain (hu _ _ h), fun h => hplain (hf _ _ h)⟩
  have ho : C.Outer ⟨fun _ => 0, fun _ => 0⟩ 1 := ⟨fun _ => hall _, fun _ => hall _, fun _ => hall _, fun _ => hall _⟩
  exact ⟨C106_no_deadlock_partial hi ho h, C106_no_relock_partial hi ho h⟩

/-- C106: whatever the client code does, the code that runs under the mutex of a mock is run by one thread at a time. -/
theorem C106_exclusive {xs ys zs : List (Thread α)} {t u : Thread α} (h : LReach C (xs ++ t :: (ys ++ u :: zs))) (m : Nat) :
    ¬ (t.locks m ∧ u.locks m) := by
  rintro ⟨h1, h2⟩
  have hn := h.nodup
  have e : held (xs ++ t :: (ys ++ u :: zs)) = held xs ++ (t.filterMap (·.lock) ++ held (ys ++ u :: zs)) := by simp [held]
  rw [e] at hn
  have hd := (List.nodup_append.mp (List.nodup_append.mp hn).2.1).2.2
  have m1 : m ∈ t.filterMap (·.lock) := by
    obtain ⟨L, hL, hm⟩ := h1
    exact List.mem_filterMap.mpr ⟨L, hL, hm⟩
  have m2 : m ∈ held (ys ++ u :: zs) := mem_held.mpr ⟨u, by simp, h2⟩
  exact hd m m1 m m2 rfl

/-! ## Examples -/

/-- A client without any code of its own. -/
def plain : Client Nat where
  matching := fun _ _ c => c = .stop
  printing := fun _ _ c => c = .stop
  unhandled := fun _ c => c = .stop
  outcome := fun _ c => c = .stop
  effects := fun _ _ c => c = .stop
  unfulfilled := fun _ c => c = .stop
  ending := fun _ c => c = .stop
  broken := fun _ c => c = .stop

/-- Code that makes one call. -/
def calls (m : Nat) : Code Nat := .act (.call m 0) (fun _ => .stop)

/-- Code that ends an expectation. -/
def withdraws (m : Nat) : Code Nat := .act (.withdraw m []) (fun _ => .stop)

/-- Mock 0 is a logger: the reporter calls it for every report that is not about itself, and so do side effects. -/
def logging : Client Nat :=
  { plain with
    unhandled := fun m c => c = if m = 0 then .stop else calls 0
    outcome := fun m c => c = if m = 0 then .stop else calls 0
    effects := fun m _ c => c = if m = 0 then .stop else calls 0
    unfulfilled := fun m c => c = if m = 0 then .stop else calls 0
    broken := fun _ c => c = calls 0 }

/-- The logger is the lowest layer. -/
def loggerBelow : Layers := ⟨fun m => if m = 0 then 0 else 1, fun _ => 1⟩

theorem calls_under {r : Layers} {m n : Nat} (h : r.mock m < n) : (calls m).Under r n := .act h fun _ => .stop

/-- The hypotheses of `C106_no_deadlock_partial`, `C106_no_relock_partial` and `C106_ends_partial` are met … -/
theorem logging_layered : logging.Inner loggerBelow ∧ logging.Outer loggerBelow 0 := by
  have key : ∀ (m n : Nat) (c : Code Nat), (c = if m = 0 then .stop else calls 0) → n = loggerBelow.mock m → c.Under loggerBelow n := by
    intro m n c hc hn
    subst hc hn
    by_cases hm : m = 0
    · simpa [hm] using Code.Under.stop
    · simpa [hm] using calls_under (by simp [loggerBelow, hm])
  have stop : ∀ (n : Nat) (c : Code Nat), c = .stop → c.Under loggerBelow n := by
    rintro n c rfl
    exact .stop
  exact ⟨⟨fun h => stop _ _ h, fun h => stop _ _ h, fun h => key _ _ _ h rfl, fun h => key _ _ _ h rfl⟩,
    ⟨fun h => key _ _ _ h rfl, fun h => key _ _ _ h rfl, fun h => stop _ _ h,
      fun {s c} h => by have h' : c = calls 0 := h; subst h'; exact calls_under (by simp [loggerBelow])⟩⟩

theorem LReach.by {ts : List (Thread α)} {pre post : List (Thread α)} {t t' : Thread α} (h : LReach C ts) (hts : ts = pre ++ t :: post)
    (hs : TStep C t t') (hf : ∀ m, t.wants = some m → ∀ u ∈ ts, ¬ u.locks m) : LReach C (pre ++ t' :: post) := by
  subst hts
  exact h.step (.go hs hf)

/-- … in states in which threads wait: the first thread ends an unfulfilled expectation of mock 1, and its reporter is about to call the logger;
the second one calls mock 1 and has to wait for that. -/
example : LReach logging [[⟨some 1, [calls 0], []⟩, ⟨none, [withdraws 1], []⟩], [⟨none, [calls 1], []⟩]] ∧
    Thread.wants (α := Nat) [⟨some 1, [calls 0], []⟩, ⟨none, [withdraws 1], []⟩] = some 0 ∧
    Thread.locks (α := Nat) [⟨some 1, [calls 0], []⟩, ⟨none, [withdraws 1], []⟩] 1 ∧
    Thread.wants (α := Nat) [⟨none, [calls 1], []⟩] = some 1 := by
  refine ⟨?_, rfl, ⟨_, List.mem_cons_self .., rfl⟩, rfl⟩
  refine (LReach.start [withdraws 1, calls 1]).by (pre := []) rfl
    (.enter (.withdraw (ps := [calls 0]) (rs := []) (by simp [logging]) (by simp))) ?_
  rintro m - u hu ⟨L, hL, hm⟩
  simp only [List.map_cons, List.map_nil, List.mem_cons, List.not_mem_nil, or_false] at hu
  rcases hu with rfl | rfl <;> simp [Thread.start] at hL <;> subst hL <;> simp at hm

/-! ## Witnesses for what fails otherwise -/

/-- The reporter calls the other of two mocks when it gets an unfulfilled expectation. -/
def crossing : Client Nat := { plain with unfulfilled := fun m c => c = calls (1 - m) }

/-- C106 (violated): two threads that end unfulfilled expectations of two mocks wait for each other for ever, if the reporter calls the respective
other mock. -/
theorem C106_deadlock : ∃ ts, LReach crossing ts ∧ Deadlock crossing ts := by
  refine ⟨[[⟨some 0, [calls 1], []⟩, ⟨none, [withdraws 0], []⟩], [⟨some 1, [calls 0], []⟩, ⟨none, [withdraws 1], []⟩]], ?_, ?_, ?_⟩
  · refine ((LReach.start [withdraws 0, withdraws 1]).by (pre := []) rfl
      (.enter (.withdraw (ps := [calls 1]) (rs := []) (by simp [crossing]) (by simp))) ?_).by
      (pre := [[⟨some 0, [calls 1], []⟩, ⟨none, [withdraws 0], []⟩]]) (post := []) rfl
      (.enter (.withdraw (ps := [calls 0]) (rs := []) (by simp [crossing]) (by simp))) ?_
    · rintro m - u hu ⟨L, hL, hm⟩
      simp only [List.map_cons, List.map_nil, List.mem_cons, List.not_mem_nil, or_false] at hu
      rcases hu with rfl | rfl <;> simp [Thread.start] at hL <;> subst hL <;> simp at hm
    · intro m hw u hu hl
      have : m = 1 := by simpa [Thread.wants, Thread.start, withdraws, Act.mutex, eq_comm] using hw
      subst this
      obtain ⟨L, hL, hm⟩ := hl
      simp only [List.map_cons, List.map_nil, List.nil_append, List.mem_cons, List.not_mem_nil, or_false] at hu
      rcases hu with rfl | rfl
      · simp only [List.mem_cons, List.not_mem_nil, or_false] at hL
        rcases hL with rfl | rfl <;> simp [Act.mutex] at hm
      · simp only [Thread.start, List.mem_singleton] at hL
        subst hL
        simp at hm
  · exact ⟨_, List.mem_cons_self .., by simp [Thread.done]⟩
  · intro ts' hs
    generalize ha : ([[⟨some 0, [calls 1], []⟩, ⟨none, [withdraws 0], []⟩], [⟨some 1, [calls 0], []⟩, ⟨none, [withdraws 1], []⟩]] :
        List (Thread Nat)) = a at hs
    cases hs with
    | @go pre post t u hst hf =>
      rcases pre with _ | ⟨p, _ | ⟨q, pre⟩⟩
      · simp only [List.nil_append, List.cons.injEq] at ha
        obtain ⟨rfl, rfl⟩ := ha
        exact hf 1 rfl [⟨some 1, [calls 0], []⟩, ⟨none, [withdraws 1], []⟩] (by simp) ⟨_, List.mem_cons_self .., rfl⟩
      · simp only [List.cons_append, List.nil_append, List.cons.injEq] at ha
        obtain ⟨rfl, rfl, rfl⟩ := ha
        exact hf 0 rfl [⟨some 0, [calls 1], []⟩, ⟨none, [withdraws 0], []⟩] (by simp) ⟨_, List.mem_cons_self .., rfl⟩
      · simp at ha

/-- The reporter calls the mock whose expectation is unfulfilled. -/
def selfish : Client Nat := { plain with unfulfilled := fun m c => c = calls m }

/-- C106 (violated): a thread locks a mutex twice if the reporter calls the mock that the report about an unfulfilled expectation is about. -/
theorem C106_relock : ∃ ts, LReach selfish ts ∧ Relock ts := by
  refine ⟨[[⟨some 0, [calls 0], []⟩, ⟨none, [withdraws 0], []⟩]], ?_, _, List.mem_cons_self .., 0, rfl, _, List.mem_cons_self .., rfl⟩
  refine (LReach.start [withdraws 0]).by (pre := []) (post := []) rfl
      (.enter (.withdraw (ps := [calls 0]) (rs := []) (by simp [selfish]) (by simp))) ?_
  rintro m - u hu ⟨L, hL, hm⟩
  simp only [List.map_cons, List.map_nil, List.mem_cons, List.not_mem_nil, or_false] at hu
  subst hu
  simp [Thread.start] at hL
  subst hL
  simp at hm

/-- Side effects call the mock they belong to. -/
def recursive : Client Nat := { plain with effects := fun m _ c => c = calls m }

/-- C106 (violated): side effects that call their own mock never wait, but need not come to an end. -/
theorem C106_endless : (∀ ts, LReach recursive ts → ¬ Deadlock recursive ts ∧ ¬ Relock ts) ∧ ∃ ts, LReach recursive ts ∧ ¬ Ends recursive ts := by
  refine ⟨fun ts h => C106_free (fun _ _ _ h => h) (fun _ _ _ h => h) (fun _ _ h => h) (fun _ _ h => h) h, _, .start [calls 0], fun ha => ?_⟩
  have key : ∀ ts, Ends recursive ts → ∀ st : Thread Nat, (∀ L ∈ st, L.lock = none) →
      (ts = [⟨none, [calls 0], []⟩ :: st] ∨ ts = [⟨some 0, [], [calls 0]⟩ :: st]) → False := by
    intro ts h
    induction h with
    | intro ts _ ih =>
      rintro st hst (rfl | rfl)
      · refine ih _ (.go (pre := []) (post := []) (.enter (.call (ps := []) (rs := [calls 0]) (by simp) (by simp [recursive]))) ?_)
          (⟨none, [calls 0], []⟩ :: st) (by simpa using hst) (Or.inr rfl)
        rintro m - u hu ⟨L, hL, hm⟩
        simp only [List.nil_append, List.mem_singleton] at hu
        subst hu
        rcases List.mem_cons.mp hL with rfl | hL
        · simp at hm
        · simp [hst L hL] at hm
      · exact ih _ (.go (pre := []) (post := []) .unlock (by simp [Thread.wants])) st hst (Or.inl rfl)
  exact key _ ha [] (by simp) (Or.inl rfl)

/-- C106 (remark): other code of a mock may be run by several threads at a time, here the side effects of one expectation. -/
theorem C106_together : LReach plain [[⟨none, [.stop], []⟩, ⟨none, [calls 0], []⟩], [⟨none, [.stop], []⟩, ⟨none, [calls 0], []⟩]] := by
  have nolock : ∀ (t u : Thread Nat), (∀ L ∈ t, L.lock = none) → (∀ L ∈ u, L.lock = none) → ∀ m, ∀ v ∈ [t, u], ¬ v.locks m := by
    intro t u ht hu m v hv ⟨L, hL, hm⟩
    simp only [List.mem_cons, List.not_mem_nil, or_false] at hv
    rcases hv with rfl | rfl
    · simp [ht L hL] at hm
    · simp [hu L hL] at hm
  have h0 : LReach plain [[⟨none, [calls 0], []⟩], [⟨none, [calls 0], []⟩]] := .start [calls 0, calls 0]
  have h1 := h0.by (pre := []) rfl (.enter (.call (ps := []) (rs := [.stop]) (by simp) (by simp [plain])))
    (fun m _ => nolock _ _ (by simp) (by simp) m)
  have h2 := h1.by (pre := []) rfl .unlock (by simp [Thread.wants])
  have h3 := h2.by (pre := [_]) (post := []) rfl (.enter (.call (ps := []) (rs := [.stop]) (by simp) (by simp [plain])))
    (fun m _ => nolock _ _ (by simp) (by simp) m)
  exact h3.by (pre := [_]) (post := []) rfl .unlock (by simp [Thread.wants])

end Mimic.Block
