import Verif.Proofs.ConcurrentSerial

/-!
# Concrete schedules
-/

set_option autoImplicit false

namespace Mimic

variable {α : Type}

/-- Runs a schedule and records it. -/
def KWorld.record (asserts : Bool) (kw : KWorld α) : List (Nat × KAct α) → M (KWorld α × KTrace α)
  | [] => .ok (kw, [])
  | (t, act) :: rest => do
    let (kw', log) ← kw.step asserts t act
    let (kw'', tr) ← kw'.record asserts rest
    return (kw'', ⟨t, act, log⟩ :: tr)

theorem krecord_reach {asserts : Bool} {n m : Nat} (steps : List (Nat × KAct α)) : ∀ {tr tr' : KTrace α} {kw kw' : KWorld α},
    KReach asserts n m tr kw → kw.record asserts steps = .ok (kw', tr') → KReach asserts n m (tr ++ tr') kw' := by
  induction steps with
  | nil =>
    intro tr tr' kw kw' h hr
    simp [KWorld.record] at hr
    obtain ⟨rfl, rfl⟩ := hr
    simpa using h
  | cons s steps ih =>
    intro tr tr' kw kw' h hr
    obtain ⟨t, act⟩ := s
    simp only [KWorld.record, bind, Except.bind] at hr
    cases hs : kw.step asserts t act with
    | error x => rw [hs] at hr; simp at hr
    | ok r =>
      rw [hs] at hr
      simp only at hr
      cases hs' : r.1.record asserts steps with
      | error x => rw [hs'] at hr; simp at hr
      | ok r' =>
        rw [hs'] at hr
        simp only [pure, Except.pure, Except.ok.injEq, Prod.mk.injEq] at hr
        obtain ⟨rfl, rfl⟩ := hr
        have := ih (.step h hs) hs'
        simpa using this

/-- The recorded schedule, nothing if a step is not possible. -/
def KWorld.final (asserts : Bool) (n m : Nat) (steps : List (Nat × KAct α)) : KWorld α × KTrace α :=
  match (KWorld.init n m).record asserts steps with
  | .ok r => r
  | .error _ => (KWorld.init n m, [])

theorem kreach_final (asserts : Bool) (n m : Nat) (steps : List (Nat × KAct α)) :
    KReach asserts n m (KWorld.final asserts n m steps).2 (KWorld.final asserts n m steps).1 := by
  unfold KWorld.final
  split
  · rename_i r hr
    have := krecord_reach steps (tr := []) .init hr
    simpa using this
  · exact .init

/-! ### Linked schedules -/

/-- Whether neighbouring steps are ordered, as a computation. -/
def linked : KTrace α → Bool
  | x :: y :: rest =>
    (decide (x.thread = y.thread) || (x.log.releases.isSome && decide (x.log.releases = y.log.acquires))) && linked (y :: rest)
  | _ => true

theorem linked_sound : ∀ (tr : KTrace α), linked tr = true → Linked tr
  | [], _ => by intro i x y hx; simp at hx
  | [z], _ => by intro i x y hx hy; simp at hy
  | a :: b :: rest, h => by
    simp only [linked, Bool.and_eq_true, Bool.or_eq_true, decide_eq_true_eq] at h
    have ih := linked_sound (b :: rest) h.2
    intro i x y hx hy
    cases i with
    | zero =>
      simp only [List.getElem?_cons_zero, Option.some.injEq, Nat.zero_add, List.getElem?_cons_succ] at hx hy
      subst hx
      subst hy
      rcases h.1 with h1 | ⟨h1, h2⟩
      · exact Or.inl h1
      · obtain ⟨mx, hm⟩ := Option.isSome_iff_exists.mp h1
        exact Or.inr ⟨mx, hm, by rw [← h2, hm]⟩
    | succ i => exact ih i x y (by simpa using hx) (by simpa using hy)

theorem Linked.snoc {tr : KTrace α} {y x : KEntry α} (h : Linked (tr ++ [y])) (ht : y.thread = x.thread) :
    Linked (tr ++ [y] ++ [x]) := by
  intro i a b ha hb
  by_cases hi : i + 1 < (tr ++ [y]).length
  · rw [List.getElem?_append_left (by omega)] at ha
    rw [List.getElem?_append_left hi] at hb
    exact h i a b ha hb
  · have hlen := (List.getElem?_eq_some_iff.mp hb).1
    simp only [List.length_append, List.length_cons, List.length_nil] at hi hlen
    have : i = tr.length := by omega
    subst this
    left
    have e1 : (tr ++ [y] ++ [x])[tr.length]? = some y := by simp
    have e2 : (tr ++ [y] ++ [x])[tr.length + 1]? = some x := by simp
    rw [e1, Option.some.injEq] at ha
    rw [e2, Option.some.injEq] at hb
    rw [← ha, ← hb, ht]

/-! ### Guarded schedules -/

def guardedAt (g : Nat → Nat) (p : KTrace α) (x : KEntry α) : Bool :=
  match x.act with
  | .scan c _ => decide (KTrace.holder p (g c) = some x.thread)
  | .remove e => (KTrace.decl p e).all (fun d => decide (KTrace.holder p (g d.mock) = some x.thread))
  | .query e => (KTrace.decl p e).all (fun d => decide (KTrace.holder p (g d.mock) = some x.thread))
  | .unlock k => (KTrace.flight p x.thread).all (fun q => decide (g q.1 ≠ k))
  | _ => true

/-- Whether a schedule is guarded, as a computation. -/
def guarded (g : Nat → Nat) (tr : KTrace α) : Bool :=
  (List.range tr.length).all (fun i => (tr[i]?).all (guardedAt g (tr.take i)))

theorem guarded_sound {g : Nat → Nat} {tr : KTrace α} (h : guarded g tr = true) : tr.Guarded g := by
  intro p x hp
  obtain ⟨hx, htake⟩ := snoc_prefix hp
  have hlt := (List.getElem?_eq_some_iff.mp hx).1
  simp only [guarded, List.all_eq_true, List.mem_range] at h
  have := h _ hlt
  rw [hx, Option.all_some, htake] at this
  unfold guardedAt at this
  split <;> rename_i hact <;> simp only [hact] at this
  · simpa using this
  · intro d hd
    simpa [hd] using this
  · intro d hd
    simpa [hd] using this
  · intro c e hf
    simpa [hf] using this
  · trivial

/-- Whether every expectation is queried by the thread that created it, as a computation. -/
def ownQueries (tr : KTrace α) : Bool :=
  (List.range tr.length).all (fun i => (List.range tr.length).all (fun j =>
    match tr[i]?, tr[j]? with
    | some x, some y =>
      match y.act with
      | .query e => decide (Event.created e ∈ x.log.ev → i < j ∧ x.thread = y.thread)
      | _ => true
    | _, _ => true))

theorem ownQueries_sound {tr : KTrace α} (h : ownQueries tr = true) : tr.HandedOver := by
  intro i j e x y hx hy hc ha
  have hi := (List.getElem?_eq_some_iff.mp hx).1
  have hj := (List.getElem?_eq_some_iff.mp hy).1
  simp only [ownQueries, List.all_eq_true, List.mem_range] at h
  have := h i hi j hj
  simp only [hx, hy, ha, decide_eq_true_eq] at this
  obtain ⟨h1, h2⟩ := this hc
  exact .thread h1 hx hy h2

/-! ### Two threads, one mock, one expectation for exactly one call -/

/-- Thread `t` takes the client's mutex 0 and gives it back. -/
def pass (t : Nat) : List (Nat × KAct α) := [(t, .lock 0), (t, .unlock 0)]

/-- Both threads match the expectation before either has counted; every step happens before the next. -/
def overshoot : List (Nat × KAct Unit) :=
  [(0, .expect 0 1 1 []), (0, .scan 0 ()), (1, .scan 0 ()), (1, .report)] ++ pass 1 ++ pass 0 ++
  [(0, .report), (0, .consume)] ++ pass 0 ++ pass 1 ++ [(1, .consume)] ++ pass 1 ++ pass 0

/-- The state of the library after `k` calls have been counted. -/
def countedWorld (k : Nat) : KWorld Unit :=
  { w := { seqs := [], exps := [⟨0, ⟨1, 1, k, []⟩, [], true⟩], colls := [[0]] }, threads := [.idle, .idle], held := [] }

theorem overshoot_reach : ∃ (tr : KTrace Unit) (y : KEntry Unit), KReach false 2 1 (tr ++ [y]) (countedWorld 2) ∧
    Linked (tr ++ [y]) ∧ y.thread = 0 ∧ KTrace.decl (tr ++ [y]) 0 = some ⟨0, 1, 1, [], []⟩ ∧
    KTrace.resolved (tr ++ [y]) 0 = 2 := by
  have h : (KWorld.init 2 1).record false overshoot = .ok (countedWorld 2, (KWorld.final false 2 1 overshoot).2) := rfl
  have hr := krecord_reach overshoot (tr := []) .init h
  have hl : linked (KWorld.final false 2 1 overshoot).2 = true := by decide
  have hs : ∃ (tr : KTrace Unit) (y : KEntry Unit), (KWorld.final false 2 1 overshoot).2 = tr ++ [y] ∧ y.thread = 0 := by
    refine ⟨(KWorld.final false 2 1 overshoot).2.dropLast, (KWorld.final false 2 1 overshoot).2.getLast (by intro h0; exact absurd (congrArg List.length h0) (by decide)), ?_, ?_⟩
    · exact (List.dropLast_concat_getLast _).symm
    · rfl
  obtain ⟨tr, y, hty, hy⟩ := hs
  refine ⟨tr, y, ?_, ?_, hy, ?_, ?_⟩
  · rw [← hty]; exact hr
  · rw [← hty]; exact linked_sound _ hl
  · rw [← hty]; rfl
  · rw [← hty]; decide

theorem counted_look (k : Nat) (hk : 2 ≤ k) : lookE (countedWorld k).w () 0 = some .full := by
  simp only [lookE, countedWorld, List.getElem?_cons_zero, Option.map_some, look, List.any_nil, List.all_nil]
  have : ¬ ((k : Int) = 1) := by omega
  simp [this]

theorem counted_scan (k : Nat) (hk : 2 ≤ k) : (countedWorld k).step false 0 (.scan 0 ()) = .ok ((countedWorld k).at 0 (.matched 0 0),
    { reads := [.storage 0, .exp 0], acquires := some (.storage 0), releases := some (.storage 0), chosen := some 0 }) := by
  rw [scan_step (es := [0]) rfl rfl (by intro e he; simp at he; subst he; exact ⟨_, rfl, rfl, rfl⟩)]
  simp [fulls, counted_look k hk]

theorem counted_report (k : Nat)  : ((countedWorld k).at 0 (.matched 0 0)).step false 0 .report =
    .ok ((countedWorld k).at 0 (.reported 0 0), { ev := [.fullMatch 0] }) := rfl

theorem consume_step {asserts : Bool} {kw : KWorld α} {w' : World α} {t c e : Nat} (hl : kw.threads[t]? = some (.reported c e))
    (hc : kw.w.consumeIn asserts e = .ok w') :
    kw.step asserts t .consume = .ok ({ kw with w := w' }.at t .idle, { reads := [.exp e], writes := [.exp e] }) := by
  simp only [KWorld.step, hl, hc, bind, Except.bind, pure, Except.pure]

theorem counted_consume (k : Nat) (hmax : ((k : Nat) + 1 : Int) ≤ 2147483647) : ((countedWorld k).at 0 (.reported 0 0)).step false 0 .consume =
    .ok (countedWorld (k + 1), { reads := [.exp 0], writes := [.exp 0] }) := by
  generalize hx : (⟨0, ⟨1, 1, (k : Int), []⟩, [], true⟩ : Exp Unit) = x
  have hcount : x.control.count = k := by rw [← hx]
  have halive : x.alive = true := by rw [← hx]
  have hle : x.control.count + 1 ≤ intMax := by rw [hcount, intMax]; exact hmax
  have hget : (countedWorld k).w.exps[0]? = some x := by rw [← hx]; rfl
  have hc := consume_plain (w := (countedWorld k).w) (e := 0) (x := x) false hget (by rw [← hx]) (by rw [hcount]; omega)
  rw [if_pos halive, if_neg (by simp), if_pos hle] at hc
  have hup : countUp x = ⟨0, ⟨1, 1, ((k + 1 : Nat) : Int), []⟩, [], true⟩ := by rw [← hx]; simp [countUp]
  rw [hup] at hc
  exact consume_step (kw := (countedWorld k).at 0 (.reported 0 0)) rfl hc

theorem overshoot_more (k : Nat) (hk : 2 ≤ k) (hmax : (k : Int) ≤ 2147483647) :
    ∃ (tr : KTrace Unit) (y : KEntry Unit), KReach false 2 1 (tr ++ [y]) (countedWorld k) ∧
    Linked (tr ++ [y]) ∧ y.thread = 0 ∧ KTrace.decl (tr ++ [y]) 0 = some ⟨0, 1, 1, [], []⟩ ∧
    KTrace.resolved (tr ++ [y]) 0 = k := by
  induction k with
  | zero => omega
  | succ k ih =>
    by_cases hk2 : k + 1 = 2
    · have : k = 1 := by omega
      subst this
      exact overshoot_reach
    · obtain ⟨tr, y, hr, hl, hy, hd, hres⟩ := ih (by omega) (by omega)
      have h1 := counted_scan k (by omega)
      have h2 := counted_report k
      have h3 := counted_consume k (by omega)
      have r1 := KReach.step hr h1
      have r2 := KReach.step r1 h2
      have r3 := KReach.step r2 h3
      have l1 := hl.snoc (x := ⟨0, .scan 0 (), { reads := [.storage 0, .exp 0], acquires := some (.storage 0), releases := some (.storage 0), chosen := some 0 }⟩) hy
      have l2 := Linked.snoc (x := ⟨0, .report, { ev := [.fullMatch 0] }⟩) l1 rfl
      have l3 := Linked.snoc (x := ⟨0, .consume, { reads := [.exp 0], writes := [.exp 0] }⟩) l2 rfl
      refine ⟨_, _, r3, l3, rfl, ?_, ?_⟩
      · exact kdecl_mono (by rw [List.append_assoc, List.append_assoc]; exact List.prefix_append _ _) hd
      · rw [kresolved_snoc, kresolved_snoc, kresolved_snoc, hres]
        simp

end Mimic
