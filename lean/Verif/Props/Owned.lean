import Verif.Proofs.Owned
import Verif.Proofs.ConcurrentDemo
import Verif.Props.Concurrent

/-!
# C72: threads with mocks of their own
-/

set_option autoImplicit false

namespace Mimic

variable {α : Type} {asserts : Bool} {n m : Nat} {tr : KTrace α} {kw : KWorld α} {own : Nat → Nat}

/-- Two tests that run in parallel: thread 0 has mock 0, thread 1 has mock 1, and neither of them locks anything. Thread 1
calls its mock once more than it expects, and withdraws an expectation that it has not met. -/
def parallelDemo : List (Nat × KAct Unit) :=
  [(0, .expect 0 1 2 []), (1, .expect 1 1 1 []), (0, .scan 0 ()), (1, .scan 1 ()), (1, .report), (0, .report), (1, .consume),
   (1, .scan 1 ()), (0, .consume), (1, .expect 1 1 1 []), (0, .scan 0 ()), (1, .remove 2), (0, .report), (1, .release),
   (0, .consume), (1, .query 1), (0, .query 0), (1, .remove 1), (0, .remove 0), (1, .release), (0, .release)]

/-- Whether every mock `c` is used by `own c` only, as a computation. -/
def ownedAt (own : Nat → Nat) (p : KTrace α) (x : KEntry α) : Bool :=
  match x.act with
  | .expect c _ _ _ => x.thread = own c
  | .scan c _ => x.thread = own c
  | .remove e => (KTrace.decl p e).all (fun d => x.thread = own d.mock)
  | .query e => (KTrace.decl p e).all (fun d => x.thread = own d.mock)
  | _ => true

theorem owned_sound (h : (List.range tr.length).all (fun i => (tr[i]?).all (ownedAt own (tr.take i))) = true) :
    tr.Owned own := by
  intro p x hp
  obtain ⟨hx, htake⟩ := snoc_prefix hp
  have hlt := (List.getElem?_eq_some_iff.mp hx).1
  simp only [List.all_eq_true, List.mem_range] at h
  have := h _ hlt
  rw [hx, Option.all_some, htake] at this
  unfold ownedAt at this
  split <;> rename_i hact <;> simp only [hact] at this
  · simpa using this
  · simpa using this
  · intro d hd
    simpa [hd] using this
  · intro d hd
    simpa [hd] using this
  · trivial

/-- C72: if every mock is used by one thread only, then there is no data race, although nothing is locked, and no two calls
of one mock overlap. Hence every schedule amounts to a history of a single thread, no expectation takes more calls than it
allows, and every step that a thread can make is defined. -/
theorem C72_safe (h : KReach asserts n m tr kw) (ho : tr.Owned own) :
    RaceFree tr ∧ tr.Separate ∧ (∃ w, Reach (tr.serial m) w) ∧
    (∀ e d, tr.decl e = some d → (tr.resolved e : Int) ≤ d.max) ∧
    ∀ t act, tr.valid n m t act → ∃ kw' log, kw.step asserts t act = .ok (kw', log) := by
  have hs := owned_separate h ho
  refine ⟨?_, hs, C40_sequential h hs⟩
  intro i j hr
  obtain ⟨e, x, y, _, hx, hy, ht, _, hux, huy, _⟩ := race_use h hr
  obtain ⟨d, hd, h1⟩ := owned_use h ho hx hux
  obtain ⟨d', hd', h2⟩ := owned_use h ho hy huy
  rw [hd] at hd'
  cases hd'
  exact ht (h1.trans h2.symm)

/-- C72: what becomes of a call is determined by what the thread itself did before: the youngest of its own expectations that
accepts the call and has not been used up by its own calls is chosen, and without one, what is reported is about its own
expectations only. The steps of other threads have no say in it. -/
theorem C72_own_calls (h : KReach asserts n m tr kw) (ho : tr.Owned own) {kw' : KWorld α} {t c : Nat} {a : α} {log : KLog}
    (hs : kw.step asserts t (.scan c a) = .ok (kw', log)) (ht : own c = t) :
    ∃ us, YoungestFirst ((tr.of t).throws c a) us ∧
      ((∃ e, log.chosen = some e ∧ log.ev = us.map Event.unhandled ∧ (tr.of t).candidate c a e ∧
          ∀ e', (tr.of t).candidate c a e' → e' ≤ e) ∨
       (log.chosen = none ∧ (∀ e, ¬ (tr.of t).candidate c a e) ∧ (∃ e, (tr.of t).accepts c a e) ∧
          ∃ es, log.ev = us.map Event.unhandled ++ [.inapplicable es] ∧ YoungestFirst ((tr.of t).accepts c a) es) ∨
       (log.chosen = none ∧ (∀ e, ¬ (tr.of t).accepts c a e) ∧
          ∃ es, log.ev = us.map Event.unhandled ++ [.noMatch es] ∧
            YoungestFirst (fun e => ((tr.of t).live e ∧ ∃ d, (tr.of t).decl e = some d ∧ d.mock = c) ∧
              ¬ (tr.of t).throws c a e) es)) := by
  have := C40_outcome h hs
  simp only [of_candidate h ho a ht, of_accepts h ho a ht, of_throws h ho a ht, of_stored h ho ht]
  exact this

/-- C72: an expectation that a thread withdraws is reported as unfulfilled iff the calls of that very thread do not meet its
limits (or one of its policies is not satisfied), and a thread that asks whether one of its expectations is satisfied gets the
answer for its own calls. -/
theorem C72_own_verdicts (h : KReach asserts n m tr kw) (ho : tr.Owned own) {kw' : KWorld α} {t e : Nat} {log : KLog} {d : Decl α}
    (hd : (tr.of t).decl e = some d) :
    (kw.step asserts t (.remove e) = .ok (kw', log) →
      ((d.min ≤ (tr.of t).counted e ∧ (tr.of t).counted e ≤ d.max ∧ ∀ p ∈ d.policies, p.isSatisfied = true) →
        log.ev = [.destroyed e]) ∧
      (¬ (d.min ≤ (tr.of t).counted e ∧ (tr.of t).counted e ≤ d.max ∧ ∀ p ∈ d.policies, p.isSatisfied = true) →
        log.ev = [.destroyed e, .unfulfilled e])) ∧
    (kw.step asserts t (.query e) = .ok (kw', log) →
      (log.answer = some true ↔
        d.min ≤ (tr.of t).counted e ∧ (tr.of t).counted e ≤ d.max ∧ ∀ p ∈ d.policies, p.isSatisfied = true) ∧
      (log.answer = some false ↔
        ¬ (d.min ≤ (tr.of t).counted e ∧ (tr.of t).counted e ≤ d.max ∧ ∀ p ∈ d.policies, p.isSatisfied = true))) := by
  have hf := of_decl h ho t e
  rw [hd] at hf
  obtain ⟨hd', ht⟩ := Option.filter_eq_some_iff.mp hf.symm
  have ht : own d.mock = t := by simpa using ht
  rw [of_counted h ho hd' ht]
  exact ⟨fun hs => C40_unfulfilled h hs hd', fun hs => C40_query h hs hd'⟩

/-- What the two threads of `parallelDemo` do is their own business, and the hypotheses of the theorems above are met. What
each of them sees: -/
example : KTrace.Owned (fun c => c) (KWorld.final true 2 2 parallelDemo).2 ∧
    (KWorld.final true 2 2 parallelDemo).2.length = 21 ∧
    KTrace.events (KTrace.of (KWorld.final true 2 2 parallelDemo).2 0) = [.created 0, .fullMatch 0, .fullMatch 0, .destroyed 0] ∧
    KTrace.events (KTrace.of (KWorld.final true 2 2 parallelDemo).2 1) =
      [.created 1, .fullMatch 1, .inapplicable [1], .created 2, .destroyed 2, .unfulfilled 2, .destroyed 1] ∧
    linked (KWorld.final true 2 2 parallelDemo).2 = false :=
  ⟨owned_sound (by decide), by decide, by decide, by decide, by decide⟩

/-- The condition is needed: a thread that calls another's mock may race with it. -/
example : ∃ (tr : KTrace Unit) (kw : KWorld Unit), KReach true 2 1 tr kw ∧ ¬ RaceFree tr ∧
    tr.map (fun x => (x.thread, x.log.chosen)) = [(0, none), (0, some 0), (0, none), (0, none), (1, none)] := by
  refine ⟨_, _, kreach_final true 2 1
    [(0, .expect 0 1 1 []), (0, .scan 0 ()), (0, .report), (0, .consume), (1, .scan 0 ())], ?_, by decide⟩
  intro hf
  apply hf 3 4
  exact C40_later_call_races (c := 0) (e := 0) (a := ()) (kreach_final true 2 1 _) (by decide) rfl rfl (by decide) rfl rfl rfl
    ⟨⟨_, rfl⟩, by decide⟩ rfl rfl
    (by
      intro k z h1 h2 hz _
      have : k = 3 := by omega
      subst this
      have : z = _ := (Option.some.inj hz).symm
      subst this
      rfl)

end Mimic
