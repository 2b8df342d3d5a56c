import Verif.Proofs.Foreign
import Verif.Proofs.Handle

/-!
# C107: expectations and control policies of the user's own

Whatever implementations of the interface `Expectation` a collection is given, in particular expectations with control policies of the user's own,
the collection keeps the rules: who is asked, who resolves a call, what is reported, and who is told about it.
-/

set_option autoImplicit false

namespace Mimic.Foreign

variable {ω α ρ : Type}

/-! ## Examples: two kinds of control policies -/

/-- A control policy that can be used `most` times, wants to be used `least` times, and rates itself for the "sequence" 7. Its `state` throws once
it was used ten times, its `consume` when it was used five times before. -/
def counting (least most : Nat) (rating : Option Int) : ControlPolicy Nat where
  satisfied n := decide (least ≤ n)
  state n :=
    if 10 ≤ n then none
    else if n < most then some (.applicable least most n (rating.toList.map (fun r => ⟨r, 7⟩)))
    else some (.saturated least most n [])
  consume n := (n + 1, n ≠ 5)

/-- Expectation 0 takes small calls and throws for 99; 1 and 2 take all, and 1 is rated higher than 2. -/
def sample : Basic Nat Nat Nat where
  control e := if e = 0 then counting 1 6 none else counting 0 2 (some (if e = 1 then 5 else 3))
  policies e := if e = 0 then [{ accepts := fun a => if a = 99 then none else some (decide (a < 10)) }] else []
  finalizer e a := 100 * e + a

/-- What a list of operations comes to. -/
def outs (O : Objects ω α ρ) : State ω → List (FOp ω α) → List (Option (Out ρ))
  | _, [] => []
  | s, op :: ops =>
    match step O s op with
    | .error _ => [none]
    | .ok (s', o) => some o :: outs O s' ops

def start : State (Nat → Nat) := { members := [], rest := fun _ => 0 }

def filled : FTrace (Nat → Nat) Nat Nat := [(.push 0, { events := [.created 0] }), (.push 1, { events := [.created 1] }), (.push 2, { events := [.created 2] })]

def full : State (Nat → Nat) := { members := [0, 1, 2], rest := fun _ => 0 }

theorem filled_reach : FReach sample.objects (fun _ => 0) filled full :=
  .step (th := [(.push 0, { events := [.created 0] }), (.push 1, { events := [.created 1] })]) (s := { members := [0, 1], rest := fun _ => 0 })
    (.step (th := [(.push 0, { events := [.created 0] })]) (s := { members := [0], rest := fun _ => 0 })
      (.step (th := []) (s := { members := [], rest := fun _ => 0 }) .init rfl) rfl) rfl

/-! ## Calls -/

/-- **C107.** What a call comes to, whatever the expectations are: all that were added and not removed are asked, the last one first; those that
throw are reported; if some can resolve the call, the one that is chosen is reported, told to note the call, and finalizes it, and nobody else is
told; else all that accept the call but not now are reported, and if there are none, all that were asked and did not throw. The collection stays as
it is. -/
theorem C107_call (O : Objects ω α ρ) (p₀ : ω) (th : FTrace ω α ρ) (s s' : State ω) (a : α) (o : Out ρ) (h : FReach O p₀ th s)
    (hs : step O s (.call a) = .ok (s', o)) : s'.members = s.members ∧ Called O s.rest a th.present s'.rest o := by
  rw [← h.members.1]
  exact call_spec O s s' a o hs

/-- The one added last gives way to the one that was rated higher; that one is used up after two calls. Then the other one is used, and in the end
all are. -/
example : outs sample.objects full [.call 20, .call 20, .call 20, .call 20, .call 20, .call 99, .call 3] =
    [some { events := [.fullMatch 1], touches := [.asked 2, .asked 1, .asked 0, .consumed 1, .finalized 1], result := some 120 },
     some { events := [.fullMatch 1], touches := [.asked 2, .asked 1, .asked 0, .consumed 1, .finalized 1], result := some 120 },
     some { events := [.fullMatch 2], touches := [.asked 2, .asked 1, .asked 0, .consumed 2, .finalized 2], result := some 220 },
     some { events := [.fullMatch 2], touches := [.asked 2, .asked 1, .asked 0, .consumed 2, .finalized 2], result := some 220 },
     some { events := [.inapplicable [2, 1]], touches := [.asked 2, .asked 1, .asked 0] },
     some { events := [.unhandled 0, .inapplicable [2, 1]], touches := [.asked 2, .asked 1, .asked 0] },
     some { events := [.fullMatch 0], touches := [.asked 2, .asked 1, .asked 0, .consumed 0, .finalized 0], result := some 3 }] := by
  decide +kernel

/-- **C107.** That determines the observations and what becomes of the rest of the program. -/
theorem C107_determined (O : Objects ω α ρ) (p q q' : ω) (a : α) (es : List Nat) (o o' : Out ρ) (h : Called O p a es q o)
    (h' : Called O p a es q' o') : q = q' ∧ o = o' := h.unique h'

example : ∃ q o, Called sample.objects (fun _ => 0) 20 [2, 1, 0] q o ∧ o.result = some 120 := by
  refine ⟨_, _, (C107_call sample.objects (fun _ => 0) filled full _ 20 _ filled_reach rfl).2, ?_⟩
  decide +kernel

/-- **C107.** A call never goes wrong in another way than this: an expectation throws when it is asked, and throws again when it is to be
reported. Then the program is terminated, else the call is handled. -/
theorem C107_progress (O : Objects ω α ρ) (p₀ : ω) (th : FTrace ω α ρ) (s : State ω) (a : α) (h : FReach O p₀ th s) :
    ((∃ s' o, step O s (.call a) = .ok (s', o)) ↔ ∀ e ∈ th.present, Throws O s.rest a e → O.reportable e s.rest = true) ∧
    ((∃ e ∈ th.present, Throws O s.rest a e ∧ O.reportable e s.rest = false) → ∃ t, step O s (.call a) = .error (.terminate t)) := by
  have key : (∃ s' o, step O s (.call a) = .ok (s', o)) ↔ ∀ e ∈ th.present, Throws O s.rest a e → O.reportable e s.rest = true := by
    have := call_ok_iff O s a
    simp only [h.mem] at this
    exact this
  refine ⟨key, ?_⟩
  rintro ⟨e, he, ht, hr⟩
  cases hc : step O s (.call a) with
  | ok v =>
    have := key.1 ⟨v.1, v.2, hc⟩ e he ht
    rw [hr] at this
    cases this
  | error x =>
    obtain ⟨t, rfl⟩ := call_error O s a hc
    exact ⟨t, rfl⟩

/-- An expectation that throws for a call does no harm if it can be reported; one whose control policy throws does. -/
example : outs sample.objects full [.call 99, .change (fun p e => if e = 0 then 10 else p e), .call 99] =
    [some { events := [.unhandled 0, .fullMatch 1], touches := [.asked 2, .asked 1, .asked 0, .consumed 1, .finalized 1], result := some 199 },
     some { events := [] }, none] := by
  decide +kernel

/-- **C107.** The expectation that resolves a call can resolve it, does not give way to any older one that can, and is the youngest one that can or
a younger one gave way to it. -/
theorem C107_best (O : Objects ω α ρ) (p₀ : ω) (th : FTrace ω α ρ) (s s' : State ω) (a : α) (o : Out ρ) (e : Nat) (h : FReach O p₀ th s)
    (hs : step O s (.call a) = .ok (s', o)) (he : Event.fullMatch e ∈ o.events) :
    ∃ younger older, th.present = younger ++ e :: older ∧ Can O s.rest a e ∧ (∀ y ∈ older, ¬ GivesWay O s.rest a e y) ∧
      ((∀ z ∈ younger, ¬ Can O s.rest a z) ∨ ∃ z ∈ younger, GivesWay O s.rest a z e) := by
  have hc := (C107_call O p₀ th s s' a o h hs).2
  have key : ∀ {c e' : Nat} {cs : List Nat}, e = e' → Those (Can O s.rest a) th.present (c :: cs) → Chosen O s.rest a c cs e' →
      ∃ younger older, th.present = younger ++ e :: older ∧ Can O s.rest a e ∧ (∀ y ∈ older, ¬ GivesWay O s.rest a e y) ∧
        ((∀ z ∈ younger, ¬ Can O s.rest a z) ∨ ∃ z ∈ younger, GivesWay O s.rest a z e) := by
    rintro c e' cs rfl h1 h2
    obtain ⟨l, l', h3, h4, h5⟩ := h2.split
    obtain ⟨k, k', h6, h7, h8⟩ := h1.split h3
    have hcan : Can O s.rest a e := ((h1.mem e).1 h2.mem).2
    refine ⟨k, k', h6, hcan, ?_, ?_⟩
    · intro y hy hg
      obtain ⟨_, ry, _, hy', _⟩ := id hg
      exact h4 y ((h8.mem y).2 ⟨hy, ry, hy'⟩) hg
    · rcases h5 with rfl | ⟨z, hz, hg⟩
      · left
        intro z hz hcz
        have := (h7.mem z).2 ⟨hz, hcz⟩
        cases this
      · right
        exact ⟨z, ((h7.mem z).1 hz).1, hg⟩
  revert hc
  generalize s'.rest = q
  intro hc
  cases hc with
  | resolved h1 h2 h3 h4 h5 => exact key (by simpa using he) h2 h3
  | broken h1 h2 h3 h4 => exact key (by simpa using he) h2 h3
  | notNow => simp at he
  | never => simp at he

example : GivesWay sample.objects (fun _ => 0) 20 2 1 ∧ ¬ GivesWay sample.objects (fun _ => 0) 20 1 0 := by
  refine ⟨⟨[⟨3, 7⟩], [⟨5, 7⟩], ⟨0, 2, 0, [], rfl, by simp⟩, ⟨0, 2, 0, [], rfl, by simp⟩, by simp, by decide⟩, ?_⟩
  rintro ⟨rx, ry, -, ⟨_, _, _, rs, h, hall⟩, -⟩
  have : sample.objects.matching 0 (fun _ => 0) 20 = some (.applicable 1 6 0 [], [(false, none)]) := rfl
  rw [this] at h
  simp only [Option.some.injEq, Prod.mk.injEq] at h
  rw [← h.2] at hall
  simp at hall

/-- **C107.** If the control policies give no ratings, the youngest expectation that can resolve a call does. -/
theorem C107_unrated (O : Objects ω α ρ) (p₀ : ω) (th : FTrace ω α ρ) (s s' : State ω) (a : α) (o : Out ρ) (younger older : List Nat) (e : Nat)
    (h : FReach O p₀ th s) (hs : step O s (.call a) = .ok (s', o)) (hp : th.present = younger ++ e :: older)
    (hy : ∀ z ∈ younger, ¬ Can O s.rest a z) (he : Rated O s.rest a e []) : Event.fullMatch e ∈ o.events := by
  have hc := (C107_call O p₀ th s s' a o h hs).2
  have hmem : e ∈ th.present := by simp [hp]
  have hstay : ∀ {ys : List Nat} {r : Nat}, Chosen O s.rest a e ys r → r = e := by
    intro ys
    induction ys with
    | nil => intro r h; cases h; rfl
    | cons y ys ih =>
      intro r h
      cases h with
      | move hg _ =>
        obtain ⟨rx, ry, h1, -, -, h2⟩ := hg
        rw [h1.unique he] at h2
        simp at h2
      | stay _ h => exact ih h
  have hfirst : ∀ {c : Nat} {cs : List Nat}, Those (Can O s.rest a) th.present (c :: cs) → c = e := by
    rw [hp]
    clear hp hmem hc hs h
    induction younger with
    | nil =>
      intro c cs h
      cases h with
      | take _ _ => rfl
      | skip hn _ => exact absurd ⟨[], he⟩ hn
    | cons z younger ih =>
      intro c cs h
      cases h with
      | take hz _ => exact absurd hz (hy _ (by simp))
      | skip _ h => exact ih (fun z hz => hy z (by simp [hz])) h
  revert hc
  generalize s'.rest = q
  intro hc
  cases hc with
  | resolved h1 h2 h3 h4 h5 =>
    cases hfirst h2
    cases hstay h3
    simp
  | broken h1 h2 h3 h4 =>
    cases hfirst h2
    cases hstay h3
    simp
  | notNow h1 h2 =>
    have := (h2.mem e).2 ⟨hmem, [], he⟩
    cases this
  | never h1 h2 =>
    have := (h2.mem e).2 ⟨hmem, Can.accepts ⟨[], he⟩⟩
    cases this

example : Rated sample.objects (fun _ => 0) 3 0 [] := ⟨1, 6, 0, [(true, none)], rfl, by simp⟩

/-! ## Adding and removing -/

/-- **C107.** An expectation can be added unless it is a member, and that asks nothing of it. -/
theorem C107_push (O : Objects ω α ρ) (p₀ : ω) (th : FTrace ω α ρ) (s : State ω) (e : Nat) (h : FReach O p₀ th s) :
    (e ∉ th.present → ∃ s', step O s (.push e) = .ok (s', { events := [.created e] }) ∧ s'.rest = s.rest) ∧
    (e ∈ th.present → ∃ t, step O s (.push e) = .error (.ub t)) := by
  constructor
  · intro he
    rw [← h.mem] at he
    refine ⟨{ s with members := s.members ++ [e] }, ?_, rfl⟩
    simp only [step]
    rw [if_neg (by simpa using he)]
  · intro he
    rw [← h.mem] at he
    exact ⟨_, by simp only [step]; rw [if_pos (by simpa using he)]⟩

example : outs sample.objects full [.push 3, .push 1] = [some { events := [.created 3] }, none] := by decide +kernel

/-- **C107.** What the rest of the program does to its state is there for the next operation, and the collection stays as it is. -/
theorem C107_change (O : Objects ω α ρ) (s : State ω) (f : ω → ω) :
    ∃ s', step O s (.change f) = .ok (s', { events := [] }) ∧ s'.rest = f s.rest ∧ s'.members = s.members :=
  ⟨_, rfl, rfl, rfl⟩

/-- **C107.** When a member is removed, it is reported as unfulfilled exactly if it says that it is not satisfied; if it throws then, the exception
leaves the removal, and the expectation is no member any more all the same. -/
theorem C107_unfulfilled (O : Objects ω α ρ) (p₀ : ω) (th : FTrace ω α ρ) (s : State ω) (e : Nat) (h : FReach O p₀ th s) :
    (e ∈ th.present → ∃ s' o, step O s (.remove e) = .ok (s', o) ∧ s'.rest = s.rest ∧ e ∉ s'.members ∧ .destroyed e ∈ o.events ∧
      (.unfulfilled e ∈ o.events ↔ O.satisfied e s.rest = false ∧ O.reportable e s.rest = true) ∧
      (o.threw = true ↔ O.satisfied e s.rest = false ∧ O.reportable e s.rest = false)) ∧
    (e ∉ th.present → ∃ t, step O s (.remove e) = .error (.ub t)) := by
  constructor
  · intro he
    have hnd : s.members.Nodup := by
      have h2 := h.members
      rw [← h2.1] at h2
      have := List.pairwise_reverse.mp h2.2
      exact this.imp (fun h => Ne.symm h)
    rw [← h.mem] at he
    have hno : e ∉ s.members.erase e := fun hm => (hnd.mem_erase_iff.mp hm).1 rfl
    have hc : s.members.contains e = true := by simpa using he
    simp only [step, hc, ↓reduceIte]
    cases h1 : O.satisfied e s.rest with
    | true => exact ⟨_, _, rfl, rfl, hno, by simp, by simp, by simp⟩
    | false =>
      cases h2 : O.reportable e s.rest with
      | true => exact ⟨_, _, rfl, rfl, hno, by simp, by simp, by simp⟩
      | false => exact ⟨_, _, rfl, rfl, hno, by simp, by simp, by simp⟩
  · intro he
    rw [← h.mem] at he
    exact ⟨_, by simp only [step]; rw [if_neg (by simpa using he)]⟩

example : outs sample.objects full [.remove 0, .remove 1, .remove 1] =
    [some { events := [.destroyed 0, .unfulfilled 0] }, some { events := [.destroyed 1] }, none] := by
  decide +kernel

/-! ## The state of an expectation -/

/-- **C107.** The state of an expectation that keeps it to itself is always what the calls have made of it that it was reported to take: no other
call, and nothing else that happens to the collection, changes it, and no call is missed. -/
theorem C107_private {σ : Type} (O : Objects ω α ρ) (p₀ : ω) (th : FTrace ω α ρ) (s : State ω) (e : Nat) (place : ω → σ) (use : σ → α → σ)
    (h : FReach O p₀ th s) (hp : Private O e place use) (hf : ∀ st ∈ th, ∀ f, st.1 = .change f → ∀ p, place (f p) = place p) :
    place s.rest = (th.took e).foldl use (place p₀) := by
  induction h with
  | init => rfl
  | @step th s s' op o _ hs ih =>
    have ih := ih (fun st hst => hf st (by simp [hst]))
    rw [FTrace.took_snoc, List.foldl_append, ← ih]
    cases op with
    | change f =>
      simp only [Foreign.step, Except.ok.injEq, Prod.mk.injEq] at hs
      obtain ⟨rfl, -⟩ := hs
      exact hf (.change f, o) (by simp) f rfl s.rest
    | push e' =>
      simp only [Foreign.step] at hs
      split at hs
      · cases hs
      · cases hs; rfl
    | remove e' =>
      simp only [Foreign.step] at hs
      split at hs
      · split at hs
        · cases hs; rfl
        · split at hs <;> · cases hs; rfl
      · cases hs
    | call a =>
      simp only [Foreign.step] at hs
      rw [(call_spec O s s' a o hs).2.place hp]
      by_cases hm : Event.fullMatch e ∈ o.events
      · simp only [hm, ↓reduceIte, List.foldl_cons, List.foldl_nil]
      · simp only [hm, ↓reduceIte, List.foldl_nil]

theorem Basic.private {σ : Type} (B : Basic σ α ρ) (e : Nat) :
    Private B.objects e (fun p => p e) (fun q _ => ((B.control e).consume q).1) := by
  constructor
  · intro p a
    dsimp only
    by_cases hc : (B.objects.consume e p a).2 = true
    · rw [if_pos hc]; simp [Basic.objects]
    · rw [if_neg hc]; simp [Basic.objects]
  · intro e' p a he
    simp [Basic.objects, Ne.symm he]

example : Private sample.objects 1 (fun p => p 1) (fun q _ => q + 1) := sample.private 1

/-- **C107.** The control policy of an expectation is told about exactly the calls that the expectation was reported to take, once each, as long as
only the collection uses it. -/
theorem C107_policy {σ : Type} (B : Basic σ α ρ) (p₀ : Nat → σ) (th : FTrace (Nat → σ) α ρ) (s : State (Nat → σ)) (e : Nat)
    (h : FReach B.objects p₀ th s) (hf : ∀ st ∈ th, ∀ f, st.1 = .change f → ∀ p, f p e = p e) :
    s.rest e = (th.took e).foldl (fun q _ => ((B.control e).consume q).1) (p₀ e) :=
  C107_private B.objects p₀ th s e (fun p => p e) _ h (B.private e) hf

/-- **C107.** While an expectation whose control policy throws is a member, every call of the mock terminates the program; its removal throws
unless it is satisfied. -/
theorem C107_state_throws {σ : Type} (B : Basic σ α ρ) (p₀ : Nat → σ) (th : FTrace (Nat → σ) α ρ) (s : State (Nat → σ)) (e : Nat)
    (h : FReach B.objects p₀ th s) (he : e ∈ th.present) (hn : (B.control e).state (s.rest e) = none) :
    (∀ a, ∃ t, step B.objects s (.call a) = .error (.terminate t)) ∧
    ∃ s' o, step B.objects s (.remove e) = .ok (s', o) ∧ (o.threw = true ↔ B.objects.satisfied e s.rest = false) := by
  have hr : B.objects.reportable e s.rest = false := by simp [Basic.objects, hn]
  constructor
  · intro a
    exact (C107_progress B.objects p₀ th s a h).2 ⟨e, he, by simp [Throws, Basic.objects, hn], hr⟩
  · obtain ⟨s', o, h1, -, -, -, -, h2⟩ := (C107_unfulfilled B.objects p₀ th s e h).1 he
    exact ⟨s', o, h1, by rw [h2, hr]; simp⟩

example : ∃ th s, FReach sample.objects (fun _ => 10) th s ∧ 0 ∈ th.present ∧ (sample.control 0).state (s.rest 0) = none :=
  ⟨[(.push 0, { events := [.created 0] })], { members := [0], rest := fun _ => 10 },
    .step (th := []) (s := { members := [], rest := fun _ => 10 }) .init rfl, by decide, by decide⟩

/-- **C107.** An expectation with a control policy of the user's own throws exactly if its control policy or one of the other policies does; it
accepts a call exactly if the other policies do; whether it is its turn, and its ratings, are what the control policy says. -/
theorem C107_says {σ : Type} (B : Basic σ α ρ) (p : Nat → σ) (a : α) (e : Nat) :
    (Throws B.objects p a e ↔ (B.control e).state (p e) = none ∨ ∃ q ∈ B.policies e, q.accepts a = none) ∧
    (Accepts B.objects p a e ↔ (B.control e).state (p e) ≠ none ∧ ∀ q ∈ B.policies e, q.accepts a = some true) ∧
    ∀ ratings, Rated B.objects p a e ratings ↔
      (∃ min max count, (B.control e).state (p e) = some (.applicable min max count ratings)) ∧ ∀ q ∈ B.policies e, q.accepts a = some true := by
  have hev := evalPolicies_eq a (B.policies e)
  simp only [Throws, Accepts, Rated, Basic.objects]
  cases hst : (B.control e).state (p e) with
  | none => simp
  | some c =>
    by_cases hth : ∃ q ∈ B.policies e, q.accepts a = none
    · rw [if_pos (by simpa using hth)] at hev
      obtain ⟨q, hq, hn⟩ := hth
      have h1 : ¬ ∀ q ∈ B.policies e, q.accepts a = some true := fun h => by rw [h q hq] at hn; cases hn
      rw [hev]
      simp only [h1, and_false, iff_false, reduceCtorEq, false_and, exists_false, not_false_eq_true, implies_true, and_true, false_or, true_iff]
      exact ⟨q, hq, hn⟩
    · rw [if_neg (by simpa using hth)] at hev
      have h1 : (∀ r ∈ (B.policies e).map (fun p => ((p.accepts a).getD false, p.description)), r.1 = true) ↔
          ∀ q ∈ B.policies e, q.accepts a = some true := by
        simp only [List.mem_map, forall_exists_index, and_imp, forall_apply_eq_imp_iff₂]
        constructor <;> intro h q hq <;> have := h q hq <;> cases hqa : q.accepts a <;> simp_all
      rw [hev]
      refine ⟨by simp [hth], ?_, ?_⟩
      · rw [← h1]
        constructor
        · rintro ⟨c', rs, h, hall⟩
          cases h
          exact ⟨by simp, hall⟩
        · rintro ⟨-, hall⟩
          exact ⟨_, _, rfl, hall⟩
      · intro ratings
        rw [← h1]
        constructor
        · rintro ⟨mi, ma, co, rs, h, hall⟩
          cases h
          exact ⟨⟨_, _, _, rfl⟩, hall⟩
        · rintro ⟨⟨mi, ma, co, h⟩, hall⟩
          cases h
          exact ⟨_, _, _, _, rfl, hall⟩

/-- **C107.** If its control policy throws when told about a call, the exception leaves the call; else the call ends as the finalizer says. -/
theorem C107_result {σ : Type} (B : Basic σ α ρ) (p₀ : Nat → σ) (th : FTrace (Nat → σ) α ρ) (s s' : State (Nat → σ)) (a : α) (o : Out ρ) (e : Nat)
    (h : FReach B.objects p₀ th s) (hs : step B.objects s (.call a) = .ok (s', o)) (he : Event.fullMatch e ∈ o.events) :
    o.threw = !((B.control e).consume (s.rest e)).2 ∧
    o.result = if ((B.control e).consume (s.rest e)).2 then some (B.finalizer e a) else none := by
  have hc := (C107_call B.objects p₀ th s s' a o h hs).2
  revert hc
  generalize s'.rest = q
  intro hc
  cases hc with
  | @resolved ts cs c e' p' p'' x h1 h2 h3 h4 h5 =>
    have : e = e' := by simpa using he
    subst this
    simp only [Basic.objects, Prod.mk.injEq] at h4 h5
    simp [h4.2, h5.2]
  | @broken ts cs c e' p' h1 h2 h3 h4 =>
    have : e = e' := by simpa using he
    subst this
    simp only [Basic.objects, Prod.mk.injEq] at h4
    simp [h4.2]
  | notNow => simp at he
  | never => simp at he

/-- The control policy of 0 throws when told about the sixth call. -/
example : outs sample.objects { full with rest := fun _ => 5 } [.call 3, .remove 0] =
    [some { events := [.fullMatch 0], touches := [.asked 2, .asked 1, .asked 0, .consumed 0], threw := true },
     some { events := [.destroyed 0] }] := by
  decide +kernel

/-- **C107.** It is reported as unfulfilled exactly if its control policy or one of the other policies is not satisfied, and the control policy can
say in which state it is. -/
theorem C107_satisfied {σ : Type} (B : Basic σ α ρ) (p₀ : Nat → σ) (th : FTrace (Nat → σ) α ρ) (s s' : State (Nat → σ)) (e : Nat) (o : Out ρ)
    (h : FReach B.objects p₀ th s) (hs : step B.objects s (.remove e) = .ok (s', o)) :
    .unfulfilled e ∈ o.events ↔
      ((B.control e).satisfied (s.rest e) = false ∨ ∃ q ∈ B.policies e, q.isSatisfied = false) ∧ (B.control e).state (s.rest e) ≠ none := by
  by_cases he : e ∈ th.present
  · obtain ⟨s'', o', h1, -, -, -, h2, -⟩ := (C107_unfulfilled B.objects p₀ th s e h).1 he
    rw [hs] at h1
    cases h1
    rw [h2]
    simp only [Basic.objects, Bool.and_eq_false_iff, List.all_eq_false, Bool.not_eq_true, Option.isSome_iff_ne_none]
  · obtain ⟨t, h1⟩ := (C107_unfulfilled B.objects p₀ th s e h).2 he
    rw [hs] at h1
    cases h1

/-! ## The expectations of the library -/

/-- **C107.** The library's own expectations are a special case: whatever the base model says of a call holds of a collection of these objects. -/
theorem C107_library (w w' : World α) (c : Nat) (es : List Nat) (a : α) (evs : List Event) (b : Option Nat) (hc : w.colls[c]? = some es)
    (h : w.handleCall c a = .ok (w', evs, b)) :
    ∃ o, step (library α) { members := es, rest := w } (.call a) = .ok ({ members := es, rest := w' }, o) ∧ o.events = evs ∧ o.result = b ∧
      o.threw = false :=
  ⟨_, call_library w w' c es a evs b hc h, rfl, rfl, rfl⟩

/-- A world with one mock and two expectations that take all calls, each once. -/
def small : World Nat where
  seqs := []
  exps := [⟨0, ⟨1, 1, 0, []⟩, [], true⟩, ⟨0, ⟨1, 1, 0, []⟩, [], true⟩]
  colls := [[0, 1]]

example : small.colls[0]? = some [0, 1] ∧ (small.handleCall 0 5).toOption.map (·.2) = some ([.fullMatch 1], some 1) := by decide +kernel

end Mimic.Foreign
