import Verif.Proofs.TellQuiet

/-!
# C99: declarations that differ can be told apart
-/

set_option autoImplicit false

namespace Mimic.Tell

variable {α : Type}

/-- C99: declarations of the same mock with the same limits, the same sequences in any order and requirements that say the same are
interchangeable. -/
theorem C99_same {d d' : Decl α} (hm : d.mock = d'.mock) (hmin : d.min = d'.min) (hmax : d.max = d'.max)
    (hs : d.seqs.Perm d'.seqs) (hc : Policy.content d.policies = Policy.content d'.policies)
    (hp : ∀ a, Policy.says d.policies a = Policy.says d'.policies a) : Interchangeable d d' := by
  have key : ∀ {d d' : Decl α}, d.mock = d'.mock → d.min = d'.min → d.max = d'.max → d.seqs.Perm d'.seqs →
      Policy.content d.policies = Policy.content d'.policies →
      (∀ a, Policy.says d.policies a = Policy.says d'.policies a) → Replaceable d d' := by
    intro d d' hm hmin hmax hs hc hp before after w evs h
    have h1 := C68_replace (ps := d.policies) (ps' := d'.policies) ⟨hc, fun a a' h => by rw [h]; exact hp a'⟩ before after d.mock d.min
      d.max d.seqs
    have h' : runProgram (before ++ .expect d.mock d.min d.max d.seqs d.policies :: after) = .ok (w, evs) := h
    rw [h'] at h1
    cases h2 : runProgram (before ++ .expect d.mock d.min d.max d.seqs d'.policies :: after) with
    | error x => rw [h2] at h1; cases h1
    | ok v =>
      obtain ⟨w2, ev2⟩ := v
      rw [h2] at h1
      have he : evs = ev2 := by
        simp only [Except.map, Except.ok.injEq] at h1
        exact h1
      subst he
      obtain ⟨tr, hr, ht, hev⟩ := (runProgram_iff _ _ _).mp h2
      have hsp : ∀ ops : List (Op α), Reorder.SameProgram ops ops := fun ops => by
        induction ops with
        | nil => exact .nil
        | cons o ops ih => exact .cons (.same o) ih
      have hsame : Reorder.SameProgram (tr.map (·.1)) (before ++ op d' :: after) := by
        rw [ht]
        clear ht h2 h1 h' h
        induction before with
        | nil =>
          refine .cons ?_ (hsp after)
          unfold op
          rw [hm, hmin, hmax]
          exact .expect _ _ _ _ hs
        | cons o ops ih => exact .cons (.same o) ih
      obtain ⟨tr', w', hr', ht', hst⟩ := Reorder.C71_order hr hsame
      refine ⟨w', tr'.events, (runProgram_iff _ _ _).mpr ⟨tr', hr', ht', rfl⟩, ?_⟩
      rw [← hev]
      refine List.Perm.filter _ ?_
      clear hr hr' ht ht' hev hsame h2
      induction hst with
      | init => exact .refl _
      | @step tr tr' o o' ev ev' _ _ he ih =>
        rw [events_snoc, events_snoc]
        refine ih.append ?_
        cases he with
        | same => exact .refl _
        | destroy e head ends hss hen => exact (List.Perm.refl head).append (hss.flatMap_right _)
  exact ⟨key hm hmin hmax hs hc hp, key hm.symm hmin.symm hmax.symm hs.symm hc.symm (fun a => (hp a).symm)⟩

/-- C99: whatever can be told about two declarations by tests: the mock, what the requirements say about calls, the sequences, the limits
if calls can be accepted at all, and otherwise only whether calls are demanded. One direction of replacing suffices. -/
theorem C99_tell [Nonempty α] {d d' : Decl α} (hd : Proper d) (hd' : Proper d') :
    Replaceable d d' ↔ d.mock = d'.mock ∧ (∀ a, Policy.says d.policies a = Policy.says d'.policies a) ∧ d.seqs.Perm d'.seqs ∧
      ((∃ a, Policy.says d.policies a = some true) → d.min = d'.min ∧ d.max = d'.max) ∧ (d.min = 0 ↔ d'.min = 0) := by
  constructor
  · intro h
    have hm : d.mock = d'.mock := by
      obtain ⟨a⟩ := ‹Nonempty α›
      apply Classical.byContradiction
      intro hne
      have key := (same_answer h hd hd' d.mock a)
      have h2 : answer d' d.mock a = [.noMatch []] := by
        unfold answer
        rw [if_neg (fun h : d'.mock = d.mock => hne h.symm)]
      rw [h2] at key
      have h3 := List.perm_singleton.mp key
      unfold answer at h3
      rw [if_pos rfl] at h3
      cases hs : Policy.says d.policies a with
      | none => rw [hs] at h3; simp at h3
      | some b =>
        rw [hs] at h3
        cases b
        · simp at h3
        · by_cases hz : 0 < d.max <;> simp [hz] at h3
    have hsays := says_of_answers hm (same_answer h hd hd' d.mock)
    refine ⟨hm, hsays, (List.perm_ext_iff_of_nodup hd.distinct hd'.distinct).mpr (same_sequences h hd hd'), ?_, same_zero h hd hd'⟩
    rintro ⟨a, ha⟩
    exact same_limits h hd hd' hm ha (by rw [← hsays a]; exact ha)
  · rintro ⟨hm, hs, hp, hl, hz⟩
    have hc : Policy.content d.policies = Policy.content d'.policies := by
      have h1 : Policy.content d.policies = true := List.all_eq_true.mpr hd.content
      have h2 : Policy.content d'.policies = true := List.all_eq_true.mpr hd'.content
      rw [h1, h2]
    by_cases ha : ∃ a, Policy.says d.policies a = some true
    · exact (C99_same hm (hl ha).1 (hl ha).2 hp hc hs).1
    · have h1 : Replaceable d { d with min := d'.min, max := d'.max } :=
        quiet_replaceable hd ⟨hd'.low, hd'.order, hd'.high, hd.distinct, hd.content⟩ (fun a h => ha ⟨a, h⟩) hz
      have h2 : Replaceable { d with min := d'.min, max := d'.max } d' :=
        (C99_same (d := { d with min := d'.min, max := d'.max }) hm rfl rfl hp hc hs).1
      exact h1.trans h2

/-- C99: if `d'` can replace `d` in every test, then `d` can replace `d'`. -/
theorem C99_both [Nonempty α] {d d' : Decl α} (hd : Proper d) (hd' : Proper d') : Replaceable d d' ↔ Interchangeable d d' := by
  refine ⟨fun h => ⟨h, ?_⟩, fun h => h.1⟩
  obtain ⟨h1, h2, h3, h4, h5⟩ := (C99_tell hd hd').mp h
  exact (C99_tell hd' hd).mpr ⟨h1.symm, fun a => (h2 a).symm, h3.symm,
    fun ⟨a, ha⟩ => ⟨(h4 ⟨a, by rw [h2 a]; exact ha⟩).1.symm, (h4 ⟨a, by rw [h2 a]; exact ha⟩).2.symm⟩, h5.symm⟩

/-- C99: whether declarations are interchangeable is an equivalence. -/
theorem C99_equivalence : Equivalence (Interchangeable (α := α)) :=
  ⟨fun _ => C99_same rfl rfl rfl (.refl _) rfl (fun _ => rfl), fun h => ⟨h.2, h.1⟩, fun h h' => ⟨h.1.trans h'.1, h'.2.trans h.2⟩⟩

/-! ## Concrete declarations -/

/-- Accepts even numbers, throws at 7. -/
def even : Policy Nat := { accepts := fun n => if n = 7 then none else some (n % 2 == 0) }

/-- Accepts numbers below 5. -/
def small : Policy Nat := { accepts := fun n => some (decide (n < 5)) }

/-- Accepts nothing. -/
def nothing : Policy Nat := { accepts := fun _ => some false }

def first : Decl Nat := { mock := 0, min := 1, max := 2, seqs := [0, 1], policies := [even, small] }
def second : Decl Nat := { mock := 0, min := 1, max := 2, seqs := [1, 0], policies := [small, even, small] }
def third : Decl Nat := { mock := 0, min := 1, max := 3, seqs := [0, 1], policies := [even, small] }
def fourth : Decl Nat := { mock := 0, min := 2, max := 2, seqs := [0, 1], policies := [nothing] }
def fifth : Decl Nat := { mock := 0, min := 5, max := 9, seqs := [1, 0], policies := [small, nothing] }
def sixth : Decl Nat := { mock := 0, min := 0, max := 9, seqs := [1, 0], policies := [small, nothing] }

theorem proper_first : Proper first := ⟨by decide, by decide, by decide, by decide, by simp [first, even, small]⟩
theorem proper_second : Proper second := ⟨by decide, by decide, by decide, by decide, by simp [second, even, small]⟩
theorem proper_third : Proper third := ⟨by decide, by decide, by decide, by decide, by simp [third, even, small]⟩
theorem proper_fourth : Proper fourth := ⟨by decide, by decide, by decide, by decide, by simp [fourth, nothing]⟩
theorem proper_fifth : Proper fifth := ⟨by decide, by decide, by decide, by decide, by simp [fifth, nothing, small]⟩
theorem proper_sixth : Proper sixth := ⟨by decide, by decide, by decide, by decide, by simp [sixth, nothing, small]⟩

/-- The order of requirements and sequences does not matter, neither do repeated requirements. -/
example : Interchangeable first second := by
  rw [← C99_both proper_first proper_second, C99_tell proper_first proper_second]
  refine ⟨rfl, fun a => ?_, by decide, fun _ => ⟨rfl, rfl⟩, Iff.rfl⟩
  simp only [Policy.says, first, second, even, small, List.any_cons, List.any_nil, List.all_cons, List.all_nil]
  split <;> simp [Bool.and_comm]

/-- Two or three calls are told apart. -/
example : ¬ Replaceable first third := by
  rw [C99_tell proper_first proper_third]
  rintro ⟨-, -, -, h, -⟩
  exact absurd (h ⟨2, by decide⟩).2 (by decide)

/-- Nobody notices how many calls are demanded that never come. -/
example : Interchangeable fourth fifth := by
  rw [← C99_both proper_fourth proper_fifth, C99_tell proper_fourth proper_fifth]
  refine ⟨rfl, fun a => by simp [Policy.says, fourth, fifth, nothing, small], by decide, ?_, by decide⟩
  rintro ⟨a, ha⟩
  simp [Policy.says, fourth, nothing] at ha

/-- But whether they are. -/
example : ¬ Replaceable fifth sixth := by
  rw [C99_tell proper_fifth proper_sixth]
  rintro ⟨-, -, -, -, h⟩
  exact absurd h (by decide)

/-- Both can be used. -/
example : (((runProgram [.newSequence .lazy, .newSequence .greedy, .newMock, op first, .call 0 2, .call 0 7, .call 0 4, .call 0 4,
      .destroy 0]).map (·.2)).toOption.map (·.filter reported)) =
    some [.fullMatch 0, .unhandled 0, .noMatch [], .fullMatch 0, .inapplicable [0]] := by decide +kernel

end Mimic.Tell
