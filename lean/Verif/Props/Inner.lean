import Verif.Props.Scopes
import Verif.Props.Skips

/-!
# C66: what it takes to overtake an expectation of an inner scope
-/

set_option autoImplicit false

namespace Mimic.TestRun

variable {α : Type}

theorem chosen_from {tr : Trace α} {x r : Nat} {ys : List Nat} (h : tr.Chosen x ys r) (hp : (x :: ys).Pairwise (· > ·)) :
    r = x ∨ ∃ z ∈ x :: ys, r < z ∧ tr.givesWay z r := by
  induction h with
  | done x => exact .inl rfl
  | @move x y r ys hw _ ih =>
    rcases ih (List.pairwise_cons.mp hp).2 with rfl | ⟨z, hz, h1, h2⟩
    · exact .inr ⟨x, by simp, (List.pairwise_cons.mp hp).1 r (by simp), hw⟩
    · exact .inr ⟨z, by simp only [List.mem_cons] at hz ⊢; exact .inr hz, h1, h2⟩
  | @stay x y r ys _ _ ih =>
    have hp' : (x :: ys).Pairwise (· > ·) := by
      rw [List.pairwise_cons] at hp ⊢
      exact ⟨fun z hz => hp.1 z (by simp [hz]), (List.pairwise_cons.mp hp.2).2⟩
    rcases ih hp' with rfl | ⟨z, hz, h1, h2⟩
    · exact .inl rfl
    · refine .inr ⟨z, ?_, h1, h2⟩
      simp only [List.mem_cons] at hz ⊢
      rcases hz with rfl | hz
      · exact .inl rfl
      · exact .inr (.inr hz)

/-- C66: an expectation of an outer scope resolves a call instead of one of an inner scope only if a younger one that could have resolved the call, too,
gave way to it: that one belongs to more lazy than greedy sequences, and the expectation of the outer scope to all of these. -/
theorem C66_only {k : Installed} {p : Prog α} (hm : p.moveless) {t : Env α} {x : Option Thrown} (h : test k p = .ok (t, x)) {pre : STrace α}
    {m : Nat} {a : α} {e e' : Nat} (ho : Overtaken t.past pre m a e e') :
    ∃ z, e < z ∧ pre.flat.candidate m a z ∧ pre.flat.givesWay z e := by
  obtain ⟨⟨st, post, hp, hop, hf⟩, hc', o, o', ho, ho', hi⟩ := ho
  have hr := exec_reach h .init
  obtain ⟨sw₁, sw₂, h1, h2, h3⟩ := hr.cut hp
  have hlt := (C66_younger hm h hp ho ho').mp hi
  rw [hop] at h2
  simp only [SWorld.step] at h2
  split at h2
  · simp at h2
  · rename_i sw' ev exn hlib
    obtain ⟨w', hst, rfl, _⟩ := lib_eq hlib
    simp only [Except.ok.injEq, Prod.mk.injEq] at h2
    rw [← h2.2] at hf
    simp only [Trace.events, List.flatMap_cons, List.flatMap_nil, List.append_nil] at hf
    rcases C08_selection h1.inv.reach hst with ⟨hn, _⟩ | ⟨y, older, r, hyf, hch, hfm⟩
    · exact absurd hc' (hn e')
    · obtain rfl := (hfm e).mp hf
      rcases chosen_from hch hyf.1 with rfl | ⟨z, hz, g1, g2⟩
      · rcases List.mem_cons.mp ((hyf.2 e').mpr hc') with rfl | hz
        · omega
        · have := List.pairwise_cons.mp hyf.1 |>.1 e' hz
          omega
      · exact ⟨z, g1, (hyf.2 z).1 hz, g2⟩

/-- C66, in part: an expectation that belongs to no lazy sequence never resolves a call that one of an inner scope could resolve, whatever sequences the
latter and all others belong to. -/
theorem C66_not_lazy_partial {k : Installed} {p : Prog α} (hm : p.moveless) {t : Env α} {x : Option Thrown} (h : test k p = .ok (t, x))
    {pre : STrace α} {m : Nat} {a : α} {e : Nat} (hl : ∀ s, pre.flat.attached e s → ¬ pre.flat.kind s .lazy) (e' : Nat) :
    ¬ Overtaken t.past pre m a e e' := by
  intro ho
  obtain ⟨z, -, -, hz⟩ := C66_only hm h ho
  obtain ⟨s, h1, h2⟩ := lazy_of_givesWay hz
  exact hl s h1 h2

/-! ### Examples -/

/-- The situation of `C66_only` occurs: there, a third expectation gave way. -/
example (k : Installed) : ∃ t pre z, test k ScopeExamples.bystanderTest = .ok (t, none) ∧ Overtaken t.past pre 0 7 0 1 ∧ 0 < z ∧
    pre.flat.candidate 0 7 z ∧ pre.flat.givesWay z 0 := by
  obtain ⟨hm, t, pre, h1, h2, -⟩ := C66_bystander k
  obtain ⟨z, h3, h4, h5⟩ := C66_only hm h1 h2
  exact ⟨t, pre, z, h1, h2, h3, h4, h5⟩

/-- The outer one of two expectations belongs to a greedy sequence, the inner one to a lazy one. -/
def mixedTest : Prog Nat :=
  .seq .mock (.sequence .greedy (.sequence .lazy (.expectation 0 0 1 [0] [] (.expectation 0 0 1 [1] [] (.call 0 7)))))

example (k : Installed) : ∃ t st, test k mixedTest = .ok (t, none) ∧ st ∈ t.past ∧ st.op = .plain (.call 0 7) ∧
    Event.fullMatch 1 ∈ Trace.events st.log.lib := by
  cases k with
  | default out =>
    cases out <;> exact ⟨_, _, rfl, .tail _ (.tail _ (.tail _ (.tail _ (.tail _ (.head _))))), rfl, by decide⟩
  | adapter f =>
    cases f <;> exact ⟨_, _, rfl, .tail _ (.tail _ (.tail _ (.tail _ (.tail _ (.head _))))), rfl, by decide⟩

end Mimic.TestRun
