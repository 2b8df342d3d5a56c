import Verif.Proofs.Outcome

/-!
# What limits, order and selection depend on

Two histories with the same observations whose expectations were declared with the same limits and sequences agree on
everything but mocks and policies.
-/

set_option autoImplicit false

namespace Mimic

variable {α α' : Type}

/-- The part of a declaration that matters for limits and order. -/
def Decl.core (d : Decl α) : Int × Int × List Nat := (d.min, d.max, d.seqs)

structure SameCore (tr : Trace α) (tr' : Trace α') : Prop where
  events : tr.events = tr'.events
  decl : ∀ e, (tr.decl e).map Decl.core = (tr'.decl e).map Decl.core

variable {tr : Trace α} {tr' : Trace α'}

theorem SameCore.symm (h : SameCore tr tr') : SameCore tr' tr :=
  ⟨h.events.symm, fun e => (h.decl e).symm⟩

theorem SameCore.get (h : SameCore tr tr') {e : Nat} {d : Decl α} (hd : tr.decl e = some d) :
    ∃ d', tr'.decl e = some d' ∧ d'.min = d.min ∧ d'.max = d.max ∧ d'.seqs = d.seqs := by
  have := h.decl e
  rw [hd] at this
  cases hd' : tr'.decl e with
  | none => rw [hd'] at this; simp at this
  | some d' =>
    rw [hd'] at this
    simp only [Option.map_some, Option.some.injEq, Decl.core, Prod.mk.injEq] at this
    exact ⟨d', rfl, this.1.symm, this.2.1.symm, this.2.2.symm⟩

theorem SameCore.matched (h : SameCore tr tr') (e : Nat) : tr.matched e = tr'.matched e := by
  unfold Trace.matched; rw [h.events]

theorem SameCore.live_mp (h : SameCore tr tr') {e : Nat} (hl : tr.live e) : tr'.live e := by
  obtain ⟨⟨d, hd⟩, hn⟩ := hl
  obtain ⟨d', hd', _⟩ := h.get hd
  exact ⟨⟨d', hd'⟩, h.events ▸ hn⟩

theorem SameCore.live (h : SameCore tr tr') (e : Nat) : tr.live e ↔ tr'.live e := ⟨h.live_mp, h.symm.live_mp⟩

theorem SameCore.attached_mp (h : SameCore tr tr') {e s : Nat} (hl : tr.attached e s) : tr'.attached e s := by
  obtain ⟨d, hd, hs⟩ := hl
  obtain ⟨d', hd', _, _, h3⟩ := h.get hd
  exact ⟨d', hd', h3 ▸ hs⟩

theorem SameCore.attached (h : SameCore tr tr') (e s : Nat) : tr.attached e s ↔ tr'.attached e s :=
  ⟨h.attached_mp, h.symm.attached_mp⟩

theorem SameCore.tooFew_mp (h : SameCore tr tr') {e : Nat} (hl : tr.tooFew e) : tr'.tooFew e := by
  obtain ⟨d, hd, hs⟩ := hl
  obtain ⟨d', hd', h1, _⟩ := h.get hd
  exact ⟨d', hd', by rw [← h.matched, h1]; exact hs⟩

theorem SameCore.tooFew (h : SameCore tr tr') (e : Nat) : tr.tooFew e ↔ tr'.tooFew e :=
  ⟨h.tooFew_mp, h.symm.tooFew_mp⟩

theorem SameCore.turn (h : SameCore tr tr') (e s : Nat) : tr.turn e s ↔ tr'.turn e s := by
  unfold Trace.turn
  simp only [h.attached, h.tooFew, h.matched]

theorem SameCore.applicable_mp (h : SameCore tr tr') {e : Nat} (hl : tr.applicable e) : tr'.applicable e := by
  obtain ⟨⟨d, hd, hm⟩, ht⟩ := hl
  obtain ⟨d', hd', _, h2, _⟩ := h.get hd
  refine ⟨⟨d', hd', by rw [← h.matched, h2]; exact hm⟩, fun s hs => ?_⟩
  rw [← h.turn]
  exact ht s ((h.attached e s).mpr hs)

theorem SameCore.applicable (h : SameCore tr tr') (e : Nat) : tr.applicable e ↔ tr'.applicable e :=
  ⟨h.applicable_mp, h.symm.applicable_mp⟩

theorem SameCore.givesWay_mp (h : SameCore tr tr') {x y : Nat} (hl : tr.givesWay x y) : tr'.givesWay x y := by
  obtain ⟨d, hd, h1, h2⟩ := hl
  obtain ⟨d', hd', _, _, h3⟩ := h.get hd
  refine ⟨d', hd', ?_, ?_⟩
  · rw [h3]; intro s hs; exact h.attached_mp (h1 s hs)
  · rw [h3]; unfold Trace.kindCount at h2 ⊢; rw [← h.events]; exact h2

theorem SameCore.givesWay (h : SameCore tr tr') (x y : Nat) : tr.givesWay x y ↔ tr'.givesWay x y :=
  ⟨h.givesWay_mp, h.symm.givesWay_mp⟩

theorem SameCore.chosen (h : SameCore tr tr') {x r : Nat} {l : List Nat} (hc : tr.Chosen x l r) :
    tr'.Chosen x l r := by
  induction hc with
  | done x => exact .done x
  | move hg _ ih => exact .move ((h.givesWay _ _).mp hg) ih
  | stay hg _ ih => exact .stay (fun hh => hg ((h.givesWay _ _).mpr hh)) ih

end Mimic
