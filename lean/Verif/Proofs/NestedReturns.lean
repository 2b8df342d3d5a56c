import Verif.Proofs.NestedKept

/-!
# Lemmas: matchers that only call mocks that exist
-/

set_option autoImplicit false

namespace Mimic.Nested

variable {α : Type}

/-- All matchers only call the first `n` mocks, and these exist. -/
structure Within (n : Nat) (s : Store α) : Prop where
  colls : s.w.colls.length = n
  asks : ∀ e, ∀ p ∈ s.matchers e, ∀ a, Ask.Only (· < n) (p a)

theorem Within.same {n : Nat} {s s' : Store α} (h : Within n s) (hs : Same s s') : Within n s' :=
  ⟨by rw [hs.colls, h.colls], by rw [hs.matchers]; exact h.asks⟩

def RecNC (n : Nat) (rec : Rec α) : Prop := ∀ s m a, Within n s → m < n → NC (rec s m a)

theorem ask_nc {n : Nat} {P : Nat → Prop} {rec : Rec α} (hrec : RecNC n rec) (hk : Keeps P rec) {p : Ask α}
    (hp : Ask.Only (· < n) p) {s : Store α} (hs : Within n s) : NC (ask rec s p) := by
  induction p generalizing s with
  | answer b => exact .ok _
  | throws => exact .ok _
  | call m a next ih =>
    have hm : m < n := by cases hp; assumption
    intro why h
    simp only [ask] at h
    split at h
    · rename_i hr
      simp only [Except.error.injEq] at h
      subst h
      exact hrec s m a hs hm why hr
    · rename_i hr
      split at h
      · rename_i hq
        simp only [Except.error.injEq] at h
        subst h
        exact ih _ (by cases hp with | call _ h => exact h _) (hs.same (hk _ _ _ _ _ _ hr).1) why hq
      · simp at h

theorem askAll_nc {n : Nat} {P : Nat → Prop} {rec : Rec α} (hrec : RecNC n rec) (hk : Keeps P rec) {a : α}
    {ps : List (α → Ask α)} (hp : ∀ p ∈ ps, Ask.Only (· < n) (p a)) {s : Store α} (hs : Within n s) : NC (askAll rec a s ps) := by
  induction ps generalizing s with
  | nil => exact .ok _
  | cons p ps ih =>
    intro why h
    simp only [askAll] at h
    split at h
    · rename_i hr
      simp only [Except.error.injEq] at h
      subst h
      exact ask_nc hrec hk (hp p (by simp)) hs why hr
    · simp at h
    · rename_i hr
      split at h
      · rename_i hq
        simp only [Except.error.injEq] at h
        subst h
        exact ih (fun q hq => hp q (by simp [hq])) (hs.same (ask_keeps hk hr).1) why hq
      · simp at h

theorem scan_nc {n : Nat} {P : Nat → Prop} {rec : Rec α} (hrec : RecNC n rec) (hk : Keeps P rec) {a : α}
    {es : List Nat} {s : Store α} (hs : Within n s) : NC (scan rec a s es) := by
  induction es generalizing s with
  | nil => exact .ok _
  | cons e es ih =>
    intro why h
    simp only [scan] at h
    split at h
    · rename_i hd
      simp only [Except.error.injEq] at h
      subst h
      exact nc_deref _ _ _ hd
    · split at h
      · rename_i hd
        simp only [Except.error.injEq] at h
        subst h
        exact nc_state _ _ _ hd
      · split at h
        · rename_i hr
          simp only [Except.error.injEq] at h
          subst h
          exact askAll_nc hrec hk (fun p hp => hs.asks e p hp a) hs why hr
        · rename_i hr
          split at h
          · rename_i hq
            simp only [Except.error.injEq] at h
            subst h
            exact ih (hs.same (askAll_keeps hk hr).1) why hq
          · split at h
            · simp at h
            · split at h <;> simp at h

theorem call_nc (fuel : Nat) (held : List Nat) (n : Nat) (hn : held.Nodup) (hh : ∀ k ∈ held, k < n) (hf : n + 1 ≤ fuel + held.length) :
    RecNC n (call fuel held : Rec α) := by
  induction fuel generalizing held with
  | zero =>
    have := pigeon hn hh
    omega
  | succ fuel ih =>
    intro s m a hs hm why h
    simp only [call] at h
    split at h
    · rename_i hnone
      rw [List.getElem?_eq_none_iff, hs.colls] at hnone
      omega
    · rename_i es hes
      split at h
      · simp at h
      · rename_i hmh
        have hmh : m ∉ held := by simpa using hmh
        have hrec := ih (m :: held) (List.nodup_cons.mpr ⟨hmh, hn⟩) (by
          intro k hk
          simp only [List.mem_cons] at hk
          rcases hk with rfl | hk
          · exact hm
          · exact hh k hk) (by simp; omega)
        split at h
        · rename_i hk
          simp only [Except.error.injEq] at h
          subst h
          exact scan_nc hrec (call_keeps fuel (m :: held)) hs why hk
        · split at h
          · split at h
            · rename_i hp
              simp only [Except.error.injEq] at h
              subst h
              exact nc_pick _ _ hp
            · split at h
              · rename_i hp
                simp only [Except.error.injEq] at h
                subst h
                exact nc_consume _ _ _ hp
              · simp at h
          · split at h <;> simp at h

theorem matchers_source {nh : NTrace α} {e : Nat} {p : α → Ask α} (h : p ∈ nh.matchers e) :
    ∃ m min max tags asks tr, (NOp.expect m min max tags asks, tr) ∈ nh ∧ p ∈ asks := by
  rw [matchers_eq] at h
  cases hf : nh.findSome? (asksStep e) with
  | none => simp [hf] at h
  | some ps =>
    obtain ⟨st, hst, hps⟩ := List.exists_of_findSome?_eq_some hf
    obtain ⟨op, tr⟩ := st
    cases op with
    | expect m min max tags asks =>
      simp only [asksStep] at hps
      split at hps
      · simp only [Option.some.injEq] at hps
        subst hps
        exact ⟨m, min, max, tags, asks, tr, hst, by simpa [hf] using h⟩
      · simp at hps
    | _ => simp [asksStep] at hps

end Mimic.Nested
