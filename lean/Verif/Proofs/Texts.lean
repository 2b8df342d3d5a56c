import Verif.Model.Text

/-!
# Lemmas about texts
-/

set_option autoImplicit false

namespace Mimic

/-! ### Digits -/

theorem digitChar_inj {a b : Nat} (ha : a < 16) (hb : b < 16) (h : a.digitChar = b.digitChar) : a = b := by
  have key : ∀ a < 16, ∀ b < 16, a.digitChar = b.digitChar → a = b := by decide
  exact key a ha b hb h

theorem toDigits_inj {b : Nat} (hb : 1 < b) (hb' : b ≤ 16) {m n : Nat} (h : Nat.toDigits b m = Nat.toDigits b n) : m = n := by
  induction m using Nat.strongRecOn generalizing n with
  | ind m ih =>
    rw [Nat.toDigits_eq_if hb, Nat.toDigits_eq_if (n := n) hb] at h
    split at h <;> split at h
    · rename_i h1 h2
      simp only [List.cons.injEq, and_true] at h
      exact digitChar_inj (by omega) (by omega) h
    · exfalso
      have := congrArg List.length h
      have h3 := @Nat.length_toDigits_pos b (n / b)
      simp only [List.length_append, List.length_cons, List.length_nil] at this
      omega
    · exfalso
      have := congrArg List.length h
      have h3 := @Nat.length_toDigits_pos b (m / b)
      simp only [List.length_append, List.length_cons, List.length_nil] at this
      omega
    · rename_i h1 h2
      have h3 := List.append_inj' h (by simp)
      have h4 := ih (m / b) (Nat.div_lt_self (by omega) hb) h3.1
      have h5 := h3.2
      simp only [List.cons.injEq, and_true] at h5
      have h6 := digitChar_inj (Nat.lt_of_lt_of_le (Nat.mod_lt _ (by omega)) hb')
        (Nat.lt_of_lt_of_le (Nat.mod_lt _ (by omega)) hb') h5
      rw [← Nat.div_add_mod m b, ← Nat.div_add_mod n b, h4, h6]

/-- Digits of numbers. -/
def IsHex (c : Char) : Prop := ∃ n < 16, c = n.digitChar

theorem isHex_decide {c : Char} (h : IsHex c) :
    c = '0' ∨ c = '1' ∨ c = '2' ∨ c = '3' ∨ c = '4' ∨ c = '5' ∨ c = '6' ∨ c = '7' ∨ c = '8' ∨ c = '9' ∨
    c = 'a' ∨ c = 'b' ∨ c = 'c' ∨ c = 'd' ∨ c = 'e' ∨ c = 'f' := by
  obtain ⟨n, hn, rfl⟩ := h
  have key : ∀ n < 16, let c := n.digitChar; c = '0' ∨ c = '1' ∨ c = '2' ∨ c = '3' ∨ c = '4' ∨ c = '5' ∨ c = '6' ∨ c = '7' ∨
      c = '8' ∨ c = '9' ∨ c = 'a' ∨ c = 'b' ∨ c = 'c' ∨ c = 'd' ∨ c = 'e' ∨ c = 'f' := by decide
  exact key n hn

theorem toDigits_isHex {b : Nat} (hb : 1 < b) (hb' : b ≤ 16) {m : Nat} : ∀ c ∈ Nat.toDigits b m, IsHex c := by
  induction m using Nat.strongRecOn with
  | ind m ih =>
    rw [Nat.toDigits_eq_if hb]
    split
    · intro c hc
      simp only [List.mem_cons, List.not_mem_nil, or_false] at hc
      exact ⟨m, by omega, hc⟩
    · intro c hc
      simp only [List.mem_append, List.mem_cons, List.not_mem_nil, or_false] at hc
      rcases hc with hc | hc
      · exact ih (m / b) (Nat.div_lt_self (by omega) hb) c hc
      · exact ⟨m % b, Nat.lt_of_lt_of_le (Nat.mod_lt _ (by omega)) hb', hc⟩

theorem decimal_isHex {n : Nat} : ∀ c ∈ decimal n, IsHex c := toDigits_isHex (by omega) (by omega)

theorem hex_isHex {n : Nat} : ∀ c ∈ hex n, IsHex c := toDigits_isHex (by omega) (by omega)

theorem decimal_isDigit {n : Nat} : ∀ c ∈ decimal n, c.isDigit = true :=
  fun _ hc => Nat.isDigit_of_mem_toDigits (b := 10) (by omega) (by omega) hc

theorem decimal_inj {m n : Nat} (h : decimal m = decimal n) : m = n := toDigits_inj (by omega) (by omega) h

theorem hex_inj {m n : Nat} (h : hex m = hex n) : m = n := toDigits_inj (by omega) (by omega) h

theorem decimal_ne_nil {n : Nat} : decimal n ≠ [] := Nat.toDigits_ne_nil

theorem hex_ne_nil {n : Nat} : hex n ≠ [] := Nat.toDigits_ne_nil

/-! ### Cutting texts -/

/-- Two words over an alphabet that are followed by something else. -/
theorem cut {P : Char → Prop} {x y r s : Text} (hx : ∀ c ∈ x, P c) (hy : ∀ c ∈ y, P c)
    (hr : ∀ c, r.head? = some c → ¬ P c) (hs : ∀ c, s.head? = some c → ¬ P c) (h : x ++ r = y ++ s) : x = y ∧ r = s := by
  induction x generalizing y with
  | nil =>
    cases y with
    | nil => exact ⟨rfl, by simpa using h⟩
    | cons d y =>
      exfalso
      simp only [List.nil_append] at h
      exact hr d (by rw [h]; rfl) (hy d (by simp))
  | cons c x ih =>
    cases y with
    | nil =>
      exfalso
      simp only [List.nil_append] at h
      exact hs c (by rw [← h]; rfl) (hx c (by simp))
    | cons d y =>
      simp only [List.cons_append, List.cons.injEq] at h
      obtain ⟨rfl, h⟩ := h
      obtain ⟨rfl, h2⟩ := ih (fun c hc => hx c (by simp [hc])) (fun c hc => hy c (by simp [hc])) h
      exact ⟨rfl, h2⟩

theorem cut_decimal {m n : Nat} {r s : Text} (hr : ∀ c, r.head? = some c → ¬ IsHex c) (hs : ∀ c, s.head? = some c → ¬ IsHex c)
    (h : decimal m ++ r = decimal n ++ s) : m = n ∧ r = s := by
  obtain ⟨h1, h2⟩ := cut decimal_isHex decimal_isHex hr hs h
  exact ⟨decimal_inj h1, h2⟩

theorem cut_hex {m n : Nat} {r s : Text} (hr : ∀ c, r.head? = some c → ¬ IsHex c) (hs : ∀ c, s.head? = some c → ¬ IsHex c)
    (h : hex m ++ r = hex n ++ s) : m = n ∧ r = s := by
  obtain ⟨h1, h2⟩ := cut hex_isHex hex_isHex hr hs h
  exact ⟨hex_inj h1, h2⟩

/-! ### Leading zeros -/

theorem hex_no_zero {n : Nat} (h : n ≠ 0) : (hex n).head? ≠ some '0' := by
  induction n using Nat.strongRecOn with
  | ind n ih =>
    unfold hex at *
    rw [Nat.toDigits_eq_if (by omega)]
    split
    · rename_i h1
      simp only [List.head?_cons, ne_eq, Option.some.injEq]
      intro hc
      exact h (by simpa using hc)
    · rename_i h1
      rw [List.head?_append]
      have h2 := ih (n / 16) (Nat.div_lt_self (by omega) (by omega)) (by omega)
      cases hd : (Nat.toDigits 16 (n / 16)).head? with
      | none =>
        rw [List.head?_eq_none_iff] at hd
        exact absurd hd Nat.toDigits_ne_nil
      | some c =>
        rw [hd] at h2
        simpa using h2

theorem strip_zeros {k l : Nat} {x y : Text} (hx : x.head? ≠ some '0') (hy : y.head? ≠ some '0')
    (h : List.replicate k '0' ++ x = List.replicate l '0' ++ y) : x = y := by
  induction k generalizing l with
  | zero =>
    cases l with
    | zero => simpa using h
    | succ l =>
      exfalso
      simp only [List.replicate_zero, List.nil_append] at h
      rw [h] at hx
      simp [List.replicate_succ] at hx
  | succ k ih =>
    cases l with
    | zero =>
      exfalso
      simp only [List.replicate_zero, List.nil_append] at h
      rw [← h] at hy
      simp [List.replicate_succ] at hy
    | succ l =>
      simp only [List.replicate_succ, List.cons_append, List.cons.injEq, true_and] at h
      exact ih h

theorem hex_zero : hex 0 = ['0'] := Nat.toDigits_zero 16

theorem hex16_inj {m n : Nat} (h : hex16 m = hex16 n) : m = n := by
  unfold hex16 at h
  by_cases hm : m = 0
  · by_cases hn : n = 0
    · rw [hm, hn]
    · exfalso
      rw [hm, hex_zero] at h
      have : List.replicate (16 - ['0'].length) '0' ++ ['0'] = List.replicate 16 '0' ++ [] := by decide
      rw [this] at h
      have h2 := strip_zeros (by simp) (hex_no_zero hn) h
      exact hex_ne_nil h2.symm
  · by_cases hn : n = 0
    · exfalso
      rw [hn, hex_zero] at h
      have : List.replicate (16 - ['0'].length) '0' ++ ['0'] = List.replicate 16 '0' ++ [] := by decide
      rw [this] at h
      have h2 := strip_zeros (hex_no_zero hm) (by simp) h
      exact hex_ne_nil h2
    · exact hex_inj (strip_zeros (hex_no_zero hm) (hex_no_zero hn) h)

theorem hex16_length {n : Nat} : 16 ≤ (hex16 n).length ∧ (n < 16 ^ 16 → (hex16 n).length = 16) := by
  unfold hex16
  simp only [List.length_append, List.length_replicate]
  refine ⟨by omega, fun h => ?_⟩
  have := (Nat.length_toDigits_le_iff (b := 16) (n := n) (k := 16) (by omega) (by omega)).mpr h
  unfold hex
  omega

theorem hex16_isHex {n : Nat} : ∀ c ∈ hex16 n, IsHex c := by
  intro c hc
  unfold hex16 at hc
  rw [List.mem_append] at hc
  rcases hc with hc | hc
  · rw [List.mem_replicate] at hc
    exact ⟨0, by omega, hc.2⟩
  · exact hex_isHex c hc

end Mimic
