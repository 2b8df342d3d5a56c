import Verif.Proofs.Texts
import Verif.Spec.Printer

/-!
# Lemmas about printed values
-/

set_option autoImplicit false

namespace Mimic

theorem signed_head {i : Int} : ∃ c r, signed i = c :: r ∧ (IsHex c ∨ c = '-') := by
  cases i with
  | ofNat n =>
    show ∃ c r, decimal n = c :: r ∧ _
    cases h : decimal n with
    | nil => exact absurd h decimal_ne_nil
    | cons c r => exact ⟨c, r, rfl, Or.inl (decimal_isHex (n := n) c (by simp [h]))⟩
  | negSucc n => exact ⟨_, _, rfl, Or.inr rfl⟩

theorem minus_not_hex : ¬ IsHex '-' := by
  intro h
  have := isHex_decide h
  revert this
  decide

theorem comma_not_hex : ¬ IsHex ',' := by
  intro h
  have := isHex_decide h
  revert this
  decide

theorem space_not_hex : ¬ IsHex ' ' := by
  intro h
  have := isHex_decide h
  revert this
  decide

/-- The text goes on with a comma or a space, or not at all. -/
def Ends (r : Text) : Prop := ∀ c, r.head? = some c → c = ',' ∨ c = ' '

theorem Ends.not_hex {r : Text} (h : Ends r) : ∀ c, r.head? = some c → ¬ IsHex c := by
  intro c hc
  rcases h c hc with rfl | rfl
  · exact comma_not_hex
  · exact space_not_hex

theorem cut_signed {i j : Int} {r s : Text} (hr : Ends r) (hs : Ends s) (h : signed i ++ r = signed j ++ s) :
    i = j ∧ r = s := by
  have hm : ∀ {n k : Nat} {r s : Text}, decimal n ++ r ≠ '-' :: (decimal k ++ s) := by
    intro n k r s hc
    obtain ⟨c, t, h1, h2⟩ := signed_head (i := Int.ofNat n)
    simp only [signed] at h1
    rw [h1] at hc
    simp only [List.cons_append, List.cons.injEq] at hc
    have h3 := decimal_isHex (n := n) c (by simp [h1])
    rw [hc.1] at h3
    exact minus_not_hex h3
  cases i with
  | ofNat n =>
    cases j with
    | ofNat k =>
      obtain ⟨h1, h2⟩ := cut_decimal hr.not_hex hs.not_hex h
      exact ⟨by rw [h1], h2⟩
    | negSucc k => exact absurd h hm
  | negSucc n =>
    cases j with
    | ofNat k => exact absurd h.symm hm
    | negSucc k =>
      simp only [signed, List.cons_append, List.cons.injEq, true_and] at h
      obtain ⟨h1, h2⟩ := cut_decimal hr.not_hex hs.not_hex h
      exact ⟨by congr 1; omega, h2⟩

theorem cut_hex16 {i j : Nat} {r s : Text} (hr : Ends r) (hs : Ends s) (h : hex16 i ++ r = hex16 j ++ s) : i = j ∧ r = s := by
  obtain ⟨h1, h2⟩ := cut hex16_isHex hex16_isHex hr.not_hex hs.not_hex h
  exact ⟨hex16_inj h1, h2⟩

/-! ### Inversion -/

theorem print_optional {v : Val} {t : Text} (h : print (.optional (some v)) = .ok t) :
    ∃ t0, print v = .ok t0 ∧ t = lit "{ value: " ++ t0 ++ lit " }" := by
  simp only [print, bind, Except.bind, pure, Except.pure] at h
  split at h
  · simp at h
  · rename_i t0 h0
    simp only [Except.ok.injEq] at h
    exact ⟨t0, h0, h.symm⟩

theorem print_range {vs : List Val} {t : Text} (h : print (.range vs) = .ok t) :
    ∃ t0, printFirst vs = .ok t0 ∧ t = lit "{ " ++ t0 ++ lit " }" := by
  simp only [print, bind, Except.bind, pure, Except.pure] at h
  split at h
  · simp at h
  · rename_i t0 h0
    simp only [Except.ok.injEq] at h
    exact ⟨t0, h0, h.symm⟩

theorem print_tuple {vs : List Val} {t : Text} (h : print (.tuple vs) = .ok t) :
    ∃ t0, printTuple 0 vs = .ok t0 ∧ t = lit "{ " ++ t0 ++ lit " }" := by
  simp only [print, bind, Except.bind, pure, Except.pure] at h
  split at h
  · simp at h
  · rename_i t0 h0
    simp only [Except.ok.injEq] at h
    exact ⟨t0, h0, h.symm⟩

theorem printRest_cons {v : Val} {vs : List Val} {t : Text} (h : printRest (v :: vs) = .ok t) :
    ∃ t0 t1, print v = .ok t0 ∧ printRest vs = .ok t1 ∧ t = lit ", " ++ t0 ++ t1 := by
  simp only [printRest, bind, Except.bind, pure, Except.pure] at h
  split at h
  · simp at h
  · rename_i t0 h0
    split at h
    · simp at h
    · rename_i t1 h1
      simp only [Except.ok.injEq] at h
      exact ⟨t0, t1, h0, h1, h.symm⟩

theorem printFirst_cons {v : Val} {vs : List Val} {t : Text} (h : printFirst (v :: vs) = .ok t) :
    ∃ t0 t1, print v = .ok t0 ∧ printRest vs = .ok t1 ∧ t = t0 ++ t1 := by
  simp only [printFirst, bind, Except.bind, pure, Except.pure] at h
  split at h
  · simp at h
  · rename_i t0 h0
    split at h
    · simp at h
    · rename_i t1 h1
      simp only [Except.ok.injEq] at h
      exact ⟨t0, t1, h0, h1, h.symm⟩

theorem printTuple_succ (n : Nat) (vs : List Val) : printTuple (n + 1) vs = printRest vs := by
  induction vs generalizing n with
  | nil => rfl
  | cons v vs ih => simp only [printTuple, printRest, ih, ne_eq, Nat.add_eq_zero_iff, Nat.succ_ne_self, and_false, not_false_eq_true, if_true]

/-- Tuples are printed like ranges. -/
theorem printTuple_zero (vs : List Val) : printTuple 0 vs = printFirst vs := by
  cases vs with
  | nil => rfl
  | cons v vs => simp only [printTuple, printFirst, printTuple_succ, ne_eq, not_true_eq_false, if_false, List.nil_append]

/-! ### Texts of typed values can be cut off -/

theorem typed_head {ty : Ty} {v : Val} {t : Text} (hv : v.hasTy ty) (h : print v = .ok t) : ∃ c r, t = c :: r ∧ c ≠ ' ' := by
  have hsp : ∀ c, (IsHex c ∨ c = '-') → c ≠ ' ' := by
    intro c hc e
    subst e
    rcases hc with hc | hc
    · exact space_not_hex hc
    · exact absurd hc (by decide)
  cases ty <;> cases v <;> try simp only [Val.hasTy] at hv
  · simp only [print, Except.ok.injEq] at h
    subst h
    obtain ⟨c, r, h1, h2⟩ := signed_head
    exact ⟨c, r, h1, hsp c h2⟩
  · simp only [print, Except.ok.injEq] at h
    subst h
    exact ⟨'0', _, rfl, by decide⟩
  · rename_i o
    cases o with
    | none =>
      simp only [print, Except.ok.injEq] at h
      subst h
      exact ⟨'n', _, rfl, by decide⟩
    | some w =>
      obtain ⟨t0, _, rfl⟩ := print_optional h
      exact ⟨'{', _, rfl, by decide⟩
  · obtain ⟨t0, _, rfl⟩ := print_range h
    exact ⟨'{', _, rfl, by decide⟩
  · obtain ⟨t0, _, rfl⟩ := print_tuple h
    exact ⟨'{', _, rfl, by decide⟩

theorem ends_close (r : Text) : Ends (lit " }" ++ r) := by
  intro c hc
  simp [lit] at hc
  exact Or.inr hc.symm

theorem ends_rest {vs : List Val} {t : Text} (h : printRest vs = .ok t) (r : Text) : Ends (t ++ (lit " }" ++ r)) := by
  cases vs with
  | nil =>
    simp only [printRest, Except.ok.injEq] at h
    subst h
    exact ends_close r
  | cons v vs =>
    obtain ⟨t0, t1, _, _, rfl⟩ := printRest_cons h
    intro c hc
    simp [lit] at hc
    exact Or.inl hc.symm

mutual

theorem typed_cut (v1 : Val) {ty : Ty} {v2 : Val} {t1 t2 r1 r2 : Text} (h1 : v1.hasTy ty) (h2 : v2.hasTy ty)
    (p1 : print v1 = .ok t1) (p2 : print v2 = .ok t2) (e1 : Ends r1) (e2 : Ends r2) (h : t1 ++ r1 = t2 ++ r2) :
    v1 = v2 ∧ r1 = r2 := by
  cases v1 with
  | int i =>
    cases ty <;> simp only [Val.hasTy] at h1
    cases v2 <;> simp only [Val.hasTy] at h2
    simp only [print, Except.ok.injEq] at p1 p2
    subst p1; subst p2
    obtain ⟨rfl, h4⟩ := cut_signed e1 e2 h
    exact ⟨rfl, h4⟩
  | pointer a =>
    cases ty <;> simp only [Val.hasTy] at h1
    cases v2 <;> simp only [Val.hasTy] at h2
    simp only [print, Except.ok.injEq] at p1 p2
    subst p1; subst p2
    simp only [List.append_assoc, List.append_cancel_left_eq] at h
    obtain ⟨rfl, h4⟩ := cut_hex16 e1 e2 h
    exact ⟨rfl, h4⟩
  | optional o =>
    cases ty with
    | optional ty =>
      cases v2 <;> try simp only [Val.hasTy] at h2
      rename_i o2
      cases o with
      | none =>
        simp only [print, Except.ok.injEq] at p1
        subst p1
        cases o2 with
        | none =>
          simp only [print, Except.ok.injEq] at p2
          subst p2
          exact ⟨rfl, List.append_cancel_left h⟩
        | some w2 =>
          obtain ⟨t0, _, rfl⟩ := print_optional p2
          simp [lit] at h
      | some w1 =>
        obtain ⟨s1, q1, rfl⟩ := print_optional p1
        cases o2 with
        | none =>
          simp only [print, Except.ok.injEq] at p2
          subst p2
          simp [lit] at h
        | some w2 =>
          obtain ⟨s2, q2, rfl⟩ := print_optional p2
          simp only [Val.hasTy] at h1 h2
          simp only [List.append_assoc, List.append_cancel_left_eq] at h
          obtain ⟨rfl, h4⟩ := typed_cut w1 h1 h2 q1 q2 (ends_close r1) (ends_close r2) h
          exact ⟨rfl, List.append_cancel_left h4⟩
    | int => simp only [Val.hasTy] at h1
    | pointer => simp only [Val.hasTy] at h1
    | range _ => simp only [Val.hasTy] at h1
    | tuple _ => simp only [Val.hasTy] at h1
  | range vs =>
    cases ty <;> simp only [Val.hasTy] at h1
    cases v2 <;> simp only [Val.hasTy] at h2
    rename_i ty vs2
    obtain ⟨s1, q1, rfl⟩ := print_range p1
    obtain ⟨s2, q2, rfl⟩ := print_range p2
    simp only [List.append_assoc, List.append_cancel_left_eq] at h
    cases vs with
    | nil =>
      simp only [printFirst, Except.ok.injEq] at q1
      subst q1
      cases vs2 with
      | nil =>
        simp only [printFirst, Except.ok.injEq] at q2
        subst q2
        simp only [List.append_cancel_left_eq] at h
        exact ⟨rfl, h⟩
      | cons w2 vs2 =>
        simp only [Val.allHaveTy] at h2
        obtain ⟨a, b, g1, g2, rfl⟩ := printFirst_cons q2
        obtain ⟨c, x, rfl, hc⟩ := typed_head h2.1 g1
        simp [lit] at h
        exact absurd h.1.symm hc
    | cons w1 vs =>
      simp only [Val.allHaveTy] at h1
      obtain ⟨a1, b1, g1, g2, rfl⟩ := printFirst_cons q1
      cases vs2 with
      | nil =>
        simp only [printFirst, Except.ok.injEq] at q2
        subst q2
        obtain ⟨c, x, rfl, hc⟩ := typed_head h1.1 g1
        simp [lit] at h
        exact absurd h.1 hc
      | cons w2 vs2 =>
        simp only [Val.allHaveTy] at h2
        obtain ⟨a2, b2, g3, g4, rfl⟩ := printFirst_cons q2
        simp only [List.append_assoc] at h
        obtain ⟨rfl, h4⟩ := typed_cut w1 h1.1 h2.1 g1 g3 (ends_rest g2 r1) (ends_rest g4 r2) h
        obtain ⟨rfl, h5⟩ := typed_cut_rest vs h1.2 h2.2 g2 g4 h4
        exact ⟨rfl, h5⟩
  | tuple vs =>
    cases ty <;> simp only [Val.hasTy] at h1
    cases v2 <;> simp only [Val.hasTy] at h2
    rename_i tys vs2
    obtain ⟨s1, q1, rfl⟩ := print_tuple p1
    obtain ⟨s2, q2, rfl⟩ := print_tuple p2
    rw [printTuple_zero] at q1 q2
    simp only [List.append_assoc, List.append_cancel_left_eq] at h
    cases vs with
    | nil =>
      cases tys <;> cases vs2 <;> simp only [Val.haveTys] at h1 h2
      rw [q1] at q2
      simp only [Except.ok.injEq] at q2
      subst q2
      simp only [List.append_cancel_left_eq] at h
      exact ⟨rfl, h⟩
    | cons w1 vs =>
      cases tys <;> cases vs2 <;> simp only [Val.haveTys] at h1 h2
      rename_i ty tys w2 vs2
      obtain ⟨a1, b1, g1, g2, rfl⟩ := printFirst_cons q1
      obtain ⟨a2, b2, g3, g4, rfl⟩ := printFirst_cons q2
      simp only [List.append_assoc] at h
      obtain ⟨rfl, h4⟩ := typed_cut w1 h1.1 h2.1 g1 g3 (ends_rest g2 r1) (ends_rest g4 r2) h
      obtain ⟨rfl, h5⟩ := typed_cut_tuple vs h1.2 h2.2 g2 g4 h4
      exact ⟨rfl, h5⟩
  | custom _ => cases ty <;> simp only [Val.hasTy] at h1
  | location _ _ _ _ => cases ty <;> simp only [Val.hasTy] at h1
  | nullopt => cases ty <;> simp only [Val.hasTy] at h1
  | string _ => cases ty <;> simp only [Val.hasTy] at h1
  | cstring _ => cases ty <;> simp only [Val.hasTy] at h1
  | cwide _ _ => cases ty <;> simp only [Val.hasTy] at h1
  | wide _ _ => cases ty <;> simp only [Val.hasTy] at h1
  | chars _ _ => cases ty <;> simp only [Val.hasTy] at h1
  | formatted _ => cases ty <;> simp only [Val.hasTy] at h1
  | unknown => cases ty <;> simp only [Val.hasTy] at h1

theorem typed_cut_rest (vs1 : List Val) {ty : Ty} {vs2 : List Val} {t1 t2 r1 r2 : Text} (h1 : Val.allHaveTy ty vs1)
    (h2 : Val.allHaveTy ty vs2) (p1 : printRest vs1 = .ok t1) (p2 : printRest vs2 = .ok t2)
    (h : t1 ++ (lit " }" ++ r1) = t2 ++ (lit " }" ++ r2)) : vs1 = vs2 ∧ r1 = r2 := by
  cases vs1 with
  | nil =>
    simp only [printRest, Except.ok.injEq] at p1
    subst p1
    cases vs2 with
    | nil =>
      simp only [printRest, Except.ok.injEq] at p2
      subst p2
      simp only [List.append_cancel_left_eq] at h
      exact ⟨rfl, h⟩
    | cons w2 vs2 =>
      obtain ⟨a, b, _, _, rfl⟩ := printRest_cons p2
      simp [lit] at h
  | cons w1 vs1 =>
    obtain ⟨a1, b1, g1, g2, rfl⟩ := printRest_cons p1
    simp only [Val.allHaveTy] at h1
    cases vs2 with
    | nil =>
      simp only [printRest, Except.ok.injEq] at p2
      subst p2
      simp [lit] at h
    | cons w2 vs2 =>
      simp only [Val.allHaveTy] at h2
      obtain ⟨a2, b2, g3, g4, rfl⟩ := printRest_cons p2
      simp only [List.append_assoc, List.append_cancel_left_eq] at h
      obtain ⟨rfl, h4⟩ := typed_cut w1 h1.1 h2.1 g1 g3 (ends_rest g2 r1) (ends_rest g4 r2) h
      obtain ⟨rfl, h5⟩ := typed_cut_rest vs1 h1.2 h2.2 g2 g4 h4
      exact ⟨rfl, h5⟩

theorem typed_cut_tuple (vs1 : List Val) {tys : List Ty} {vs2 : List Val} {t1 t2 r1 r2 : Text} (h1 : Val.haveTys tys vs1)
    (h2 : Val.haveTys tys vs2) (p1 : printRest vs1 = .ok t1) (p2 : printRest vs2 = .ok t2)
    (h : t1 ++ (lit " }" ++ r1) = t2 ++ (lit " }" ++ r2)) : vs1 = vs2 ∧ r1 = r2 := by
  cases vs1 with
  | nil =>
    cases tys <;> cases vs2 <;> simp only [Val.haveTys] at h1 h2
    simp only [printRest, Except.ok.injEq] at p1 p2
    subst p1; subst p2
    simp only [List.append_cancel_left_eq] at h
    exact ⟨rfl, h⟩
  | cons w1 vs1 =>
    cases tys <;> cases vs2 <;> simp only [Val.haveTys] at h1 h2
    rename_i ty tys w2 vs2
    obtain ⟨a1, b1, g1, g2, rfl⟩ := printRest_cons p1
    obtain ⟨a2, b2, g3, g4, rfl⟩ := printRest_cons p2
    simp only [List.append_assoc, List.append_cancel_left_eq] at h
    obtain ⟨rfl, h4⟩ := typed_cut w1 h1.1 h2.1 g1 g3 (ends_rest g2 r1) (ends_rest g4 r2) h
    obtain ⟨rfl, h5⟩ := typed_cut_tuple vs1 h1.2 h2.2 g2 g4 h4
    exact ⟨rfl, h5⟩

end

/-! ### When printing is defined -/

mutual

theorem print_defined (v : Val) : (¬ v.badString → ∃ t, print v = .ok t) ∧ (v.badString → ∃ why, print v = .error (.ub why)) := by
  cases v with
  | custom _ => exact ⟨fun _ => ⟨_, rfl⟩, fun h => by simp [Val.badString] at h⟩
  | location _ _ _ _ => exact ⟨fun _ => ⟨_, rfl⟩, fun h => by simp [Val.badString] at h⟩
  | nullopt => exact ⟨fun _ => ⟨_, rfl⟩, fun h => by simp [Val.badString] at h⟩
  | string _ => exact ⟨fun _ => ⟨_, rfl⟩, fun h => by simp [Val.badString] at h⟩
  | pointer _ => exact ⟨fun _ => ⟨_, rfl⟩, fun h => by simp [Val.badString] at h⟩
  | wide _ _ => exact ⟨fun _ => ⟨_, rfl⟩, fun h => by simp [Val.badString] at h⟩
  | chars _ _ => exact ⟨fun _ => ⟨_, rfl⟩, fun h => by simp [Val.badString] at h⟩
  | int _ => exact ⟨fun _ => ⟨_, rfl⟩, fun h => by simp [Val.badString] at h⟩
  | formatted _ => exact ⟨fun _ => ⟨_, rfl⟩, fun h => by simp [Val.badString] at h⟩
  | unknown => exact ⟨fun _ => ⟨_, rfl⟩, fun h => by simp [Val.badString] at h⟩
  | cstring s => cases s <;> simp [Val.badString, print]
  | cwide _ s => cases s <;> simp [Val.badString, print]
  | optional o =>
    cases o with
    | none => exact ⟨fun _ => ⟨_, rfl⟩, fun h => by simp [Val.badString] at h⟩
    | some w =>
      obtain ⟨g1, g2⟩ := print_defined w
      simp only [Val.badString, print, bind, Except.bind, pure, Except.pure]
      refine ⟨fun h => ?_, fun h => ?_⟩
      · obtain ⟨t, ht⟩ := g1 h
        rw [ht]
        exact ⟨_, rfl⟩
      · obtain ⟨y, hy⟩ := g2 h
        rw [hy]
        exact ⟨_, rfl⟩
  | range vs =>
    obtain ⟨g1, g2⟩ := printFirst_defined vs
    simp only [Val.badString, print, bind, Except.bind, pure, Except.pure]
    refine ⟨fun h => ?_, fun h => ?_⟩
    · obtain ⟨t, ht⟩ := g1 h
      rw [ht]
      exact ⟨_, rfl⟩
    · obtain ⟨y, hy⟩ := g2 h
      rw [hy]
      exact ⟨_, rfl⟩
  | tuple vs =>
    obtain ⟨g1, g2⟩ := printFirst_defined vs
    simp only [Val.badString, print, bind, Except.bind, pure, Except.pure, printTuple_zero]
    refine ⟨fun h => ?_, fun h => ?_⟩
    · obtain ⟨t, ht⟩ := g1 h
      rw [ht]
      exact ⟨_, rfl⟩
    · obtain ⟨y, hy⟩ := g2 h
      rw [hy]
      exact ⟨_, rfl⟩

theorem printFirst_defined (vs : List Val) : (¬ Val.anyBadString vs → ∃ t, printFirst vs = .ok t) ∧
    (Val.anyBadString vs → ∃ why, printFirst vs = .error (.ub why)) := by
  cases vs with
  | nil => exact ⟨fun _ => ⟨_, rfl⟩, fun h => by simp [Val.anyBadString] at h⟩
  | cons v vs =>
    obtain ⟨g1, g2⟩ := print_defined v
    obtain ⟨g3, g4⟩ := printRest_defined vs
    simp only [Val.anyBadString, not_or, printFirst, bind, Except.bind, pure, Except.pure]
    refine ⟨fun h => ?_, fun h => ?_⟩
    · obtain ⟨t, ht⟩ := g1 h.1
      obtain ⟨u, hu⟩ := g3 h.2
      simp only [ht, hu]
      exact ⟨_, rfl⟩
    · by_cases hb : v.badString
      · obtain ⟨y, hy⟩ := g2 hb
        simp only [hy]
        exact ⟨_, rfl⟩
      · obtain ⟨t, ht⟩ := g1 hb
        obtain ⟨y, hy⟩ := g4 (h.resolve_left hb)
        simp only [ht, hy]
        exact ⟨_, rfl⟩

theorem printRest_defined (vs : List Val) : (¬ Val.anyBadString vs → ∃ t, printRest vs = .ok t) ∧
    (Val.anyBadString vs → ∃ why, printRest vs = .error (.ub why)) := by
  cases vs with
  | nil => exact ⟨fun _ => ⟨_, rfl⟩, fun h => by simp [Val.anyBadString] at h⟩
  | cons v vs =>
    obtain ⟨g1, g2⟩ := print_defined v
    obtain ⟨g3, g4⟩ := printRest_defined vs
    simp only [Val.anyBadString, not_or, printRest, bind, Except.bind, pure, Except.pure]
    refine ⟨fun h => ?_, fun h => ?_⟩
    · obtain ⟨t, ht⟩ := g1 h.1
      obtain ⟨u, hu⟩ := g3 h.2
      simp only [ht, hu]
      exact ⟨_, rfl⟩
    · by_cases hb : v.badString
      · obtain ⟨y, hy⟩ := g2 hb
        simp only [hy]
        exact ⟨_, rfl⟩
      · obtain ⟨t, ht⟩ := g1 hb
        obtain ⟨y, hy⟩ := g4 (h.resolve_left hb)
        simp only [ht, hy]
        exact ⟨_, rfl⟩

end

/-! ### Elements -/

theorem printRest_texts (vs : List Val) (t : Text) :
    printRest vs = .ok t ↔ ∃ ts : List Text, vs.map print = ts.map .ok ∧ t = ts.flatMap (lit ", " ++ ·) := by
  induction vs generalizing t with
  | nil => simp [printRest, eq_comm]
  | cons v vs ih =>
    constructor
    · intro h
      obtain ⟨t0, t1, h1, h2, rfl⟩ := printRest_cons h
      obtain ⟨ts, h3, rfl⟩ := (ih t1).mp h2
      exact ⟨t0 :: ts, by simp [h1, h3], by simp⟩
    · rintro ⟨ts, h1, rfl⟩
      cases ts with
      | nil => simp at h1
      | cons t0 ts =>
        simp only [List.map_cons, List.cons.injEq] at h1
        have := (ih _).mpr ⟨ts, h1.2, rfl⟩
        simp [printRest, h1.1, this, bind, Except.bind, pure, Except.pure]

theorem intercalate_flatMap (t : Text) (ts : List Text) :
    List.intercalate (lit ", ") (t :: ts) = t ++ ts.flatMap (lit ", " ++ ·) := by
  induction ts generalizing t with
  | nil => simp [List.intercalate]
  | cons u ts ih =>
    have := ih u
    simp only [List.intercalate, List.intersperse_cons_cons, List.flatten_cons, List.flatMap_cons] at this ⊢
    rw [this]
    simp

theorem printFirst_texts (vs : List Val) (t : Text) :
    printFirst vs = .ok t ↔ ∃ ts : List Text, vs.map print = ts.map .ok ∧ t = List.intercalate (lit ", ") ts := by
  cases vs with
  | nil => simp [printFirst, eq_comm, List.intercalate]
  | cons v vs =>
    constructor
    · intro h
      obtain ⟨t0, t1, h1, h2, rfl⟩ := printFirst_cons h
      obtain ⟨ts, h3, rfl⟩ := (printRest_texts vs t1).mp h2
      exact ⟨t0 :: ts, by simp [h1, h3], (intercalate_flatMap _ _).symm⟩
    · rintro ⟨ts, h1, rfl⟩
      cases ts with
      | nil => simp at h1
      | cons t0 ts =>
        simp only [List.map_cons, List.cons.injEq] at h1
        have := (printRest_texts vs _).mpr ⟨ts, h1.2, rfl⟩
        simp [printFirst, h1.1, this, bind, Except.bind, pure, Except.pure, intercalate_flatMap]

/-! ### Hexadecimal numbers -/

theorem hexDigit_digitChar {n : Nat} (h : n < 16) : hexDigit n.digitChar = n := by
  revert n
  decide

theorem lowerHex_of {c : Char} (h : IsHex c) : lowerHex c := by
  obtain ⟨n, hn, rfl⟩ := h
  revert n
  unfold lowerHex
  decide

theorem hexValue_append (x y : Text) (n : Nat) :
    (x ++ y).foldl (fun n c => 16 * n + hexDigit c) n =
      y.foldl (fun n c => 16 * n + hexDigit c) (x.foldl (fun n c => 16 * n + hexDigit c) n) := List.foldl_append

theorem hexValue_hex (n : Nat) : hexValue (hex n) = n := by
  induction n using Nat.strongRecOn with
  | _ n ih =>
    by_cases h : n < 16
    · rw [hex, Nat.toDigits_of_lt_base h]
      simp [hexValue, hexDigit_digitChar h]
    · rw [hex, Nat.toDigits_of_base_le (by omega) (by omega)]
      have := ih (n / 16) (by omega)
      unfold hexValue at this ⊢
      rw [hexValue_append]
      unfold hex at this
      rw [this]
      simp only [List.foldl_cons, List.foldl_nil, hexDigit_digitChar (Nat.mod_lt n (by omega : 0 < 16))]
      omega

theorem hexValue_zeros (k : Nat) : hexValue (List.replicate k '0') = 0 := by
  induction k with
  | zero => rfl
  | succ k ih =>
    rw [List.replicate_succ']
    unfold hexValue at ih ⊢
    rw [hexValue_append, ih]
    rfl

theorem hexValue_hex16 (n : Nat) : hexValue (hex16 n) = n := by
  have h1 := hexValue_zeros (16 - (hex n).length)
  have h2 := hexValue_hex n
  unfold hex16
  unfold hexValue at h1 h2 ⊢
  rw [hexValue_append, h1, h2]

/-! ### Decimal numbers -/

theorem decimalDigit {n : Nat} (h : n < 10) : n.digitChar.toNat - 48 = n := by
  revert n
  decide

theorem decimalValue_decimal (n : Nat) : decimalValue (decimal n) = n := by
  induction n using Nat.strongRecOn with
  | _ n ih =>
    by_cases h : n < 10
    · rw [decimal, Nat.toDigits_of_lt_base h]
      simp [decimalValue, decimalDigit h]
    · rw [decimal, Nat.toDigits_of_base_le (by omega) (by omega)]
      have := ih (n / 10) (by omega)
      unfold decimalValue at this ⊢
      rw [List.foldl_append]
      unfold decimal at this
      rw [this]
      simp only [List.foldl_cons, List.foldl_nil, decimalDigit (Nat.mod_lt n (by omega : 0 < 10))]
      omega

theorem decimal_nonzero {n : Nat} (h : n ≠ 0) : (decimal n).head? ≠ some '0' := by
  induction n using Nat.strongRecOn with
  | _ n ih =>
    by_cases h' : n < 10
    · rw [decimal, Nat.toDigits_of_lt_base h']
      have : ∀ n < 10, n ≠ 0 → [n.digitChar].head? ≠ some '0' := by decide
      exact this n h' h
    · have := ih (n / 10) (by omega) (by omega)
      rw [decimal, Nat.toDigits_of_base_le (by omega) (by omega)]
      unfold decimal at this
      rw [List.head?_append]
      cases hd : Nat.toDigits 10 (n / 10) with
      | nil => exact absurd hd Nat.toDigits_ne_nil
      | cons c r =>
        rw [hd] at this
        simpa using this

/-! ### Characters that are dumped -/

theorem dump_cut (xs : List Nat) : ∀ (ys : List Nat), dump xs = dump ys → xs = ys := by
  have hq : ∀ {c d : Nat} {r s : Text}, Ends r → Ends s → hexPrefixed c ++ r = hexPrefixed d ++ s → c = d ∧ r = s := by
    intro c d r s hr hs h
    simp only [hexPrefixed, List.cons_append, List.cons.injEq, true_and] at h
    exact cut_hex hr.not_hex hs.not_hex h
  have hnil : Ends [] := by intro c hc; simp at hc
  have hcom : ∀ t, Ends (lit ", " ++ t) := by
    intro t c hc
    simp [lit] at hc
    exact Or.inl hc.symm
  induction xs with
  | nil =>
    intro ys h
    match ys with
    | [] => rfl
    | [c] => simp [dump, hexPrefixed] at h
    | c :: d :: r => simp [dump, hexPrefixed] at h
  | cons x xs ih =>
    intro ys h
    match xs, ys with
    | [], [] => simp [dump, hexPrefixed] at h
    | x' :: xs, [] => simp [dump, hexPrefixed] at h
    | [], [y] =>
      simp only [dump] at h
      have h' : hexPrefixed x ++ [] = hexPrefixed y ++ [] := by simpa using h
      obtain ⟨rfl, _⟩ := hq hnil hnil h'
      rfl
    | [], y :: y' :: ys =>
      simp only [dump, List.append_assoc] at h
      have h' : hexPrefixed x ++ [] = hexPrefixed y ++ (lit ", " ++ dump (y' :: ys)) := by simpa using h
      obtain ⟨_, h2⟩ := hq hnil (hcom _) h'
      simp [lit] at h2
    | x' :: xs, [y] =>
      simp only [dump, List.append_assoc] at h
      have h' : hexPrefixed x ++ (lit ", " ++ dump (x' :: xs)) = hexPrefixed y ++ [] := by simpa using h
      obtain ⟨_, h2⟩ := hq (hcom _) hnil h'
      simp [lit] at h2
    | x' :: xs, y :: y' :: ys =>
      simp only [dump, List.append_assoc] at h
      obtain ⟨rfl, h2⟩ := hq (hcom _) (hcom _) h
      rw [ih _ (List.append_cancel_left h2)]

/-! ### Typed values contain no pointers to characters -/

mutual

theorem typed_not_bad (v : Val) {ty : Ty} (h : v.hasTy ty) : ¬ v.badString := by
  cases v with
  | optional o =>
    cases o with
    | none => simp [Val.badString]
    | some w =>
      cases ty <;> simp only [Val.hasTy] at h
      simp only [Val.badString]
      exact typed_not_bad w h
  | tuple vs =>
    cases ty <;> simp only [Val.hasTy] at h
    simp only [Val.badString]
    exact typed_not_bad_tuple vs h
  | range vs =>
    cases ty <;> simp only [Val.hasTy] at h
    simp only [Val.badString]
    exact typed_not_bad_range vs h
  | cstring _ => cases ty <;> simp only [Val.hasTy] at h
  | cwide _ _ => cases ty <;> simp only [Val.hasTy] at h
  | custom _ => simp [Val.badString]
  | location _ _ _ _ => simp [Val.badString]
  | nullopt => simp [Val.badString]
  | string _ => simp [Val.badString]
  | pointer _ => simp [Val.badString]
  | wide _ _ => simp [Val.badString]
  | chars _ _ => simp [Val.badString]
  | int _ => simp [Val.badString]
  | formatted _ => simp [Val.badString]
  | unknown => simp [Val.badString]

theorem typed_not_bad_range (vs : List Val) {ty : Ty} (h : Val.allHaveTy ty vs) : ¬ Val.anyBadString vs := by
  cases vs with
  | nil => simp [Val.anyBadString]
  | cons v vs =>
    simp only [Val.allHaveTy] at h
    simp only [Val.anyBadString, not_or]
    exact ⟨typed_not_bad v h.1, typed_not_bad_range vs h.2⟩

theorem typed_not_bad_tuple (vs : List Val) {tys : List Ty} (h : Val.haveTys tys vs) : ¬ Val.anyBadString vs := by
  cases vs with
  | nil => simp [Val.anyBadString]
  | cons v vs =>
    cases tys <;> simp only [Val.haveTys] at h
    simp only [Val.anyBadString, not_or]
    exact ⟨typed_not_bad v h.1, typed_not_bad_tuple vs h.2⟩

end

/-! ### Arguments -/

theorem anyBadString_iff (vs : List Val) : Val.anyBadString vs ↔ ∃ v ∈ vs, v.badString := by
  induction vs with
  | nil => simp [Val.anyBadString]
  | cons v vs ih => simp [Val.anyBadString, ih]

theorem makeArgs_bad {args : List (Text × Val)} (h : ∃ p ∈ args, p.2.badString) : ∃ why, makeArgs args = .error (.ub why) := by
  induction args with
  | nil => simp at h
  | cons p args ih =>
    obtain ⟨ty, v⟩ := p
    simp only [makeArgs, bind, Except.bind, pure, Except.pure]
    by_cases hb : v.badString
    · obtain ⟨y, hy⟩ := (print_defined v).2 hb
      exact ⟨y, by simp [hy]⟩
    · obtain ⟨t, ht⟩ := (print_defined v).1 hb
      obtain ⟨y, hy⟩ := ih (by
        obtain ⟨q, hq, hbad⟩ := h
        rcases List.mem_cons.mp hq with rfl | hq
        · exact absurd hbad hb
        · exact ⟨q, hq, hbad⟩)
      exact ⟨y, by simp [ht, hy]⟩

theorem makeArgs_ok {args : List (Text × Val)} (ts : List (Text × Text)) :
    makeArgs args = .ok ts ↔ ts.map (fun p => (p.1, (.ok p.2 : M Text))) = args.map (fun p => (p.1, print p.2)) := by
  induction args generalizing ts with
  | nil => cases ts <;> simp [makeArgs]
  | cons p args ih =>
    obtain ⟨ty, v⟩ := p
    simp only [makeArgs, bind, Except.bind, pure, Except.pure]
    cases hp : print v with
    | error s => cases ts <;> simp [hp]
    | ok t =>
      cases hm : makeArgs args with
      | error s =>
        cases ts with
        | nil => simp
        | cons q ts =>
          have := mt (ih ts).mpr (by simp [hm])
          simp [this]
      | ok us =>
        cases ts with
        | nil => simp
        | cons q ts =>
          have := ih ts
          rw [hm] at this
          obtain ⟨q1, q2⟩ := q
          simp only [Except.ok.injEq, List.cons.injEq, Prod.mk.injEq, List.map_cons, hp] at this ⊢
          rw [← this]
          constructor
          · rintro ⟨⟨rfl, rfl⟩, rfl⟩; exact ⟨⟨rfl, rfl⟩, rfl⟩
          · rintro ⟨⟨rfl, rfl⟩, rfl⟩; exact ⟨⟨rfl, rfl⟩, rfl⟩

end Mimic
