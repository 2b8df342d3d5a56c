import Verif.Spec.CaseFold
import Verif.Proofs.Matcher

/-!
# Lemmas about encodings and case folding
-/

set_option autoImplicit false

namespace Mimic.Fold

/-- Which units begin a code point. -/
def lead : Utf → Nat → Bool
  | .u8, b => b < 0x80 || 0xC0 ≤ b
  | .u16, b => b < 0xDC00 || 0xE000 ≤ b
  | .u32, _ => true

theorem shape (u : Utf) {c : Nat} (h : scalar c) :
    ∃ x xs, u.enc c = x :: xs ∧ lead u x = true ∧ ∀ y ∈ xs, lead u y = false := by
  cases u with
  | u8 =>
    simp only [Utf.enc, utf8, lead]
    split
    · exact ⟨_, _, rfl, by simp <;> omega, by simp⟩
    · split
      · exact ⟨_, _, rfl, by simp <;> omega, by simp <;> omega⟩
      · split
        · exact ⟨_, _, rfl, by simp <;> omega, by simp <;> omega⟩
        · exact ⟨_, _, rfl, by simp <;> omega, by simp <;> omega⟩
  | u16 =>
    simp only [Utf.enc, utf16, lead, scalar] at *
    split
    · exact ⟨_, _, rfl, by simp <;> omega, by simp⟩
    · exact ⟨_, _, rfl, by simp <;> omega, by simp <;> omega⟩
  | u32 => exact ⟨c, [], rfl, rfl, by simp⟩

/-- The beginning of a text determines its first code point. -/
theorem first (u : Utf) {c d : Nat} (hc : scalar c) (hd : scalar d) {x y : List Nat} (h : u.enc c ++ x = u.enc d ++ y) : c = d := by
  cases u with
  | u8 =>
    simp only [Utf.enc, utf8, scalar] at *
    repeat' split at h
    all_goals (simp only [List.cons_append, List.nil_append, List.cons.injEq] at h; omega)
  | u16 =>
    simp only [Utf.enc, utf16, scalar] at *
    repeat' split at h
    all_goals (simp only [List.cons_append, List.nil_append, List.cons.injEq] at h; omega)
  | u32 =>
    simp only [Utf.enc, utf32, List.cons_append, List.nil_append, List.cons.injEq] at h
    exact h.1

theorem units_append (u : Utf) (a b : List Nat) : u.units (a ++ b) = u.units a ++ u.units b := by simp [Utf.units]

theorem units_cons (u : Utf) (c : Nat) (cs : List Nat) : u.units (c :: cs) = u.enc c ++ u.units cs := by simp [Utf.units]

theorem units_nil_iff (u : Utf) {cs : List Nat} (h : Scalars cs) : u.units cs = [] ↔ cs = [] := by
  cases cs with
  | nil => simp [Utf.units]
  | cons c cs =>
    obtain ⟨x, xs, h1, _⟩ := shape u (h c (by simp))
    simp [units_cons, h1]

theorem prefix_split (u : Utf) : ∀ {p t : List Nat} {r : List Nat}, Scalars t → Scalars p → u.units t = u.units p ++ r →
    ∃ rest, t = p ++ rest ∧ r = u.units rest := by
  intro p
  induction p with
  | nil => intro t r _ _ h; exact ⟨t, rfl, by simpa [Utf.units] using h.symm⟩
  | cons d p ih =>
    intro t r ht hp h
    cases t with
    | nil =>
      obtain ⟨x, xs, h1, _⟩ := shape u (hp d (by simp))
      simp [Utf.units, h1] at h
    | cons c t =>
      rw [units_cons, units_cons, List.append_assoc] at h
      have := first u (ht c (by simp)) (hp d (by simp)) h
      subst this
      obtain ⟨rest, rfl, hr⟩ := ih (fun x hx => ht x (by simp [hx])) (fun x hx => hp x (by simp [hx])) (List.append_cancel_left h)
      exact ⟨rest, rfl, hr⟩

theorem units_inj (u : Utf) {t p : List Nat} (ht : Scalars t) (hp : Scalars p) (h : u.units t = u.units p) : t = p := by
  obtain ⟨rest, rfl, hr⟩ := prefix_split (r := []) u ht hp (by simpa using h)
  have : rest = [] := (units_nil_iff u (fun c hc => ht c (by simp [hc]))).mp hr.symm
  simp [this]

/-- A unit that begins a code point is at a boundary. -/
theorem lead_split (u : Utf) : ∀ {t : List Nat} {b : List Nat} {x : Nat} {r : List Nat}, Scalars t → u.units t = b ++ x :: r →
    lead u x = true → ∃ t1 t2, t = t1 ++ t2 ∧ b = u.units t1 ∧ x :: r = u.units t2 := by
  intro t
  induction t with
  | nil => intro b x r _ h _; simp [Utf.units] at h
  | cons c t ih =>
    intro b x r ht h hx
    cases b with
    | nil => exact ⟨[], c :: t, rfl, rfl, by simpa using h.symm⟩
    | cons y b =>
      obtain ⟨z, zs, h1, _, h3⟩ := shape u (ht c (by simp))
      rw [units_cons, h1, List.cons_append, List.cons_append, List.cons.injEq] at h
      obtain ⟨rfl, h⟩ := h
      rcases List.append_eq_append_iff.mp h with ⟨b', rfl, h4⟩ | ⟨b', rfl, h4⟩
      · obtain ⟨t1, t2, rfl, rfl, h5⟩ := ih (fun x hx => ht x (by simp [hx])) h4 hx
        exact ⟨c :: t1, t2, rfl, by rw [units_cons, h1]; rfl, h5⟩
      · cases b' with
        | nil =>
          obtain ⟨t1, t2, rfl, h6, h5⟩ := ih (b := []) (fun x hx => ht x (by simp [hx])) (by simpa using h4.symm) hx
          have : t1 = [] := (units_nil_iff u (fun x hx => ht x (by simp [hx]))).mp h6.symm
          subst this
          exact ⟨[c], t2, rfl, by rw [units_cons, h1]; simp [Utf.units], h5⟩
        | cons w b' =>
          simp only [List.cons_append, List.cons.injEq] at h4
          have := h3 w (by simp)
          rw [← h4.1, hx] at this
          simp at this

/-- Comparing the units of two texts is comparing their code points. -/
theorem rel_units (u : Utf) (k : StrKind) {t p : List Nat} (ht : Scalars t) (hp : Scalars p) :
    k.rel (u.units t) (u.units p) ↔ k.rel t p := by
  cases k with
  | eq => exact ⟨units_inj u ht hp, fun h => by simp only [StrKind.rel] at h; rw [h]; rfl⟩
  | startsWith =>
    constructor
    · rintro ⟨rest, h⟩
      obtain ⟨r, h, _⟩ := prefix_split u ht hp h
      exact ⟨r, h⟩
    · rintro ⟨r, rfl⟩
      exact ⟨u.units r, units_append u p r⟩
  | endsWith =>
    constructor
    · rintro ⟨b, h⟩
      cases p with
      | nil => exact ⟨t, by simp⟩
      | cons c p =>
        obtain ⟨x, xs, h1, h2, _⟩ := shape u (hp c (by simp))
        rw [units_cons, h1, List.cons_append] at h
        obtain ⟨t1, t2, rfl, rfl, h3⟩ := lead_split u ht h h2
        refine ⟨t1, ?_⟩
        have : t2 = c :: p := units_inj u (fun x hx => ht x (by simp [hx])) hp (by rw [← h3, units_cons, h1, List.cons_append])
        rw [this]
    · rintro ⟨r, rfl⟩
      exact ⟨u.units r, units_append u r p⟩
  | contains =>
    constructor
    · rintro ⟨b, a, h⟩
      cases p with
      | nil => exact ⟨t, [], by simp⟩
      | cons c p =>
        obtain ⟨x, xs, h1, h2, _⟩ := shape u (hp c (by simp))
        have h' := h
        rw [units_cons, h1, List.cons_append, List.append_assoc, List.cons_append] at h
        obtain ⟨t1, t2, rfl, rfl, h3⟩ := lead_split u ht h h2
        have : u.units t2 = u.units (c :: p) ++ a := by
          rw [← h3, units_cons, h1]; simp
        obtain ⟨rest, rfl, _⟩ := prefix_split u (fun x hx => ht x (by simp [hx])) hp this
        exact ⟨t1, rest, by simp⟩
    · rintro ⟨b, a, rfl⟩
      exact ⟨u.units b, u.units a, by rw [units_append, units_append]⟩

theorem next_enc (u : Utf) {c : Nat} (h : scalar c) (r : List Nat) : u.next (u.enc c ++ r) = some (c, r) := by
  cases u with
  | u8 =>
    simp only [Utf.next, Utf.enc, utf8, scalar] at *
    split
    · rename_i h1; simp [take8, h1]
    · split
      · simp only [List.cons_append, List.nil_append, take8, Bool.and_eq_true, decide_eq_true_eq]
        rw [if_neg (by omega), if_pos (by omega)]
        simp only [Option.some.injEq, Prod.mk.injEq, and_true]
        omega
      · split
        · simp only [List.cons_append, List.nil_append, take8, Bool.and_eq_true, decide_eq_true_eq]
          rw [if_neg (by omega), if_neg (by omega), if_pos (by omega)]
          simp only [Option.some.injEq, Prod.mk.injEq, and_true]
          omega
        · simp only [List.cons_append, List.nil_append, take8, Bool.and_eq_true, decide_eq_true_eq]
          rw [if_neg (by omega), if_neg (by omega), if_neg (by omega), if_pos (by omega)]
          simp only [Option.some.injEq, Prod.mk.injEq, and_true]
          omega
  | u16 =>
    simp only [Utf.next, Utf.enc, utf16, scalar] at *
    split
    · simp only [List.cons_append, List.nil_append, take16]
      rw [if_pos (by omega)]
    · simp only [List.cons_append, List.nil_append, take16]
      rw [if_neg (by omega), if_pos (by omega)]
      simp only [Option.some.injEq, Prod.mk.injEq, and_true]
      omega
  | u32 =>
    simp only [Utf.next, Utf.enc, utf32, List.cons_append, List.nil_append, take32]
    exact if_pos h

theorem next_nil (u : Utf) : u.next [] = none := by cases u <;> rfl

theorem decode_units (u : Utf) : ∀ {cs : List Nat} {n : Nat}, Scalars cs → cs.length ≤ n → decode u.next n (u.units cs) = cs := by
  intro cs
  induction cs with
  | nil =>
    intro n _ _
    cases n with
    | zero => rfl
    | succ n => simp [decode, Utf.units, next_nil]
  | cons c cs ih =>
    intro n h hn
    cases n with
    | zero => simp at hn
    | succ n =>
      rw [units_cons, decode, next_enc u (h c (by simp))]
      simp only [ih (fun x hx => h x (by simp [hx])) (by simpa using hn)]

theorem units_length (u : Utf) {cs : List Nat} (h : Scalars cs) : cs.length ≤ (u.units cs).length := by
  induction cs with
  | nil => simp
  | cons c cs ih =>
    obtain ⟨x, xs, h1, _⟩ := shape u (h c (by simp))
    have := ih (fun x hx => h x (by simp [hx]))
    simp [units_cons, h1]
    omega

/-- The modelled converters are as they should be. -/
theorem casefold_foldsBy (u : Utf) {f : Nat → List Nat} (hf : ∀ c, scalar c → Scalars (f c)) :
    FoldsBy u f (casefold u.next u.enc f) :=
  ⟨hf, fun cs h => by rw [casefold, decode_units u h (units_length u h)]; rfl⟩

theorem scalars_flatMap {f : Nat → List Nat} (hf : ∀ c, scalar c → Scalars (f c)) {cs : List Nat} (h : Scalars cs) :
    Scalars (cs.flatMap f) := by
  intro d hd
  obtain ⟨c, hc, hd⟩ := List.mem_flatMap.mp hd
  exact hf c (h c hc) d hd

/-- What a part of the target has to do with the folded target. -/
theorem rel_flatMap {f : Nat → List Nat} {k : StrKind} {t part : List Nat} (h : k.rel t part) :
    k.rel (t.flatMap f) (part.flatMap f) := by
  cases k with
  | eq => simp only [StrKind.rel] at *; rw [h]
  | startsWith => obtain ⟨r, rfl⟩ := h; exact ⟨r.flatMap f, by simp⟩
  | endsWith => obtain ⟨r, rfl⟩ := h; exact ⟨r.flatMap f, by simp⟩
  | contains => obtain ⟨b, a, rfl⟩ := h; exact ⟨b.flatMap f, a.flatMap f, by simp⟩

theorem rel_map {g : Nat → Nat} {k : StrKind} {t q : List Nat} (h : k.rel (t.map g) q) :
    ∃ part, k.rel t part ∧ part.map g = q := by
  cases k with
  | eq => exact ⟨t, rfl, h⟩
  | startsWith =>
    obtain ⟨r, h⟩ := h
    obtain ⟨a, b, rfl, h1, _⟩ := List.map_eq_append_iff.mp h
    exact ⟨a, ⟨b, rfl⟩, h1⟩
  | endsWith =>
    obtain ⟨r, h⟩ := h
    obtain ⟨a, b, rfl, _, h1⟩ := List.map_eq_append_iff.mp h
    exact ⟨b, ⟨a, rfl⟩, h1⟩
  | contains =>
    obtain ⟨r, r', h⟩ := h
    obtain ⟨a, b, rfl, h1, _⟩ := List.map_eq_append_iff.mp h
    obtain ⟨a, c, rfl, _, h1⟩ := List.map_eq_append_iff.mp h1
    exact ⟨c, ⟨a, b, rfl⟩, h1⟩

theorem flatMap_single {f : Nat → List Nat} {t : List Nat} (hf : ∀ c ∈ t, (f c).length = 1) :
    t.flatMap f = t.map (fun c => (f c).headD 0) := by
  induction t with
  | nil => rfl
  | cons c t ih =>
    have h := hf c (by simp)
    rw [List.flatMap_cons, ih (fun d hd => hf d (by simp [hd])), List.map_cons]
    match hc : f c, h with
    | [d], _ => rfl

end Mimic.Fold
