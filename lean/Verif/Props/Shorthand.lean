import Verif.Proofs.Shorthand

/-!
# Property C54: the arguments of `expect_call`
-/

set_option autoImplicit false

namespace Mimic.Shorthand

/-- C54, the meaning of the arguments. `expect_call(a₁, …, aₙ)` accepts exactly those calls whose argument number `i`
is what `aᵢ` asks for, for every `i`: a satisfied matcher, the same text, the same number, the same pointer, or equal
according to `==`. What is missing for the full property: comparisons of a negative number with an unsigned one
(`C54_sign`) and one-element tuples (`C54_unwrapped`); where a string has no text see `C54_unreadable`. -/
theorem C54_meaning_partial {E : Classes} {ps : List Ty} {as : List Arg} {rs : List (Nat × Test)} {call : List Val}
    (h : expectCall E ps as = some rs) (hl : call.length = ps.length)
    (hv : ∀ (i : Nat) p v, ps[i]? = some p → call[i]? = some v → Typed p v) (ha : ∀ a ∈ as, Typed a.ty a.val)
    (hr : ∀ (i : Nat) p a v, ps[i]? = some p → as[i]? = some a → call[i]? = some v → IsString p → IsString a.ty →
      Readable v ∧ Readable a.val)
    (hs : ∀ (i : Nat) p a v, ps[i]? = some p → as[i]? = some a → call[i]? = some v → ¬ SignChanges p a.ty v a.val)
    (h1 : ∀ a ∈ as, ∀ t, a.ty ≠ .tuple [t]) :
    ∃ b, matchesCall rs call = .ok b ∧
      (b = true ↔ ∀ (i : Nat) p a v, ps[i]? = some p → as[i]? = some a → call[i]? = some v → Asks E p a v) := by
  obtain ⟨bs, hbs, hiff⟩ := requirements_spec (call := call) (i := 0) h (by omega) (fun k p a v hp hak hvk => by
    rw [Nat.zero_add] at hvk
    exact ⟨hv k p v hp hvk, ha a (List.mem_of_getElem? hak), hr k p a v hp hak hvk, hs k p a v hp hak hvk,
      h1 a (List.mem_of_getElem? hak)⟩)
  refine ⟨bs.all id, by simp [matchesCall, hbs, bind, Except.bind, pure, Except.pure], ?_⟩
  simpa using hiff

/-- C54: where two strings have to be compared and one of them has no text, being null or not terminated, the call is
undefined behaviour, whatever the other arguments are. -/
theorem C54_unreadable {E : Classes} {ps : List Ty} {as : List Arg} {rs : List (Nat × Test)} {call : List Val}
    (h : expectCall E ps as = some rs) (hl : call.length = ps.length)
    (hv : ∀ (i : Nat) p v, ps[i]? = some p → call[i]? = some v → Typed p v) (ha : ∀ a ∈ as, Typed a.ty a.val)
    {i : Nat} {p : Ty} {a : Arg} {v : Val} (hp : ps[i]? = some p) (hai : as[i]? = some a) (hvi : call[i]? = some v)
    (hps : IsString p) (has : IsString a.ty) (hr : ¬ (Readable v ∧ Readable a.val)) :
    ∃ why, matchesCall rs call = .error (.ub why) := by
  obtain ⟨why, hw⟩ := requirements_unreadable (call := call) (i := 0) h (by omega) (fun k p a v hp hak hvk => by
      rw [Nat.zero_add] at hvk
      exact ⟨hv k p v hp hvk, ha a (List.mem_of_getElem? hak)⟩)
    ⟨i, p, a, v, hp, hai, by rw [Nat.zero_add]; exact hvi, hps, has, hr⟩
  exact ⟨why, by simp [matchesCall, hw, bind, Except.bind]⟩

/-- C54: which calls of `expect_call` compile. As many arguments as parameters are needed, and each argument has to be a
matcher for its parameter, or both have to be strings of the same character type, or there has to be an operator `==` for
them. What is missing for the full property: a `std::pair` and a `std::tuple`, which have an operator `==` but are not
accepted (`C54_taken_apart`). -/
theorem C54_accepted_partial {E : Classes} {ps : List Ty} {as : List Arg} (hl : ps.length = as.length)
    (ha : ∀ (i : Nat) p a, ps[i]? = some p → as[i]? = some a →
      (∃ n, a.ty = .cls n ∧ (E.matcher n p).isSome = true) ∨
      (∃ c, p.charType = some c ∧ a.ty.charType = some c) ∨
      ((p.charType = none ∨ a.ty.charType = none) ∧ (equalTo E p a.ty).isSome = true ∧ (∀ c, a.ty ≠ .array c) ∧
        (∀ t u, a.ty ≠ .pair t u) ∧ ∀ ts, a.ty ≠ .tuple ts)) :
    (expectCall E ps as).isSome = true := by
  refine (requirements_isSome hl).mpr (fun k p a hp hak => ?_)
  unfold argMatcher
  rcases ha k p a hp hak with ⟨n, hn, hm⟩ | ⟨c, h1, h2⟩ | ⟨hno, heq, h1, h2, h3⟩
  · obtain ⟨m, hm⟩ := Option.isSome_iff_exists.mp hm
    simp [ownMatcher, hn, hm]
  · have hown : ownMatcher E p a = none := by
      unfold ownMatcher
      cases ht : a.ty <;> simp_all [Ty.charType]
    simp [hown, h1, h2, matchesStrEq]
  · split
    · rfl
    · have hb : (p.charType.isSome && a.ty.charType.isSome) = false := by rcases hno with h | h <;> simp [h]
      rw [hb]
      simp only [Bool.false_eq_true, if_false, heq, if_true]
      obtain ⟨ty, x⟩ := a
      simp only at heq h1 h2 h3
      have : deduce ty = [ty] ∧ stored ty x = [x] := by
        cases ty <;> simp_all [deduce, stored]
      obtain ⟨eq, he⟩ := Option.isSome_iff_exists.mp heq
      simp [matchesEq, this.1, this.2, he]

/-- C54: nothing else compiles. -/
theorem C54_rejected {E : Classes} {ps : List Ty} {as : List Arg} {rs : List (Nat × Test)} (h : expectCall E ps as = some rs) :
    ps.length = as.length ∧ ∀ (i : Nat) p a, ps[i]? = some p → as[i]? = some a →
      (∃ n, a.ty = .cls n ∧ (E.matcher n p).isSome = true) ∨
      (∃ c, p.charType = some c ∧ a.ty.charType = some c) ∨
      ((p.charType = none ∨ a.ty.charType = none) ∧ (equalTo E p a.ty).isSome = true) := by
  have hlen : ∀ {ps : List Ty} {as : List Arg} {i : Nat} {rs : List (Nat × Test)}, requirements E i ps as = some rs →
      ps.length = as.length := by
    intro ps
    induction ps with
    | nil =>
      intro as i rs h
      rcases requirements_cons h with ⟨_, rfl, _⟩ | ⟨_, _, _, _, _, _, hh, _⟩
      · rfl
      · cases hh
    | cons p ps ih =>
      intro as i rs h
      rcases requirements_cons h with ⟨hh, _⟩ | ⟨_, _, a, as', t, rs', hh, rfl, rfl, ht, hrs⟩
      · cases hh
      · cases hh; simpa using ih hrs
  have hl := hlen h
  refine ⟨hl, fun k p a hp hak => ?_⟩
  have := (requirements_isSome (i := 0) hl).mp (by rw [show requirements E 0 ps as = some rs from h]; rfl) k p a hp hak
  unfold argMatcher at this
  split at this
  · rename_i m hm
    unfold ownMatcher at hm
    cases ht : a.ty <;> simp [ht] at hm
    obtain ⟨m', hm', _⟩ := hm
    exact Or.inl ⟨_, rfl, by simp [hm']⟩
  · split at this
    · rename_i hstr
      unfold matchesStrEq at this
      split at this
      · rename_i heq
        simp only [Bool.and_eq_true] at hstr
        obtain ⟨c, hc⟩ := Option.isSome_iff_exists.mp hstr.1
        exact Or.inr (Or.inl ⟨c, hc, heq ▸ hc⟩)
      · cases this
    · rename_i hstr
      split at this
      · rename_i heq
        refine Or.inr (Or.inr ⟨?_, heq⟩)
        cases h1 : p.charType <;> cases h2 : a.ty.charType <;> simp_all
      · cases this

/-- C54 is violated: `expect_call` does not accept a `std::pair`, nor a `std::tuple` of any other number than one of
elements, even if the parameter has the same type and there is an operator `==`. -/
theorem C54_taken_apart {E : Classes} {ps : List Ty} {as : List Arg} {i : Nat} {a : Arg} (hi : as[i]? = some a)
    (ht : (∃ t u, a.ty = .pair t u) ∨ ∃ ts, a.ty = .tuple ts ∧ ts.length ≠ 1) : expectCall E ps as = none := by
  cases hx : expectCall E ps as with
  | none => rfl
  | some rs =>
    have hl := (C54_rejected hx).1
    have hlt : i < ps.length := by rw [hl]; exact (List.getElem?_eq_some_iff.mp hi).1
    have := (requirements_isSome (i := 0) hl).mp (by rw [show requirements E 0 ps as = some rs from hx]; rfl) i ps[i] a
      (List.getElem?_eq_getElem hlt) hi
    exfalso
    unfold argMatcher at this
    rcases ht with ⟨t, u, ht⟩ | ⟨ts, ht, hn⟩
    · simp [ownMatcher, ht, Ty.charType, matchesEq, deduce] at this
    · match ts, hn with
      | [], _ => simp [ownMatcher, ht, Ty.charType, matchesEq, deduce] at this
      | _ :: _ :: _, _ => simp [ownMatcher, ht, Ty.charType, matchesEq, deduce] at this

/-- Classes without anything special: pairs and tuples of the same type are comparable. -/
def plainClasses : Classes where
  matcher _ _ := none
  equal p t := match p, t with
    | .pair _ _, .pair _ _ => some fun x y => match x, y with
      | .pack [.num a, .num b], .pack [.num c, .num d] => decide (a = c ∧ b = d)
      | _, _ => false
    | .tuple _, .tuple _ => some fun _ _ => true
    | .cls _, .num _ _ => some fun x y => match x, y with
      | .obj n, .num m => decide ((n : Int) = m)
      | _, _ => false
    | .cls _, .tuple _ => some fun _ _ => false
    | _, _ => none

/-- C54 is violated: an `int` argument for an `unsigned` parameter is converted, so that `expect_call(-1)` accepts the call
with 4294967295. -/
theorem C54_sign : ∃ rs, expectCall plainClasses [.num false 32] [⟨.num true 32, .num (-1)⟩] = some rs ∧
    matchesCall rs [.num 4294967295] = .ok true ∧
    ¬ Asks plainClasses (.num false 32) ⟨.num true 32, .num (-1)⟩ (.num 4294967295) := by
  refine ⟨_, rfl, by rfl, fun h => ?_⟩
  cases h with
  | matcher n m he => cases he
  | text l hp => rcases hp with ⟨c, h | h | h | h⟩ <;> cases h
  | number _ _ _ _ _ _ h => cases h
  | pointer hp => cases hp
  | null ha' => cases ha'
  | equal t eq _ hc => rcases hc with hc | hc <;> simp [Custom] at hc

/-- C54: exactly this is what a number asks for: the same number, or, where the comparison converts a negative number to an unsigned type, the
number it becomes. -/
theorem C54_numbers (E : Classes) {s s' : Bool} {b b' : Nat} {n m : Int} (hn : InRange s b n) (hm : InRange s' b' m) :
    ∃ rs r, expectCall E [.num s b] [⟨.num s' b', .num m⟩] = some rs ∧ matchesCall rs [.num n] = .ok r ∧
      (r = true ↔ n = m ∨ Wraps s b n s' b' m ∨ Wraps s' b' m s b n) := by
  refine ⟨_, numEq s b s' b' n m && true, rfl, rfl, ?_⟩
  rw [Bool.and_true]
  exact numEq_exact hn hm

/-- An `int` -1 is equal to an `unsigned` 4294967295, but neither to a `std::uint16_t` 65535 nor, as a `long long`, to that `unsigned`. -/
example : Wraps true 32 (-1) false 32 4294967295 ∧ InRange true 32 (-1) ∧ InRange false 32 4294967295 ∧
    ¬ Wraps true 32 (-1) false 16 65535 ∧ ¬ Wraps true 64 (-1) false 32 4294967295 := by
  unfold Wraps InRange
  decide

/-- C54 is violated: the element of a one-element tuple is compared instead of the tuple, if both is possible. -/
theorem C54_unwrapped : ∃ rs, expectCall plainClasses [.cls 0] [⟨.tuple [.num true 32], .pack [.num 5]⟩] = some rs ∧
    matchesCall rs [.obj 5] = .ok true ∧
    ¬ Asks plainClasses (.cls 0) ⟨.tuple [.num true 32], .pack [.num 5]⟩ (.obj 5) := by
  refine ⟨_, rfl, rfl, fun h => ?_⟩
  cases h with
  | matcher n m he => cases he
  | text l hp => rcases hp with ⟨c, h | h | h | h⟩ <;> cases h
  | number _ _ _ _ hp => cases hp
  | pointer hp => cases hp
  | null ha' => cases ha'
  | equal t eq _ _ hd he hb =>
    rcases hd with ⟨c, hh, _⟩ | ⟨_, rfl⟩
    · cases hh
    · cases he; cases hb

/-- Non-vacuity of C54_meaning_partial: a string literal for a `std::string`, a number for an `int`, `nullptr` for a
`char const*`; the literal has a zero inside of it. -/
example : ∃ rs, expectCall plainClasses [.str 0, .num true 32, .cstr 0]
      [⟨.array 0, .chars (.units [104, 105, 0, 33, 0])⟩, ⟨.num true 32, .num 7⟩, ⟨.nullptr, .addr none⟩] = some rs ∧
    matchesCall rs [.text [104, 105], .num 7, .chars .null] = .ok true ∧
    matchesCall rs [.text [104, 105, 0, 33], .num 7, .chars .null] = .ok false ∧
    matchesCall rs [.text [104, 105], .num 8, .chars .null] = .ok false :=
  ⟨_, rfl, rfl, rfl, rfl⟩

/-- Non-vacuity of C54_unreadable: two `char const*` parameters and a null pointer. -/
example : ∃ rs, expectCall plainClasses [.cstr 0] [⟨.array 0, .chars (.units [104, 105, 0])⟩] = some rs ∧
    matchesCall rs [.chars .null] = .error (.ub "string_view of a null pointer") := ⟨_, rfl, rfl⟩

/-- Non-vacuity of C54_taken_apart: the parameter has the type of the argument, and there is an operator. -/
example : (equalTo plainClasses (.pair (.num true 32) (.num true 32)) (.pair (.num true 32) (.num true 32))).isSome = true ∧
    expectCall plainClasses [.pair (.num true 32) (.num true 32)]
      [⟨.pair (.num true 32) (.num true 32), .pack [.num 1, .num 2]⟩] = none := ⟨rfl, rfl⟩

end Mimic.Shorthand
