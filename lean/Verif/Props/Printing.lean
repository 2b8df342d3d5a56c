import Verif.Proofs.Printing

/-!
# Printed values (C44)
-/

set_option autoImplicit false

namespace Mimic

/-- C44: which printer is used: a custom printer before the library's own, that before the one for ranges, that before
`std::format`; without any of them the value is printed as unknown. There is always exactly one. -/
theorem C44_choice (t : Traits) :
    (resolve t 4 = some .custom ↔ t.custom = true) ∧
    (resolve t 4 = some .internal ↔ t.custom = false ∧ t.internal = true) ∧
    (resolve t 4 = some .range ↔ t.custom = false ∧ t.internal = false ∧ t.range = true) ∧
    (resolve t 4 = some .format ↔ t.custom = false ∧ t.internal = false ∧ t.range = false ∧ t.formattable = true) ∧
    (resolve t 4 = some .unknown ↔ t.custom = false ∧ t.internal = false ∧ t.range = false ∧ t.formattable = false) ∧
    ∃ w, resolve t 4 = some w := by
  obtain ⟨a, b, c, d⟩ := t
  cases a <;> cases b <;> cases c <;> cases d <;> simp [resolve, overload]

/-- C44: ranges are printed with their elements in order, separated by commas, inside braces. -/
theorem C44_range (vs : List Val) (t : Text) :
    print (.range vs) = .ok t ↔ ∃ ts : List Text, vs.map print = ts.map .ok ∧ t = braced ts := by
  constructor
  · intro h
    obtain ⟨t0, h1, rfl⟩ := print_range h
    obtain ⟨ts, h2, rfl⟩ := (printFirst_texts vs t0).mp h1
    exact ⟨ts, h2, rfl⟩
  · rintro ⟨ts, h1, rfl⟩
    simp [print, (printFirst_texts vs _).mpr ⟨ts, h1, rfl⟩, bind, Except.bind, pure, Except.pure, braced]

/-- C44: so are tuples, pairs and arrays. -/
theorem C44_tuple (vs : List Val) (t : Text) :
    print (.tuple vs) = .ok t ↔ ∃ ts : List Text, vs.map print = ts.map .ok ∧ t = braced ts := by
  rw [← C44_range]
  simp only [print, printTuple_zero]

/-- C44: an optional prints its value or `nullopt`. -/
theorem C44_optional (v : Val) (t : Text) :
    print (.optional none) = .ok (lit "nullopt") ∧ print .nullopt = .ok (lit "nullopt") ∧
    (print (.optional (some v)) = .ok t ↔ ∃ s, print v = .ok s ∧ t = lit "{ value: " ++ s ++ lit " }") := by
  refine ⟨rfl, rfl, print_optional, ?_⟩
  rintro ⟨s, h, rfl⟩
  simp [print, h, bind, Except.bind, pure, Except.pure]

/-- C44: a pointer prints as `0x` and at least 16 hexadecimal digits in lower case, for 64 bit addresses exactly 16, that stand
for the address. -/
theorem C44_pointer (a : Nat) :
    ∃ ds : Text, print (.pointer a) = .ok (lit "0x" ++ ds) ∧ (∀ c ∈ ds, lowerHex c) ∧ 16 ≤ ds.length ∧
      (a < 2 ^ 64 → ds.length = 16) ∧ hexValue ds = a :=
  ⟨hex16 a, rfl, fun c hc => lowerHex_of (hex16_isHex c hc), hex16_length.1, fun h => hex16_length.2 (by simpa using h), hexValue_hex16 a⟩

/-- C44: an integer prints as its decimal digits, without needless zeros, behind a `-` if it is negative. -/
theorem C44_integer (i : Int) :
    ∃ ds : Text, print (.int i) = .ok ((if i < 0 then lit "-" else []) ++ ds) ∧ ds ≠ [] ∧ (∀ c ∈ ds, c.isDigit = true) ∧
      (decimalValue ds : Int) = (if i < 0 then -i else i) ∧ (ds.head? = some '0' → i = 0) := by
  cases i with
  | ofNat n =>
    refine ⟨decimal n, rfl, decimal_ne_nil, decimal_isDigit, ?_, ?_⟩
    · rw [decimalValue_decimal, if_neg (by simp)]
      rfl
    · intro h
      refine Classical.byContradiction fun h' => ?_
      exact decimal_nonzero (n := n) (fun e => h' (by simp [e])) h
  | negSucc n =>
    have hn : Int.negSucc n < 0 := Int.negSucc_lt_zero n
    refine ⟨decimal (n + 1), ?_, decimal_ne_nil, decimal_isDigit, ?_, ?_⟩
    · rw [if_pos hn]
      rfl
    · rw [if_pos hn, decimalValue_decimal]
      omega
    · intro h
      exact absurd h (decimal_nonzero (by omega))

/-- C44: a value without any printer. -/
theorem C44_unknown : print .unknown = .ok (lit "{?}") := rfl

/-- C44: strings of characters that cannot be printed are dumped, and different strings have different dumps. -/
theorem C44_dump (literal : Text) (cs ds : List Nat) (h : print (.wide literal cs) = print (.wide literal ds)) : cs = ds := by
  simp only [print, Except.ok.injEq] at h
  exact dump_cut cs ds (List.append_cancel_left (List.append_cancel_right h))

/-- C44: such a dump stands in quotation marks behind the literal's prefix, each character as a hexadecimal number, separated by commas. -/
theorem C44_dumped (literal : Text) (cs : List Nat) :
    ∃ ds : List Text, print (.wide literal cs) = .ok (literal ++ lit "\"" ++ List.intercalate (lit ", ") (ds.map (lit "0x" ++ ·)) ++ lit "\"") ∧
      ds.map hexValue = cs ∧ ∀ d ∈ ds, ∀ c ∈ d, lowerHex c := by
  refine ⟨cs.map hex, ?_, ?_, ?_⟩
  · have : dump cs = List.intercalate (lit ", ") ((cs.map hex).map (lit "0x" ++ ·)) := by
      induction cs with
      | nil => rfl
      | cons c cs ih =>
        cases cs with
        | nil => simp [dump, List.intercalate, hexPrefixed, lit]
        | cons d cs =>
          rw [dump, ih]
          simp only [List.map_cons, List.intercalate, List.intersperse_cons_cons, List.flatten_cons, hexPrefixed]
          simp [lit]
    simp only [print, this]
  · simp [Function.comp_def, hexValue_hex]
  · intro d hd c hc
    obtain ⟨n, _, rfl⟩ := List.mem_map.mp hd
    exact lowerHex_of (hex_isHex c hc)

/-- C44: a pointer to characters prints like the string it points to. -/
theorem C44_pointed (literal s : Text) (cs : List Nat) :
    print (.cstring (.text s)) = print (.string s) ∧ print (.cwide literal (.text cs)) = print (.wide literal cs) := ⟨rfl, rfl⟩

/-- C44: strings of characters with a printer of their own print one character after the other, with nothing in between: if every
character prints as itself, the whole prints as the text would, behind the literal's prefix. -/
theorem C44_chars (literal s : Text) (f : Char → Text) (t : Text) (hf : ∀ c, f c = [c]) (h : print (.string s) = .ok t) :
    print (.chars literal (s.map f)) = .ok (literal ++ t) := by
  have hs : (s.map f).flatten = s := by
    clear h
    induction s with
    | nil => rfl
    | cons c s ih => simp [hf, ih]
  simp only [print, Except.ok.injEq] at h ⊢
  rw [hs, ← h]
  simp

/-- C44: for values built from integers, pointers, optionals, ranges and tuples, the text determines the value. -/
theorem C44_unambiguous {ty : Ty} {v1 v2 : Val} (h1 : v1.hasTy ty) (h2 : v2.hasTy ty) (h : print v1 = print v2) : v1 = v2 := by
  have hnb : ¬ v1.badString → v1 = v2 := by
    intro hb
    obtain ⟨t, ht⟩ := (print_defined v1).1 hb
    have hn : Ends [] := by intro c hc; simp at hc
    exact (typed_cut v1 h1 h2 ht (h ▸ ht) hn hn rfl).1
  exact hnb (typed_not_bad v1 h1)

/-- C44: printing is defined for every value that contains no null pointer to characters and no pointer to characters that are
not terminated; for the others it is undefined. -/
theorem C44_defined (v : Val) :
    ((∃ t, print v = .ok t) ↔ ¬ v.badString) ∧ ((∃ why, print v = .error (.ub why)) ↔ v.badString) := by
  obtain ⟨h1, h2⟩ := print_defined v
  refine ⟨⟨?_, h1⟩, ?_, h2⟩
  · rintro ⟨t, ht⟩ hb
    obtain ⟨y, hy⟩ := h2 hb
    simp [ht] at hy
  · rintro ⟨y, hy⟩
    refine Classical.byContradiction (fun hb => ?_)
    obtain ⟨t, ht⟩ := h1 hb
    simp [ht] at hy

/-- C44: strings are not escaped, so texts of ranges of strings are ambiguous. -/
theorem C44_strings_ambiguous :
    ∃ s t u : Text, print (.range [.string s]) = print (.range [.string t, .string u]) :=
  ⟨lit "a\", \"b", lit "a", lit "b", rfl⟩

namespace PrintingExamples

/-- Both a custom printer and a range: the custom printer. A formattable range: as a range. -/
example : resolve { custom := true, internal := false, range := true, formattable := true } 4 = some .custom := rfl
example : resolve { custom := false, internal := false, range := true, formattable := true } 4 = some .range := rfl

/-- A vector of optional pairs. -/
def sample : Val := .range [.optional (some (.tuple [.int (-12), .pointer 255])), .optional none]

example : print sample = .ok (lit "{ { value: { -12, 0x00000000000000ff } }, nullopt }") := rfl
example : print (.range []) = .ok (lit "{  }") := rfl
example : sample.hasTy (.range (.optional (.tuple [.int, .pointer]))) := by
  simp [sample, Val.hasTy, Val.allHaveTy, Val.haveTys]
example : ¬ sample.badString := by simp [sample, Val.badString, Val.anyBadString]
example : (Val.range [.int 1, .cstring .null]).badString := by simp [Val.badString, Val.anyBadString]
example : print (.wide (lit "L") [0x41, 0x1f600]) = .ok (lit "L\"0x41, 0x1f600\"") := rfl
example : print (.chars (lit "L") [lit "A", lit "bc"]) = .ok (lit "L\"Abc\"") := rfl
example : hexValue (lit "00000000000000ff") = 255 := rfl

end PrintingExamples

end Mimic
