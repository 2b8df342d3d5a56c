import Verif.Proofs.InterfaceMock

/-!
# Property C45: what the macros for interface mocks generate
-/

set_option autoImplicit false

namespace Mimic

open Pp

/-- The name of the mock of a method. -/
def mockName (fn : List Char) : Tok := .id (fn ++ ['_']) false

/-- **C45** The macros for overloaded methods are replaced by one override for each overload, in the given order, and one mock
with the signatures of all overloads. The types, specifiers and numbers of parameters are arbitrary; the replacement does not
depend on how many steps a preprocessor is willing to make, if they are enough. -/
theorem C45_overloaded {fn : List Char} (hf : (Tok.id fn false).macro = none) (hm : (mockName fn).macro = none)
    {os : List Overload} (hne : os ≠ []) (hlen : os.length ≤ 86)
    (h : ∀ o ∈ os, o.Valid ∧ o.params.length ≤ 86) {text : List Tok} (ht : OverloadedSource (.id fn false) os text) :
    (∃ fuel, ∀ f, fuel ≤ f → preprocess f text =
      some (os.flatMap (fun o => o.method (.id fn false) (mockName fn)) ++ mockMember (os.map Overload.signature) (mockName fn))) ∧
    ∀ f out, preprocess f text = some out →
      out = os.flatMap (fun o => o.method (.id fn false) (mockName fn)) ++ mockMember (os.map Overload.signature) (mockName fn) := by
  have hE := ht.E (fun o ho => (h o ho).1) hlen (fun o ho => (h o ho).2) hne hf hm
  exact ⟨hE.preprocess, fun f out hout => hE.preprocess_unique hout⟩

/-- **C45** The same for a method without overloads. -/
theorem C45_method {fn : List Char} (hf : (Tok.id fn false).macro = none) (hm : (mockName fn).macro = none)
    {o : Overload} (h : o.Valid) (hlen : o.params.length ≤ 86) {text : List Tok} (ht : MethodSource (.id fn false) o text) :
    (∃ fuel, ∀ f, fuel ≤ f → preprocess f text =
      some (o.method (.id fn false) (mockName fn) ++ mockMember [o.signature] (mockName fn))) ∧
    ∀ f out, preprocess f text = some out → out = o.method (.id fn false) (mockName fn) ++ mockMember [o.signature] (mockName fn) := by
  have hE := ht.E h hlen hf hm
  exact ⟨hE.preprocess, fun f out hout => hE.preprocess_unique hout⟩

/-- **C45** An override declares its parameters under different names and gives all of them to the mock, in the order of their
declaration and with their own types. -/
theorem C45_parameters (o : Overload) (fn mock : Tok) :
    ∃ ps fs : List (List Tok), ∃ names : List Tok,
      o.method fn mock = [word "inline"] ++ meant o.ret ++ [fn] ++ inParens (joinArgs ps) ++ meant o.specs ++
        [word "override", punct "{", word "return", mock] ++ inParens (joinArgs fs) ++ [punct ";", punct "}"] ∧
      names.Nodup ∧ names.length = o.params.length ∧
      ps = List.zipWith (fun type name => meant type ++ [name]) o.params names ∧
      fs = List.zipWith (fun type name => forwarded (meant type) name) o.params names := by
  refine ⟨o.parameters, o.forwards, (List.range o.params.length).map paramName, ?_, ?_, ?_, ?_, ?_⟩
  · simp [Overload.method]
  · rw [List.nodup_iff_pairwise_ne, List.pairwise_map]
    exact List.nodup_range.imp (fun h he => h (paramName_inj he))
  · simp
  · apply List.ext_getElem?
    intro k
    simp only [Overload.parameters, List.getElem?_mapIdx, List.getElem?_zipWith, List.getElem?_map]
    by_cases hk : k < o.params.length
    · simp [hk]
    · simp [List.getElem?_eq_none (Nat.le_of_not_lt hk)]
  · apply List.ext_getElem?
    intro k
    simp only [Overload.forwards, List.getElem?_mapIdx, List.getElem?_zipWith, List.getElem?_map]
    by_cases hk : k < o.params.length
    · simp [hk]
    · simp [List.getElem?_eq_none (Nat.le_of_not_lt hk)]

/-- **C45** If nothing is enclosed in parentheses, the signatures of the mock are those of the overrides. -/
theorem C45_signature (o : Overload) (hr : o.ret.head? ≠ some .lp) (hs : o.specs.head? ≠ some .lp)
    (hp : ∀ w ∈ o.params, w.head? ≠ some .lp) : o.signature = o.signatureMeant := by
  have : o.params.map meant = o.params := by
    conv => rhs; rw [← List.map_id o.params]
    exact List.map_congr_left (fun w hw => meant_bare (hp w hw))
  rw [Overload.signature, Overload.signatureMeant, meant_bare hr, meant_bare hs, this]

/-- **C45** The enclosing parentheses of a result type are left out in the override, but not in the signature of the mock: there
it is not the type that was meant. -/
theorem C45_parenthesised {o : Overload} (h : o.Valid) (hlen : o.params.length ≤ 86) {x : List Tok} (hr : o.ret = inParens x)
    {fn : List Char} (hf : (Tok.id fn false).macro = none) (hm : (mockName fn).macro = none)
    {text : List Tok} (ht : MethodSource (.id fn false) o text) :
    (∃ fuel, ∀ f, fuel ≤ f → ∃ out, preprocess f text = some (out ++ mockMember [inParens x ++ (inParens (joinArgs o.params) ++ o.specs)] (mockName fn)) ∧
      ([word "inline"] ++ x ++ [.id fn false]) <+: out) ∧
    inParens x ++ (inParens (joinArgs o.params) ++ o.specs) ≠ o.signatureMeant := by
  obtain ⟨⟨fuel, hfuel⟩, _⟩ := C45_method hf hm h hlen ht
  have hmr : meant o.ret = x := by rw [hr, meant_parens]
  refine ⟨⟨fuel, fun f hfu => ⟨o.method (.id fn false) (mockName fn), ?_, ?_⟩⟩, ?_⟩
  · rw [hfuel f hfu, Overload.signature, hr]
  · rw [Overload.method, hmr]
    simp
  · intro he
    have hl := congrArg List.length he
    have h1 := length_join (as := o.params) (f := meant) rfl (fun _ => length_meant)
    have h2 := length_meant (w := o.specs)
    rw [Overload.signatureMeant, hmr] at hl
    simp only [inParens, List.length_cons, List.length_append, List.length_nil] at hl
    omega

/-- **C45** The bound is sharp: with more overloads, the name of a helper macro is left, so that the class cannot be compiled. -/
theorem C45_limit {fn : List Char} (hf : (Tok.id fn false).macro = none) (hm : (mockName fn).macro = none)
    {os : List Overload} (hlen : 86 < os.length) (h : ∀ o ∈ os, o.Valid ∧ o.params.length ≤ 86) {texts : List (List Tok)}
    (ht : Sources os texts) {f : Nat} {out : List Tok}
    (hout : preprocess f (invoke .mockOverloaded (joinArgs ([.id fn false] :: texts))) = some out) :
    Macro.again.tok ∈ out := by
  have hv := fun o ho => (h o ho).1
  have ht' : joinArgs ([Tok.id fn false] :: texts) = .id fn false :: .comma :: joinArgs texts := by
    cases ht with
    | nil => simp at hlen
    | cons _ _ => rfl
  rw [ht'] at hout
  exact mockOverloaded_left hv hlen hf hm (ht.E (Below.none 20) hv (fun o ho => (h o ho).2)) (.join (ht.arg hv)) hout

/-! ## Concrete cases -/

/-- `int(const std::string&, (std::tuple<int, float>)) const noexcept` -/
def someOverload : Overload :=
  { ret := [word "int"]
    params := [[word "const", word "std", punct "::", word "string", punct "&"],
      inParens [word "std", punct "::", word "tuple", punct "<", word "int", .comma, word "float", punct ">"]]
    specs := [word "const", word "noexcept"] }

/-- `void()` -/
def otherOverload : Overload := { ret := [word "void"], params := [], specs := [] }

/-- `(std::tuple<int, float>)()` -/
def tupleOverload : Overload :=
  { ret := inParens [word "std", punct "::", word "tuple", punct "<", word "int", .comma, word "float", punct ">"]
    params := [], specs := [] }

theorem someOverload_valid : someOverload.Valid where
  ret := ⟨.check (by decide), Or.inl ⟨rfl, by decide⟩⟩
  specs := ⟨.check (by decide), Or.inl ⟨rfl, by decide⟩⟩
  params := by
    intro w hw
    simp only [someOverload, List.mem_cons, List.not_mem_nil, or_false] at hw
    rcases hw with rfl | rfl
    · exact ⟨⟨.check (by decide), Or.inl ⟨rfl, by decide⟩⟩, by decide⟩
    · exact ⟨.inParens (.check (by decide)) rfl, by decide⟩

theorem otherOverload_valid : otherOverload.Valid where
  ret := ⟨.check (by decide), Or.inl ⟨rfl, by decide⟩⟩
  specs := .empty
  params := by simp [otherOverload]

theorem tupleOverload_valid : tupleOverload.Valid where
  ret := .inParens (.check (by decide)) rfl
  specs := .empty
  params := by simp [tupleOverload]

/-- `MOCK_OVERLOADED_METHOD(foo, ADD_OVERLOAD(void, ()), MIMICPP_ADD_OVERLOAD(int, (...), const noexcept))` -/
def someSource : List Tok :=
  invoke .mockOverloadedShort (joinArgs [[word "foo"], invoke .addOverloadShort (joinArgs [[word "void"], inParens []]),
    invoke .addOverload (joinArgs [someOverload.ret, inParens (joinArgs someOverload.params), someOverload.specs])])

theorem someSource_ok : OverloadedSource (.id "foo".toList false) [otherOverload, someOverload] someSource :=
  .text (Or.inr rfl) (.cons (.noSpecs (Or.inr rfl) rfl) (.cons (.specs (Or.inl rfl)) .nil))

-- the hypotheses of `C45_overloaded`
example : (∀ o ∈ [otherOverload, someOverload], o.Valid ∧ o.params.length ≤ 86) ∧
    OverloadedSource (.id "foo".toList false) [otherOverload, someOverload] someSource ∧
    (Tok.id "foo".toList false).macro = none ∧ (mockName "foo".toList).macro = none := by
  refine ⟨?_, someSource_ok, by decide, by decide⟩
  intro o ho
  simp only [List.mem_cons, List.not_mem_nil, or_false] at ho
  rcases ho with rfl | rfl
  · exact ⟨otherOverload_valid, by decide⟩
  · exact ⟨someOverload_valid, by decide⟩

-- the texts: `void foo()` and `int foo(const std::string& arg_i, std::tuple<int, float> arg_ii) const noexcept`
example : otherOverload.method (word "foo") (word "foo_") =
    [word "inline", word "void", word "foo", .lp, .rp, word "override", punct "{", word "return", word "foo_", .lp, .rp, punct ";",
      punct "}"] := by decide

example : (someOverload.method (word "foo") (word "foo_")).take 27 =
    [word "inline", word "int", word "foo", .lp, word "const", word "std", punct "::", word "string", punct "&", word "arg_i", .comma,
      word "std", punct "::", word "tuple", punct "<", word "int", .comma, word "float", punct ">", word "arg_ii", .rp,
      word "const", word "noexcept", word "override", punct "{", word "return", word "foo_"] := by decide

-- the signatures, with parentheses around the tuple
example : joinArgs ([otherOverload, someOverload].map Overload.signature) =
    [word "void", .lp, .rp, .comma, word "int", .lp, word "const", word "std", punct "::", word "string", punct "&", .comma, .lp,
      word "std", punct "::", word "tuple", punct "<", word "int", .comma, word "float", punct ">", .rp, .rp, word "const",
      word "noexcept"] := by decide

-- a complete replacement, step by step: `MOCK_METHOD(foo, void, ())`
set_option maxRecDepth 20000 in
example : preprocess 400 (invoke .mockMethodShort (joinArgs [[word "foo"], [word "void"], inParens []])) =
    some ([word "inline", word "void", word "foo", .lp, .rp, word "override", punct "{", word "return", word "foo_", .lp, .rp,
      punct ";", punct "}"] ++
      [punct "::", word "mimicpp", punct "::", word "Mock", punct "<", word "void", .lp, .rp, punct ">", word "foo_", punct "{",
        punct "}"]) := by rfl

-- `C45_parenthesised`
example : tupleOverload.Valid ∧ MethodSource (.id "foo".toList false) tupleOverload
    (invoke .mockMethodShort (joinArgs [[word "foo"], tupleOverload.ret, inParens []])) :=
  ⟨tupleOverload_valid, .noSpecs (Or.inr rfl) rfl⟩

-- `C45_limit`: 87 overloads with 0 to 86 parameters of type `int`
def manyOverloads : List Overload :=
  (List.range 87).map (fun n => { ret := [word "void"], params := List.replicate n [word "int"], specs := [] })

example : 86 < manyOverloads.length ∧ (∀ o ∈ manyOverloads, o.Valid ∧ o.params.length ≤ 86) ∧
    ∃ texts, Sources manyOverloads texts := by
  refine ⟨by simp [manyOverloads], ?_, ?_⟩
  · intro o ho
    simp only [manyOverloads, List.mem_map, List.mem_range] at ho
    obtain ⟨n, hn, rfl⟩ := ho
    refine ⟨⟨⟨.check (xs := [word "void"]) (by decide), Or.inl ⟨rfl, by simp [word]⟩⟩, .empty, ?_⟩, by simp; omega⟩
    intro w hw
    rw [(List.mem_replicate.mp hw).2]
    exact ⟨⟨.check (by decide), Or.inl ⟨rfl, by simp [word]⟩⟩, by simp⟩
  · have : ∀ os : List Overload, (∀ o ∈ os, o.specs = []) → ∃ texts, Sources os texts := by
      intro os
      induction os with
      | nil => exact fun _ => ⟨[], .nil⟩
      | cons o os ih =>
        intro h
        obtain ⟨texts, ht⟩ := ih (fun x hx => h x (by simp [hx]))
        exact ⟨_, .cons (.noSpecs (Or.inl rfl) (h o (by simp))) ht⟩
    refine this _ ?_
    intro o ho
    simp only [manyOverloads, List.mem_map] at ho
    obtain ⟨n, _, rfl⟩ := ho
    rfl

end Mimic
