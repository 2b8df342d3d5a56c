import Verif.Proofs.ConcurrentInv

/-!
# Helper lemmas about schedules: facts that hold at every point of a schedule
-/

set_option autoImplicit false

namespace Mimic

variable {α : Type}

variable {asserts : Bool} {n m : Nat} {tr : KTrace α} {kw : KWorld α}

theorem kphase_snoc (tr : KTrace α) (x : KEntry α) (t : Nat) :
    KTrace.phase (tr ++ [x]) t = phaseStep t (tr.phase t) x := by
  simp [KTrace.phase, List.foldl_append]

theorem KReach.phase (h : KReach asserts n m tr kw) (t : Nat) :
    kw.threads[t]? = if t < n then some (tr.phase t) else none := by
  induction h with
  | init =>
    simp [KWorld.init, List.getElem?_replicate, KTrace.phase]
  | step h hs ih =>
    rw [kphase_snoc]
    have hm := kmove h.inv.ok hs
    have hlen := h.inv.len
    cases hm <;> simp only [phaseStep, KWorld.at] <;> grind

theorem KReach.phase_out (h : KReach asserts n m tr kw) {t : Nat} (ht : n ≤ t) : tr.phase t = .idle := by
  induction h with
  | init => rfl
  | step h hs ih =>
    rw [kphase_snoc, ih]
    have hm := kmove h.inv.ok hs
    have hlen := h.inv.len
    cases hm <;> simp only [phaseStep] <;> grind

theorem KReach.phase_iff (h : KReach asserts n m tr kw) {t : Nat} {l : Local} :
    kw.threads[t]? = some l ↔ t < n ∧ tr.phase t = l := by
  rw [h.phase t]
  grind

theorem KReach.flight_phase (h : KReach asserts n m tr kw) (t : Nat) : tr.flight t = (tr.phase t).call := by
  by_cases ht : t < n
  · exact h.inv.flight t _ (h.phase_iff.mpr ⟨ht, rfl⟩)
  · rw [h.phase_out (by omega)]
    exact h.inv.flight_none t (by omega)

theorem released_snoc (tr : KTrace α) (x : KEntry α) (e : Nat) :
    KTrace.released (tr ++ [x]) e ↔ tr.released e ∨ (x.act matches .release) ∧ Loc.exp e ∈ x.log.writes := by
  simp only [KTrace.released, List.mem_append, List.mem_cons, List.not_mem_nil, or_false]
  grind

theorem KReach.released (h : KReach asserts n m tr kw) (e : Nat) :
    tr.released e ↔ ∃ x, kw.w.exps[e]? = some x ∧ x.alive = false := by
  induction h with
  | init => simp [KTrace.released, KWorld.init]
  | step h hs ih =>
    rw [released_snoc, ih]
    have hm := kmove h.inv.ok hs
    cases hm with
    | create hl hc h0 h1 h2 => simp only; grind [plainExp]
    | consume hl hx hal ho ha => simp only [KWorld.at]; grind [countUp]
    | release hl =>
      have := h.inv.removing _ (List.mem_iff_getElem?.mpr ⟨_, hl⟩)
      simp only [KWorld.at]
      grind
    | _ => simp [KWorld.at]

theorem KReach.count_le (h : KReach asserts n m tr kw) (e : Nat) (x : Exp α) (hx : kw.w.exps[e]? = some x) :
    x.control.count ≤ 2147483647 := by
  induction h generalizing e x with
  | init => simp [KWorld.init] at hx
  | step h hs ih =>
    have hm := kmove h.inv.ok hs
    cases hm with
    | create hl hc h0 h1 h2 => simp only at hx; grind [plainExp]
    | consume hl hx' hal ho ha => simp only [KWorld.at, intMax] at hx ho; grind [countUp]
    | release hl => simp only [KWorld.at] at hx; grind
    | _ => exact ih e x hx

/-- Every prefix of a schedule is a schedule. -/
theorem KReach.split (h : KReach asserts n m tr kw) {i : Nat} {x : KEntry α} (hx : tr[i]? = some x) :
    ∃ kw₁ kw₂, KReach asserts n m (tr.take i) kw₁ ∧ kw₁.step asserts x.thread x.act = .ok (kw₂, x.log) ∧
      KReach asserts n m (tr.take (i + 1)) kw₂ := by
  induction h with
  | init => simp at hx
  | @step tr kw kw' t act log h hs ih =>
    by_cases hi : i < tr.length
    · rw [List.getElem?_append_left hi] at hx
      obtain ⟨kw₁, kw₂, h1, h2, h3⟩ := ih hx
      refine ⟨kw₁, kw₂, ?_, h2, ?_⟩
      · rwa [List.take_append_of_le_length (by omega)]
      · rwa [List.take_append_of_le_length (by omega)]
    · have hie : i = tr.length := by
        have := (List.getElem?_eq_some_iff.mp hx).1
        simp at this
        omega
      subst hie
      simp only [List.getElem?_concat_length, Option.some.injEq] at hx
      subst hx
      refine ⟨kw, kw', by simpa using h, hs, ?_⟩
      rw [List.take_of_length_le (by simp)]
      exact .step h hs

theorem KReach.take (h : KReach asserts n m tr kw) (i : Nat) : ∃ kw₁, KReach asserts n m (tr.take i) kw₁ := by
  by_cases hi : i < tr.length
  · obtain ⟨k1, _, h1, _⟩ := h.split (List.getElem?_eq_getElem hi)
    exact ⟨k1, h1⟩
  · rw [List.take_of_length_le (by omega)]
    exact ⟨kw, h⟩

theorem take_snoc {tr : KTrace α} {i : Nat} {x : KEntry α} (hx : tr[i]? = some x) : tr.take (i + 1) = tr.take i ++ [x] := by
  rw [List.take_add_one, hx]
  rfl

/-! ### What a call sees -/

theorem KReach.decl_some (h : KReach asserts n m tr kw) {e : Nat} {d : Decl α} :
    tr.decl e = some d ↔ ∃ x, kw.w.exps[e]? = some x ∧ declOf x = d := by
  have := h.inv.decl e
  simp only [KTrace.sum] at this
  rw [this]
  simp

theorem KReach.stored (h : KReach asserts n m tr kw) {c : Nat} {es : List Nat} (hc : kw.w.colls[c]? = some es) (e : Nat) :
    e ∈ es ↔ tr.live e ∧ ∃ d, tr.decl e = some d ∧ d.mock = c := by
  rw [h.inv.stored c es hc e, KTrace.live]
  simp only [KTrace.sum, h.decl_some]
  constructor
  · rintro ⟨⟨x, hx, hxc⟩, hg⟩
    exact ⟨⟨⟨_, x, hx, rfl⟩, hg⟩, _, ⟨x, hx, rfl⟩, hxc⟩
  · rintro ⟨⟨_, hg⟩, _, ⟨x, hx, rfl⟩, hxc⟩
    exact ⟨⟨x, hx, hxc⟩, hg⟩

theorem KReach.sees (h : KReach asserts n m tr kw) {c : Nat} {es : List Nat} (hc : kw.w.colls[c]? = some es) {a : α} {e : Nat} :
    (e ∈ es ∧ lookE kw.w a e = some .thrown ↔ tr.throws c a e) ∧
    (e ∈ es ∧ lookE kw.w a e = some .full ↔ tr.candidate c a e) ∧
    (e ∈ es ∧ lookE kw.w a e = some .inapplicable ↔ tr.accepts c a e ∧ ¬ tr.candidate c a e) ∧
    (e ∈ es ∧ lookE kw.w a e = some .no ↔
      (tr.live e ∧ ∃ d, tr.decl e = some d ∧ d.mock = c) ∧ ¬ tr.throws c a e ∧ ¬ tr.accepts c a e) := by
  rw [h.stored hc e, KTrace.candidate, KTrace.throws, KTrace.accepts]
  simp only [h.decl_some]
  cases hx : kw.w.exps[e]? with
  | none => simp
  | some x =>
    have hcnt : x.control.count = tr.counted e := h.inv.count e x hx
    have ha : ∀ ps : List (Policy α), ps.all (fun p => p.accepts a == some true) = true ↔ ∀ p ∈ ps, p.accepts a = some true := by
      simp
    have hb : ∀ ps : List (Policy α), ps.any (fun p => p.accepts a == none) = true ↔ ∃ p ∈ ps, p.accepts a = none := by
      simp
    have hab : ∀ ps : List (Policy α), (∃ p ∈ ps, p.accepts a = none) → ¬ ∀ p ∈ ps, p.accepts a = some true := by
      rintro ps ⟨p, hp, hpa⟩ hall
      have := hall p hp
      simp [hpa] at this
    have hab := hab x.policies
    rw [← ha, ← hb] at hab
    simp only [lookE, hx, Option.map_some, Option.some.injEq, exists_eq_left', look, ← ha, ← hb, exists_eq_left, declOf, hcnt]
    clear ha hb
    generalize x.policies.any _ = P at hab ⊢
    generalize x.policies.all _ = Q at hab ⊢
    by_cases hC : (tr.counted e : Int) = x.control.max <;> cases P <;> cases Q <;> simp_all

theorem KReach.colls (h : KReach asserts n m tr kw) {c : Nat} (hc : c < m) : ∃ es, kw.w.colls[c]? = some es :=
  ⟨_, List.getElem?_eq_getElem (by rw [h.inv.colls_len]; exact hc)⟩

theorem reverse_filter_youngest {es : List Nat} {f : Nat → Bool} {P : Nat → Prop} (hs : es.Pairwise (· < ·))
    (hf : ∀ e, e ∈ es ∧ f e = true ↔ P e) : YoungestFirst P (es.reverse.filter f) := by
  constructor
  · apply List.Pairwise.filter
    rw [List.pairwise_reverse]
    exact hs
  · intro e
    rw [List.mem_filter, List.mem_reverse, hf]

end Mimic
