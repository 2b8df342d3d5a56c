import Verif.Spec.Owned
import Verif.Proofs.ConcurrentGuard

/-!
# Helper lemmas: threads with mocks of their own
-/

set_option autoImplicit false

namespace Mimic

variable {α : Type} {asserts : Bool} {n m : Nat} {tr : KTrace α} {kw : KWorld α} {own : Nat → Nat}

theorem owned_at (ho : tr.Owned own) {i : Nat} {x : KEntry α} (hx : tr[i]? = some x) :
    match x.act with
    | .expect c _ _ _ => x.thread = own c
    | .scan c _ => x.thread = own c
    | .remove e => ∀ d, (tr.before i).decl e = some d → x.thread = own d.mock
    | .query e => ∀ d, (tr.before i).decl e = some d → x.thread = own d.mock
    | _ => True := ho (tr.before i) x (prefix_snoc_of hx)

theorem owned_expect (ho : tr.Owned own) {i : Nat} {x : KEntry α} (hx : tr[i]? = some x) {c : Nat} {mn mx : Int}
    {ps : List (Policy α)} (ha : x.act = .expect c mn mx ps) : x.thread = own c := by
  have := owned_at ho hx
  rw [ha] at this
  exact this

theorem owned_scan (ho : tr.Owned own) {i : Nat} {x : KEntry α} (hx : tr[i]? = some x) {c : Nat} {a : α}
    (ha : x.act = .scan c a) : x.thread = own c := by
  have := owned_at ho hx
  rw [ha] at this
  exact this

theorem owned_remove (ho : tr.Owned own) {i : Nat} {x : KEntry α} (hx : tr[i]? = some x) {e : Nat} {d : Decl α}
    (ha : x.act = .remove e) (hd : (tr.before i).decl e = some d) : x.thread = own d.mock := by
  have := owned_at ho hx
  rw [ha] at this
  exact this d hd

theorem owned_query (ho : tr.Owned own) {i : Nat} {x : KEntry α} (hx : tr[i]? = some x) {e : Nat} {d : Decl α}
    (ha : x.act = .query e) (hd : (tr.before i).decl e = some d) : x.thread = own d.mock := by
  have := owned_at ho hx
  rw [ha] at this
  exact this d hd

/-- The thread of a call in flight is the owner of the mock. -/
theorem owned_flight (h : KReach asserts n m tr kw) (ho : tr.Owned own) {i t c e : Nat}
    (hf : (tr.before i).flight t = some (c, e)) : t = own c := by
  obtain ⟨s, x, a, _, h2, h3, h4, _⟩ := flight_from h hf
  rw [← h4]
  exact owned_scan ho h2 h3

/-- Everything that touches an expectation is done by the owner of its mock. -/
theorem owned_use (h : KReach asserts n m tr kw) (ho : tr.Owned own) {i e : Nat} {x : KEntry α} (hx : tr[i]? = some x)
    (hu : Use tr e i x) : ∃ d, tr.decl e = some d ∧ x.thread = own d.mock := by
  cases hu with
  | create c d hn hd hc hcr hl =>
    refine ⟨d, hd, ?_⟩
    obtain ⟨k1, k2, h1, hm⟩ := h.move hx
    obtain ⟨t, act, log⟩ := x
    simp only at hm hcr hl ⊢
    cases hm with
    | @create c' mn mx ps es =>
      have : c' = c := by simpa [KLog.locks] using hl
      subst this
      rw [hc]
      exact owned_expect ho hx rfl
    | _ => simp at hcr <;> (split at hcr <;> simp at hcr)
  | scan c a d ha hd hc =>
    refine ⟨d, kdecl_mono (List.take_prefix _ _) hd, ?_⟩
    rw [hc]
    exact owned_scan ho hx ha
  | consume c ha hf =>
    obtain ⟨k1, k2, h1, hm⟩ := h.move hx
    obtain ⟨d, hd, hc⟩ := flight_decl h1 hf
    refine ⟨d, kdecl_mono (List.take_prefix _ _) hd, ?_⟩
    rw [hc]
    exact owned_flight h ho hf
  | remove d ha hd => exact ⟨d, kdecl_mono (List.take_prefix _ _) hd, owned_remove ho hx ha hd⟩
  | release ha hp =>
    obtain ⟨k1, k2, h1, hm⟩ := h.move hx
    obtain ⟨r, z, hr, hza, hzt⟩ := removed_at h1 hp
    have hr' : tr[r]? = some z := by
      have : r < i := by
        have := (List.getElem?_eq_some_iff.mp hr).1
        simp at this
        omega
      rw [List.getElem?_take] at hr
      simpa [this] using hr
    obtain ⟨d, hd, _⟩ := remove_use h hr' hza
    refine ⟨d, kdecl_mono (List.take_prefix _ _) hd, ?_⟩
    rw [← hzt]
    exact owned_remove ho hr' hza hd
  | query d ha hd => exact ⟨d, kdecl_mono (List.take_prefix _ _) hd, owned_query ho hx ha hd⟩

theorem owned_separate (h : KReach asserts n m tr kw) (ho : tr.Owned own) : tr.Separate := by
  intro p x hpx t c e hf
  obtain ⟨hx, hp⟩ := snoc_prefix hpx
  have hp' : tr.before p.length = p := hp
  rw [← hp'] at hf
  have hown := owned_flight h ho hf
  obtain ⟨k1, k2, h1, hm⟩ := h.move hx
  constructor
  · intro a ha
    have ht := owned_scan ho hx ha
    rw [← hown] at ht
    subst ht
    rw [h1.flight_phase] at hf
    rw [ha] at hm
    have hidle : k1.threads[x.thread]? = some .idle := by
      generalize x.log = lg at hm
      cases hm <;> assumption
    rw [(h1.phase_iff.mp hidle).2] at hf
    simp [Local.call] at hf
  · intro ha
    obtain ⟨d, hd, hdm⟩ := flight_decl h1 hf
    have ht := owned_remove ho hx ha hd
    rw [hdm, ← hown] at ht
    subst ht
    rw [h1.flight_phase] at hf
    rw [ha] at hm
    have hidle : k1.threads[x.thread]? = some .idle := by
      generalize x.log = lg at hm
      cases hm; assumption
    rw [(h1.phase_iff.mp hidle).2] at hf
    simp [Local.call] at hf

/-! ### What a thread did is all there is about its mocks -/

theorem owned_prefix (ho : tr.Owned own) {p : KTrace α} (hp : p <+: tr) : p.Owned own :=
  fun q x hq => ho q x (hq.trans hp)

theorem of_snoc (tr : KTrace α) (x : KEntry α) (t : Nat) :
    KTrace.of (tr ++ [x]) t = if x.thread = t then tr.of t ++ [x] else tr.of t := by
  simp only [KTrace.of, List.filter_append]
  by_cases hx : x.thread = t <;> simp [hx]

/-- Which expectations there are, by the owner of their mocks. -/
theorem of_decl (h : KReach asserts n m tr kw) (ho : tr.Owned own) (t e : Nat) :
    (tr.of t).decl e = (tr.decl e).filter (fun d => own d.mock = t) := by
  induction h with
  | init => rfl
  | @step tr kw kw' t' act log h hs ih =>
    have ih := ih (owned_prefix ho (List.prefix_append _ _))
    have hx := owned_at (i := tr.length) ho (x := ⟨t', act, log⟩) (by simp)
    have hm := kmove h.inv.ok hs
    have hdec := fun (d : Decl α) => h.decl_some (e := e) (d := d)
    rw [of_snoc, kdecl_snoc]
    have key : KTrace.decl [(⟨t', act, log⟩ : KEntry α)] e = none ∨
        (tr.decl e = none ∧ ∃ d, KTrace.decl [(⟨t', act, log⟩ : KEntry α)] e = some d ∧ t' = own d.mock) := by
      cases hm with
      | @create c mn mx ps es =>
        by_cases he : e = kw.w.exps.length
        · right
          constructor
          · cases hd : tr.decl e with
            | none => rfl
            | some d =>
              obtain ⟨y, hy, _⟩ := (hdec d).mp hd
              rw [he] at hy
              simp at hy
          · exact ⟨{ mock := c, min := mn, max := mx, seqs := [], policies := ps }, by simp [KTrace.decl, he], hx⟩
        · left
          simp [KTrace.decl]
          exact he
      | _ => left; simp [KTrace.decl]
    rcases key with hk | ⟨hk, d, hd, ht⟩
    · rw [hk]
      split
      · rw [kdecl_snoc, hk, ih]
        simp
      · rw [ih]
        simp
    · rw [hk] at ih
      rw [hk, hd]
      split
      · rename_i hth
        simp only at hth
        rw [kdecl_snoc, hd, ih]
        have : own d.mock = t := by rw [← ht, hth]
        simp [Option.filter, this]
      · rename_i hth
        simp only at hth
        rw [ih]
        have : own d.mock ≠ t := by rw [← ht]; exact hth
        simp [Option.filter, this]

theorem of_decl_some (h : KReach asserts n m tr kw) (ho : tr.Owned own) {t e : Nat} {d : Decl α} (ht : own d.mock = t) :
    (tr.of t).decl e = some d ↔ tr.decl e = some d := by
  rw [of_decl h ho, Option.filter_eq_some_iff]
  simp [ht]

theorem of_destroyed (h : KReach asserts n m tr kw) (ho : tr.Owned own) {t e : Nat} {d : Decl α} (hd : tr.decl e = some d)
    (ht : own d.mock = t) : Event.destroyed e ∈ (tr.of t).events ↔ Event.destroyed e ∈ tr.events := by
  simp only [KTrace.events, KTrace.of, List.mem_flatMap, List.mem_filter, decide_eq_true_eq]
  constructor
  · rintro ⟨x, ⟨hx, _⟩, hv⟩
    exact ⟨x, hx, hv⟩
  · rintro ⟨x, hx, hv⟩
    refine ⟨x, ⟨hx, ?_⟩, hv⟩
    obtain ⟨i, hi⟩ := List.mem_iff_getElem?.mp hx
    have ha : x.act = .remove e := by
      obtain ⟨k1, k2, h1, hm⟩ := h.move hi
      obtain ⟨t', act, log⟩ := x
      simp only at hm hv ⊢
      cases hm with
      | @remove e' => split at hv <;> simp_all
      | _ => simp at hv
    obtain ⟨d', hd', _⟩ := remove_use h hi ha
    have hd'' := kdecl_mono (List.take_prefix _ _) hd'
    rw [hd] at hd''
    cases hd''
    rw [owned_remove ho hi ha hd', ht]

theorem of_counted (h : KReach asserts n m tr kw) (ho : tr.Owned own) {t e : Nat} {d : Decl α} (hd : tr.decl e = some d)
    (ht : own d.mock = t) : (tr.of t).counted e = tr.counted e := by
  simp only [KTrace.counted, KTrace.of, List.countP_filter]
  apply List.countP_congr
  intro x hx
  obtain ⟨i, hi⟩ := List.mem_iff_getElem?.mp hx
  have : Loc.exp e ∈ x.log.writes → x.thread = t := by
    intro hw
    obtain ⟨d', hd', hth⟩ := owned_use h ho hi (use_exp h hi (Or.inr hw))
    rw [hd] at hd'
    cases hd'
    rw [hth, ht]
  split <;> simp
  exact this

theorem of_live (h : KReach asserts n m tr kw) (ho : tr.Owned own) {t e : Nat} {d : Decl α} (hd : tr.decl e = some d)
    (ht : own d.mock = t) : (tr.of t).live e ↔ tr.live e := by
  simp only [KTrace.live, of_destroyed h ho hd ht, hd, (of_decl_some h ho ht).mpr hd]

theorem of_about (h : KReach asserts n m tr kw) (ho : tr.Owned own) {t c e : Nat} (ht : own c = t) (P : Decl α → Prop) :
    ((tr.of t).live e ∧ ∃ d, (tr.of t).decl e = some d ∧ d.mock = c ∧ P d) ↔
      (tr.live e ∧ ∃ d, tr.decl e = some d ∧ d.mock = c ∧ P d) := by
  constructor
  · rintro ⟨hl, d, hd, hc, hp⟩
    have hd' := (of_decl_some h ho (by rw [hc, ht])).mp hd
    exact ⟨(of_live h ho hd' (by rw [hc, ht])).mp hl, d, hd', hc, hp⟩
  · rintro ⟨hl, d, hd, hc, hp⟩
    exact ⟨(of_live h ho hd (by rw [hc, ht])).mpr hl, d, (of_decl_some h ho (by rw [hc, ht])).mpr hd, hc, hp⟩

theorem of_accepts (h : KReach asserts n m tr kw) (ho : tr.Owned own) {t c : Nat} (a : α) (ht : own c = t) :
    (tr.of t).accepts c a = tr.accepts c a := by
  funext e
  exact propext (of_about h ho ht _)

theorem of_throws (h : KReach asserts n m tr kw) (ho : tr.Owned own) {t c : Nat} (a : α) (ht : own c = t) :
    (tr.of t).throws c a = tr.throws c a := by
  funext e
  exact propext (of_about h ho ht _)

theorem of_candidate (h : KReach asserts n m tr kw) (ho : tr.Owned own) {t c : Nat} (a : α) (ht : own c = t) :
    (tr.of t).candidate c a = tr.candidate c a := by
  funext e
  simp only [KTrace.candidate, of_accepts h ho a ht, eq_iff_iff]
  apply and_congr_right
  rintro ⟨_, d, hd, hc, _⟩
  simp only [of_counted h ho hd (by rw [hc, ht]), hd, (of_decl_some h ho (by rw [hc, ht])).mpr hd]

theorem of_stored (h : KReach asserts n m tr kw) (ho : tr.Owned own) {t c e : Nat} (ht : own c = t) :
    ((tr.of t).live e ∧ ∃ d, (tr.of t).decl e = some d ∧ d.mock = c) ↔ (tr.live e ∧ ∃ d, tr.decl e = some d ∧ d.mock = c) := by
  simpa using of_about h ho ht (e := e) (fun _ => True)

end Mimic
