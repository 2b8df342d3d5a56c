import Verif.Props.Printing
import Verif.Props.Outcome
import Verif.Spec.PrintCall

/-!
# Helper lemmas about printed arguments
-/

set_option autoImplicit false

namespace Mimic.Shown

variable {V α : Type}

theorem commas_eq (ts : List Text) : commas ts = List.intercalate (lit ", ") ts := by
  match ts with
  | [] => rfl
  | [t] => simp [commas, List.intercalate]
  | t :: u :: ts =>
    simp only [commas, commas_eq (u :: ts), List.intercalate, List.intersperse, List.flatten_cons, List.append_assoc]

/-- The ways, with the facts they need. -/
theorem show_succ (F : V → Facts V) (n : Nat) (v : V) :
    (∃ c, (F v).custom = some c ∧ shown F (n + 1) v = some (c.mapError .thrown)) ∨
    ((F v).custom = none ∧ ∃ x, (F v).own = some (.leaf x) ∧ shown F (n + 1) v = lift (print x)) ∨
    ((F v).custom = none ∧ (F v).own = some (.optional none) ∧ shown F (n + 1) v = some (.ok (lit "nullopt"))) ∨
    ((F v).custom = none ∧ ∃ w, (F v).own = some (.optional (some w)) ∧ shown F (n + 1) v = asValue (shown F n w)) ∨
    ((F v).custom = none ∧ ∃ vs, (F v).own = some (.tuple vs) ∧ shown F (n + 1) v = inBraces (each (shown F n) vs)) ∨
    ((F v).custom = none ∧ (F v).own = none ∧ ∃ vs, (F v).elems = some vs ∧
      shown F (n + 1) v = inBraces (each (shown F n) vs)) ∨
    ((F v).custom = none ∧ (F v).own = none ∧ (F v).elems = none ∧
      shown F (n + 1) v = some (.ok ((F v).format.getD (lit "{?}")))) := by
  obtain ⟨h1, h2, h3, h4, h5, _⟩ := C44_choice (F v).traits
  simp only [Facts.traits, Option.isSome_eq_false_iff, Option.isNone_iff_eq_none, Option.isSome_iff_exists] at h1 h2 h3 h4 h5
  cases hc : (F v).custom with
  | some c =>
    left
    refine ⟨c, rfl, ?_⟩
    have : resolve (F v).traits 4 = some .custom := by unfold Facts.traits; exact h1.mpr ⟨c, hc⟩
    cases c <;> simp [shown, this, hc, Except.mapError]
  | none =>
    right
    cases ho : (F v).own with
    | some o =>
      have : resolve (F v).traits 4 = some .internal := by unfold Facts.traits; exact h2.mpr ⟨hc, o, ho⟩
      rcases o with x | (_ | w) | vs <;> simp [shown, this, ho]
    | none =>
      cases he : (F v).elems with
      | some vs =>
        have : resolve (F v).traits 4 = some .range := by unfold Facts.traits; exact h3.mpr ⟨hc, ho, vs, he⟩
        simp [shown, this, he]
      | none =>
        cases hf : (F v).format with
        | some t =>
          have : resolve (F v).traits 4 = some .format := by unfold Facts.traits; exact h4.mpr ⟨hc, ho, he, t, hf⟩
          simp [shown, this, hf]
        | none =>
          have : resolve (F v).traits 4 = some .unknown := by unfold Facts.traits; exact h5.mpr ⟨hc, ho, he, hf⟩
          simp [shown, this]

theorem each_mono {p q : V → Result Text} (vs : List V) (h : ∀ v ∈ vs, ∀ r, p v = some r → q v = some r) {r : Except Fail (List Text)}
    (hr : each p vs = some r) : each q vs = some r := by
  induction vs generalizing r with
  | nil => exact hr
  | cons v vs ih =>
    have hv := h v (by simp)
    have ih' : ∀ r, each p vs = some r → each q vs = some r := fun r hr => ih (fun w hw => h w (by simp [hw])) hr
    simp only [each] at hr ⊢
    grind

theorem inBraces_mono {x y : Result (List Text)} (h : ∀ r, x = some r → y = some r) {r : Except Fail Text}
    (hr : inBraces x = some r) : inBraces y = some r := by
  cases x with
  | none => simp [inBraces] at hr
  | some x => rw [h x rfl]; exact hr

theorem asValue_mono {x y : Result Text} (h : ∀ r, x = some r → y = some r) {r : Except Fail Text}
    (hr : asValue x = some r) : asValue y = some r := by
  cases x with
  | none => simp [asValue] at hr
  | some x => rw [h x rfl]; exact hr

theorem show_step (F : V → Facts V) (n : Nat) : ∀ (v : V) (r : Except Fail Text), shown F n v = some r → shown F (n + 1) v = some r := by
  induction n with
  | zero => intro v r h; simp [shown] at h
  | succ n ih =>
    intro v r h
    have he : ∀ vs r, each (shown F n) vs = some r → each (shown F (n + 1)) vs = some r :=
      fun vs r hr => each_mono vs (fun v _ r => ih v r) hr
    have hb : ∀ vs r, inBraces (each (shown F n) vs) = some r → inBraces (each (shown F (n + 1)) vs) = some r :=
      fun vs r hr => inBraces_mono (he vs) hr
    have hv : ∀ w r, asValue (shown F n w) = some r → asValue (shown F (n + 1) w) = some r :=
      fun w r hr => asValue_mono (ih w) hr
    have h2 := show_succ F (n + 1) v
    rcases show_succ F n v with ⟨c, hc, hs⟩ | ⟨hc, y, ho, hs⟩ | ⟨hc, ho, hs⟩ | ⟨hc, w, ho, hs⟩ | ⟨hc, vs, ho, hs⟩ |
      ⟨hc, ho, vs, he, hs⟩ | ⟨hc, ho, he, hs⟩ <;> simp_all

theorem show_mono (F : V → Facts V) {n m : Nat} (hnm : n ≤ m) {v : V} {r : Except Fail Text} (h : shown F n v = some r) :
    shown F m v = some r := by
  induction hnm with
  | refl => exact h
  | step _ ih => exact show_step F _ v r ih

theorem each_total {F : V → Facts V} (vs : List V) (h : ∀ v ∈ vs, ∃ n r, shown F n v = some r) : ∃ n r, each (shown F n) vs = some r := by
  induction vs with
  | nil => exact ⟨0, _, rfl⟩
  | cons v vs ih =>
    obtain ⟨n, r, hn⟩ := h v (by simp)
    obtain ⟨m, s, hm⟩ := ih (fun w hw => h w (by simp [hw]))
    have h1 := show_mono F (Nat.le_max_left n m) hn
    have h2 : each (shown F (max n m)) vs = some s := each_mono vs (fun v _ r => show_mono F (Nat.le_max_right n m)) hm
    refine ⟨max n m, ?_⟩
    simp only [each, h1, h2]
    cases r <;> cases s <;> simp

theorem each_ok {p : V → Result Text} {vs : List V} {ts : List Text} (h : each p vs = some (.ok ts)) :
    vs.map p = ts.map (fun t => some (.ok t)) := by
  induction vs generalizing ts with
  | nil => simp [each] at h; subst h; rfl
  | cons v vs ih =>
    simp only [each] at h
    split at h
    · simp at h
    · simp at h
    · rename_i hv
      split at h
      · simp at h
      · simp at h
      · rename_i he
        simp only [Option.some.injEq, Except.ok.injEq] at h
        subst h
        simp [ih he, hv]

theorem each_of_ok {p : V → Result Text} {vs : List V} {ts : List Text} (h : vs.map p = ts.map (fun t => some (.ok t))) :
    each p vs = some (.ok ts) := by
  induction vs generalizing ts with
  | nil => simp at h; subst h; rfl
  | cons v vs ih =>
    cases ts with
    | nil => simp at h
    | cons t ts =>
      simp only [List.map_cons, List.cons.injEq] at h
      simp [each, h.1, ih h.2]

theorem each_ok_mem {p : V → Result Text} {vs : List V} {ts : List Text} (h : each p vs = some (.ok ts)) {v : V} (hv : v ∈ vs) :
    ∃ t, p v = some (.ok t) := by
  have := each_ok h
  have hm : p v ∈ vs.map p := List.mem_map_of_mem hv
  rw [this] at hm
  obtain ⟨t, _, ht⟩ := List.mem_map.mp hm
  exact ⟨t, ht.symm⟩

theorem each_error {p : V → Result Text} {vs : List V} {x : Fail} (h : each p vs = some (.error x)) :
    ∃ v ∈ vs, p v = some (.error x) := by
  induction vs with
  | nil => simp [each] at h
  | cons v vs ih =>
    simp only [each] at h
    split at h
    · simp at h
    · rename_i hv
      exact ⟨v, by simp, by rw [hv]; simpa using h⟩
    · split at h
      · simp at h
      · rename_i he
        simp only [Option.some.injEq, Except.error.injEq] at h
        subst h
        obtain ⟨w, hw, hx⟩ := ih he
        exact ⟨w, by simp [hw], hx⟩
      · simp at h

theorem finite_total {F : V → Facts V} {v : V} (h : Finite F v) : ∃ n r, shown F n v = some r := by
  induction h with
  | intro v _ ih =>
    have key : ∀ n, _ := fun n => show_succ F n v
    by_cases hc : (F v).custom = none
    · cases ho : (F v).own with
      | some o =>
        cases o with
        | leaf x =>
          refine ⟨1, ?_⟩
          have := key 0
          cases hp : print x <;> grind [lift]
        | optional o =>
          cases o with
          | none => exact ⟨1, by have := key 0; grind⟩
          | some w =>
            obtain ⟨n, r, hr⟩ := ih w (.optional hc ho)
            refine ⟨n + 1, ?_⟩
            have := key n
            unfold asValue at this
            cases r <;> grind
        | tuple vs =>
          obtain ⟨n, r, hr⟩ := each_total vs (fun w hw => ih w (.tuple hc ho hw))
          refine ⟨n + 1, ?_⟩
          have := key n
          unfold inBraces at this
          cases r <;> grind
      | none =>
        cases he : (F v).elems with
        | none => exact ⟨1, by have := key 0; grind⟩
        | some vs =>
          obtain ⟨n, r, hr⟩ := each_total vs (fun w hw => ih w (.range hc ho he hw))
          refine ⟨n + 1, ?_⟩
          have := key n
          unfold inBraces at this
          cases r <;> grind
    · refine ⟨1, ?_⟩
      have := key 0
      grind

theorem ok_inside {F : V → Facts V} {n : Nat} {v w : V} {t : Text} (h : shown F n v = some (.ok t)) (hw : Inside F w v) :
    ∃ m t', n = m + 1 ∧ shown F m w = some (.ok t') := by
  cases n with
  | zero => simp [shown] at h
  | succ n =>
    refine ⟨n, ?_⟩
    have key := show_succ F n v
    have hb : ∀ vs, inBraces (each (shown F n) vs) = some (.ok t) → w ∈ vs → ∃ t', shown F n w = some (.ok t') := by
      intro vs hv hm
      unfold inBraces at hv
      split at hv
      · simp at hv
      · simp at hv
      · rename_i he
        exact each_ok_mem he hm
    have hv : ∀ u, asValue (shown F n u) = some (.ok t) → ∃ t', shown F n u = some (.ok t') := by
      intro u hu
      unfold asValue at hu
      grind
    cases hw <;> grind

theorem ok_finite {F : V → Facts V} (n : Nat) : ∀ {v : V} {t : Text}, shown F n v = some (.ok t) → Finite F v := by
  induction n with
  | zero => intro v t h; simp [shown] at h
  | succ n ih =>
    intro v t h
    refine ⟨_, fun w hw => ?_⟩
    obtain ⟨m, t', hm, h'⟩ := ok_inside h hw
    simp only [Nat.add_right_cancel_iff] at hm
    subst hm
    exact ih h'

theorem error_source {F : V → Facts V} (n : Nat) : ∀ {v : V} {x : Fail}, shown F n v = some (.error x) →
    (∀ e, x = .thrown e → HasThrowing F v) ∧ (∀ s, x = .stop s → HasBad F v ∧ ∃ why, s = .ub why) := by
  induction n with
  | zero => intro v x h; simp [shown] at h
  | succ n ih =>
    intro v x h
    have hb : ∀ vs, inBraces (each (shown F n) vs) = some (.error x) → ∃ w ∈ vs, shown F n w = some (.error x) := by
      intro vs hv
      unfold inBraces at hv
      split at hv
      · simp at hv
      · rename_i he
        simp only [Option.some.injEq, Except.error.injEq] at hv
        subst hv
        exact each_error he
      · simp at hv
    have hin : ∀ w, Inside F w v → shown F n w = some (.error x) →
        (∀ e, x = .thrown e → HasThrowing F v) ∧ (∀ s, x = .stop s → HasBad F v ∧ ∃ why, s = .ub why) := by
      intro w hw hs
      obtain ⟨h1, h2⟩ := ih hs
      exact ⟨fun e he => .inside hw (h1 e he), fun s he => ⟨.inside hw (h2 s he).1, (h2 s he).2⟩⟩
    rcases show_succ F n v with ⟨c, hc, hs⟩ | ⟨hc, y, ho, hs⟩ | ⟨hc, ho, hs⟩ | ⟨hc, w, ho, hs⟩ | ⟨hc, vs, ho, hs⟩ |
      ⟨hc, ho, vs, he, hs⟩ | ⟨hc, ho, he, hs⟩ <;> rw [h] at hs
    · cases c with
      | ok t => simp [Except.mapError] at hs
      | error e =>
        simp only [Except.mapError, Option.some.injEq, Except.error.injEq] at hs
        subst hs
        exact ⟨fun _ _ => .here hc, by simp⟩
    · have hd := C44_defined y
      unfold lift at hs
      split at hs
      · simp at hs
      · rename_i z hz
        simp only [Option.some.injEq, Except.error.injEq] at hs
        subst hs
        have hbad : y.badString := by
          apply Classical.byContradiction
          intro hn
          obtain ⟨t, ht⟩ := hd.1.mpr hn
          rw [ht] at hz; simp at hz
        obtain ⟨why, hw⟩ := hd.2.mpr hbad
        rw [hw] at hz
        simp only [Except.error.injEq] at hz
        subst hz
        refine ⟨by simp, fun s hs' => ?_⟩
        simp only [Fail.stop.injEq] at hs'
        exact ⟨.here hc ho hbad, why, hs'.symm⟩
    · simp at hs
    · have : shown F n w = some (.error x) := by
        unfold asValue at hs
        grind
      exact hin w (.optional hc ho) this
    · obtain ⟨w, hw, hx⟩ := hb vs hs.symm
      exact hin w (.tuple hc ho hw) hx
    · obtain ⟨w, hw, hx⟩ := hb vs hs.symm
      exact hin w (.range hc ho he hw) hx
    · simp at hs

theorem ok_clean {F : V → Facts V} (n : Nat) : ∀ {v : V} {t : Text}, shown F n v = some (.ok t) → ¬ HasThrowing F v ∧ ¬ HasBad F v := by
  induction n with
  | zero => intro v t h; simp [shown] at h
  | succ n ih =>
    intro v t h
    have hin : ∀ w, Inside F w v → ¬ HasThrowing F w ∧ ¬ HasBad F w := by
      intro w hw
      obtain ⟨m, t', hm, h'⟩ := ok_inside h hw
      simp only [Nat.add_right_cancel_iff] at hm
      subst hm
      exact ih h'
    have key := show_succ F n v
    constructor
    · intro hx
      cases hx with
      | here hc =>
        rw [h] at key
        simp [hc, Except.mapError] at key
      | inside hw hx => exact (hin _ hw).1 hx
    · intro hx
      cases hx with
      | here hc ho hb =>
        rename_i y
        obtain ⟨why, hwhy⟩ := (C44_defined y).2.mpr hb
        rw [h] at key
        simp [hc, ho, hwhy, lift] at key
      | inside hw hx => exact (hin _ hw).2 hx

/-! ## Values -/

theorem each_vals {n : Nat} (vs : List Val) (h : ∀ v ∈ vs, shown valFacts n v = lift (print v)) :
    (∃ ts, each (shown valFacts n) vs = some (.ok ts) ∧ printFirst vs = .ok (commas ts)) ∨
    (∃ x, each (shown valFacts n) vs = some (.error (.stop x)) ∧ printFirst vs = .error x) := by
  induction vs with
  | nil => exact .inl ⟨[], rfl, rfl⟩
  | cons v vs ih =>
    have hv := h v (by simp)
    have ih := ih (fun w hw => h w (by simp [hw]))
    simp only [each, hv]
    cases vs with
    | nil => cases hp : print v <;> simp [printFirst, printRest, hp, lift, each, commas, bind, Except.bind, pure, Except.pure]
    | cons u vs =>
      have hf : printFirst (v :: u :: vs) = (print v).bind fun t => (printFirst (u :: vs)).map fun t' => t ++ (lit ", " ++ t') := by
        simp only [printFirst, printRest, bind, Except.bind, pure, Except.pure]
        cases print v <;> cases print u <;> cases printRest vs <;> simp [Except.map]
      rw [hf]
      cases hp : print v with
      | error x => exact .inr ⟨x, by simp [lift], by simp [Except.bind]⟩
      | ok t =>
        rcases ih with ⟨ts, h1, h2⟩ | ⟨x, h1, h2⟩
        · left
          have hts : ∃ t' ts', ts = t' :: ts' := by
            have := congrArg List.length (each_ok h1)
            cases ts with
            | nil => simp at this
            | cons a b => exact ⟨a, b, rfl⟩
          obtain ⟨t', ts', rfl⟩ := hts
          exact ⟨t :: t' :: ts', by simp [lift, h1], by simp [h2, Except.bind, Except.map, commas]⟩
        · exact .inr ⟨x, by simp [lift, h1], by simp [h2, Except.bind, Except.map]⟩

theorem common_depth {F : V → Facts V} {f : V → Except Fail Text} (vs : List V) (h : ∀ v ∈ vs, ∃ n, shown F n v = some (f v)) :
    ∃ n, ∀ v ∈ vs, shown F n v = some (f v) := by
  induction vs with
  | nil => exact ⟨0, by simp⟩
  | cons v vs ih =>
    obtain ⟨n, hn⟩ := h v (by simp)
    obtain ⟨m, hm⟩ := ih (fun w hw => h w (by simp [hw]))
    refine ⟨max n m, fun w hw => ?_⟩
    rcases List.mem_cons.mp hw with rfl | hw
    · exact show_mono F (Nat.le_max_left n m) hn
    · exact show_mono F (Nat.le_max_right n m) (hm w hw)

theorem lift_some (m : M Text) : ∃ r, lift m = some r := by
  cases m <;> simp [lift]

theorem common_vals (vs : List Val) (h : ∀ v ∈ vs, ∃ n, shown valFacts n v = lift (print v)) :
    ∃ n, ∀ v ∈ vs, shown valFacts n v = lift (print v) := by
  have hf : ∀ v : Val, lift (print v) = some ((print v).mapError .stop) := by
    intro v; cases print v <;> rfl
  simp only [hf] at h ⊢
  exact common_depth vs h

mutual

theorem show_val : (v : Val) → ∃ n, shown valFacts n v = lift (print v)
  | .custom t => ⟨1, rfl⟩
  | .location .. => ⟨1, rfl⟩
  | .nullopt => ⟨1, rfl⟩
  | .optional none => ⟨1, rfl⟩
  | .pointer _ => ⟨1, rfl⟩
  | .string _ => ⟨1, rfl⟩
  | .cstring _ => ⟨1, rfl⟩
  | .cwide _ _ => ⟨1, rfl⟩
  | .wide _ _ => ⟨1, rfl⟩
  | .chars _ _ => ⟨1, rfl⟩
  | .int _ => ⟨1, rfl⟩
  | .formatted _ => ⟨1, rfl⟩
  | .unknown => ⟨1, rfl⟩
  | .optional (some w) => by
    obtain ⟨n, hn⟩ := show_val w
    refine ⟨n + 1, ?_⟩
    have h : shown valFacts (n + 1) (.optional (some w)) = asValue (shown valFacts n w) := rfl
    rw [h, hn]
    simp only [print]
    cases print w <;> simp [lift, asValue, bind, Except.bind, pure, Except.pure]
  | .tuple vs => by
    obtain ⟨n, hn⟩ := common_vals vs (show_vals vs)
    refine ⟨n + 1, ?_⟩
    have h : shown valFacts (n + 1) (.tuple vs) = inBraces (each (shown valFacts n) vs) := rfl
    rw [h]
    simp only [print, printTuple_zero]
    rcases each_vals vs hn with ⟨ts, h1, h2⟩ | ⟨x, h1, h2⟩ <;>
      simp [h1, h2, inBraces, lift, bind, Except.bind, pure, Except.pure]
  | .range vs => by
    obtain ⟨n, hn⟩ := common_vals vs (show_vals vs)
    refine ⟨n + 1, ?_⟩
    have h : shown valFacts (n + 1) (.range vs) = inBraces (each (shown valFacts n) vs) := rfl
    rw [h]
    simp only [print]
    rcases each_vals vs hn with ⟨ts, h1, h2⟩ | ⟨x, h1, h2⟩ <;>
      simp [h1, h2, inBraces, lift, bind, Except.bind, pure, Except.pure]

theorem show_vals : (vs : List Val) → ∀ v ∈ vs, ∃ n, shown valFacts n v = lift (print v)
  | [] => by simp
  | v :: vs => by
    intro w hw
    rcases List.mem_cons.mp hw with h | h
    · rw [h]; exact show_val v
    · exact show_vals vs w h

end

/-! ## Calls -/

theorem call_scan {tr : Trace α} {w : World α} (h : Reach tr w) {m : Nat} (a : α) (hm : Event.mockCreated m ∈ tr.events) :
    ∃ es r, w.colls[m]? = some es ∧ scan w a es.reverse = .ok r ∧ (∀ e, e ∈ r.thrown ↔ tr.throws m a e) := by
  have hv := h.view.2
  rw [hv.mocks m] at hm
  have hm' : m < w.colls.length := hm
  have hes : w.colls[m]? = some w.colls[m] := by rw [List.getElem?_eq_getElem]
  have hcoll := h.view.1.colls m _ hes
  obtain ⟨hc1, _⟩ := candidates_spec w m
  obtain ⟨r, hr, _, _, _, r4⟩ := scan_ok h.view.1 a ((abs w).candidates m) hc1
  have hrev : (w.colls[m]).reverse = ((abs w).candidates m).map (·.id) := by
    rw [hcoll]; unfold Spec.State.candidates
    rw [List.map_reverse]
  refine ⟨_, r, hes, by rw [hrev]; exact hr, fun e => ?_⟩
  rw [hv.throws_iff, r4, List.mem_map]

theorem call_eq {tr : Trace α} {w : World α} (h : Reach tr w) {m : Nat} (a : α) (hm : Event.mockCreated m ∈ tr.events)
    (F : V → Facts V) (n : Nat) (args : List V) :
    (each (shown F n) args = none → call F n w args m a = none) ∧
    (∀ x, each (shown F n) args = some (.error (.stop x)) → call F n w args m a = some (.stop x)) ∧
    (∀ x, each (shown F n) args = some (.error (.thrown x)) → (∀ e, ¬ tr.throws m a e) →
      call F n w args m a = some (.threw x w)) ∧
    (∀ x, each (shown F n) args = some (.error (.thrown x)) → (∃ e, tr.throws m a e) →
      call F n w args m a = some (.stop (.terminate "make_match_report is noexcept"))) ∧
    (∀ ts, each (shown F n) args = some (.ok ts) → ∃ w' ev, w.step (.call m a) = .ok (w', ev) ∧
      call F n w args m a = some (.done w' ev)) := by
  obtain ⟨es, r, hes, hr, ht⟩ := call_scan h a hm
  obtain ⟨w', ev, hs⟩ := C10_total h a hm
  refine ⟨fun he => ?_, fun x he => ?_, fun x he hn => ?_, fun x he ⟨e, hn⟩ => ?_, fun ts he => ⟨w', ev, hs, ?_⟩⟩
  · simp [call, hes, hr, he]
  · simp [call, hes, hr, he]
  · have : r.thrown = [] := List.eq_nil_iff_forall_not_mem.mpr fun e hm => hn e ((ht e).mp hm)
    simp [call, hes, hr, he, this]
  · have : r.thrown ≠ [] := List.ne_nil_of_mem ((ht e).mpr hn)
    simp [call, hes, hr, he, this]
  · simp [call, hes, hr, he, hs]

theorem each_first {F : V → Facts V} {pre post : List V} {v : V} (h : ∀ u ∈ pre, ∃ n t, shown F n u = some (.ok t)) {x : Fail}
    (hv : ∃ n, shown F n v = some (.error x)) : ∃ n, each (shown F n) (pre ++ v :: post) = some (.error x) := by
  induction pre with
  | nil => obtain ⟨n, hn⟩ := hv; exact ⟨n, by simp [each, hn]⟩
  | cons u pre ih =>
    obtain ⟨n, t, hn⟩ := h u (by simp)
    obtain ⟨m, hm⟩ := ih (fun u hu => h u (by simp [hu]))
    refine ⟨max n m, ?_⟩
    have h2 : each (shown F (max n m)) (pre ++ v :: post) = some (.error x) :=
      each_mono _ (fun v _ r => show_mono F (Nat.le_max_right n m)) hm
    simp [each, show_mono F (Nat.le_max_left n m) hn, h2]

theorem each_endless {F : V → Facts V} {pre post : List V} {v : V} (h : ∀ u ∈ pre, ∃ n t, shown F n u = some (.ok t))
    (hv : ∀ n, shown F n v = none) (n : Nat) : each (shown F n) (pre ++ v :: post) = none := by
  induction pre with
  | nil => simp [each, hv]
  | cons u pre ih =>
    obtain ⟨k, t, hk⟩ := h u (by simp)
    have := ih (fun u hu => h u (by simp [hu]))
    simp only [List.cons_append, each, this]
    cases hs : shown F n u with
    | none => rfl
    | some r =>
      have h1 := show_mono F (Nat.le_max_left n k) hs
      have h2 := show_mono F (Nat.le_max_right n k) hk
      rw [h1] at h2
      simp only [Option.some.injEq] at h2
      subst h2
      rfl

theorem each_all {F : V → Facts V} {vs : List V} (h : ∀ u ∈ vs, ∃ n t, shown F n u = some (.ok t)) :
    ∃ n ts, each (shown F n) vs = some (.ok ts) := by
  induction vs with
  | nil => exact ⟨0, [], rfl⟩
  | cons u vs ih =>
    obtain ⟨n, t, hn⟩ := h u (by simp)
    obtain ⟨m, ts, hm⟩ := ih (fun u hu => h u (by simp [hu]))
    refine ⟨max n m, t :: ts, ?_⟩
    have h2 : each (shown F (max n m)) vs = some (.ok ts) := each_mono _ (fun v _ r => show_mono F (Nat.le_max_right n m)) hm
    simp [each, show_mono F (Nat.le_max_left n m) hn, h2]

theorem path_endless (format : List Text → Option Text) (n : Nat) (p : List Text) (h : ∃ c ∈ p, c ≠ []) :
    shown (pathFacts format) n p = none := by
  induction n generalizing p with
  | zero => rfl
  | succ n ih =>
    have : shown (pathFacts format) (n + 1) p =
        inBraces (each (shown (pathFacts format) n) (p.map fun c => if c.isEmpty then [] else [c])) := rfl
    rw [this]
    obtain ⟨c, hc, hne⟩ := h
    have key : each (shown (pathFacts format) n) (p.map fun c => if c.isEmpty then [] else [c]) = none := by
      clear this
      induction p with
      | nil => simp at hc
      | cons d p ihp =>
        simp only [List.map_cons, each]
        cases d with
        | cons x d => simp [ih [x :: d] ⟨x :: d, by simp, by simp⟩]
        | nil =>
          rcases List.mem_cons.mp hc with h | h
          · exact absurd h hne
          · cases n with
            | zero => rfl
            | succ n =>
              have : shown (pathFacts format) (n + 1) [] = some (.ok (lit "{  }")) := rfl
              simp only [List.isEmpty_nil, if_true, this, ihp h]
    rw [key]
    rfl

end Mimic.Shown
