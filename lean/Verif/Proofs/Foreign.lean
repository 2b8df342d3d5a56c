import Verif.Spec.Foreign

/-!
# Proofs: expectations and control policies of the user's own
-/

set_option autoImplicit false

namespace Mimic.Foreign

variable {ω α ρ : Type}

/-! ## Lists -/

theorem Those.congr {P Q : Nat → Prop} {es xs : List Nat} (h : Those P es xs) (hpq : ∀ e ∈ es, P e ↔ Q e) : Those Q es xs := by
  induction h with
  | nil => exact .nil
  | take hp _ ih => exact .take ((hpq _ (by simp)).1 hp) (ih (fun e he => hpq e (by simp [he])))
  | skip hp _ ih => exact .skip (fun hq => hp ((hpq _ (by simp)).2 hq)) (ih (fun e he => hpq e (by simp [he])))

theorem Those.unique {P : Nat → Prop} {es xs ys : List Nat} (h : Those P es xs) (h' : Those P es ys) : xs = ys := by
  induction h generalizing ys with
  | nil => cases h'; rfl
  | take hp _ ih =>
    cases h' with
    | take _ h => rw [ih h]
    | skip hn _ => exact absurd hp hn
  | skip hn _ ih =>
    cases h' with
    | take hp _ => exact absurd hp hn
    | skip _ h => exact ih h

theorem Those.mem {P : Nat → Prop} {es xs : List Nat} (h : Those P es xs) (e : Nat) : e ∈ xs ↔ e ∈ es ∧ P e := by
  induction h with
  | nil => simp
  | take hp _ ih => grind
  | skip hp _ ih => grind

theorem Those.sublist {P : Nat → Prop} {es xs : List Nat} (h : Those P es xs) : xs.Sublist es := by
  induction h with
  | nil => exact .slnil
  | take _ _ ih => exact ih.cons_cons _
  | skip _ _ ih => exact ih.cons _

theorem Those.split {P : Nat → Prop} {es xs : List Nat} (h : Those P es xs) {l l' : List Nat} {r : Nat} (hx : xs = l ++ r :: l') :
    ∃ k k', es = k ++ r :: k' ∧ Those P k l ∧ Those P k' l' := by
  induction h generalizing l with
  | nil => simp at hx
  | @take e es xs hp h ih =>
    cases l with
    | nil =>
      simp only [List.nil_append, List.cons.injEq] at hx
      obtain ⟨rfl, rfl⟩ := hx
      exact ⟨[], es, rfl, .nil, h⟩
    | cons y l =>
      simp only [List.cons_append, List.cons.injEq] at hx
      obtain ⟨rfl, hx⟩ := hx
      obtain ⟨k, k', h1, h2, h3⟩ := ih hx
      exact ⟨e :: k, k', by rw [h1]; rfl, .take hp h2, h3⟩
  | @skip e es xs hp h ih =>
    obtain ⟨k, k', h1, h2, h3⟩ := ih hx
    exact ⟨e :: k, k', by rw [h1]; rfl, .skip hp h2, h3⟩

/-! ## Ratings -/

theorem better_loop (ry rx : List Rating) : ∀ acc : Int, hasBetterRatingLoop ry rx acc = false ↔
    (∀ l ∈ rx, ∃ r ∈ ry, r.tag = l.tag) ∧ acc + rx.length < 2 * (rx.filter (lower ry)).length := by
  induction rx with
  | nil => intro acc; simp [hasBetterRatingLoop]
  | cons l rx ih =>
    intro acc
    simp only [hasBetterRatingLoop]
    cases hf : ry.find? (fun r => r.tag == l.tag) with
    | none =>
      have : ¬ ∃ r ∈ ry, r.tag = l.tag := by
        rintro ⟨r, hr, ht⟩
        have := List.find?_eq_none.mp hf r hr
        simp [ht] at this
      simp only [Bool.true_eq_false, false_iff]
      rintro ⟨h, -⟩
      exact this (h l (by simp))
    | some r =>
      have hr : ∃ r ∈ ry, r.tag = l.tag := ⟨r, List.mem_of_find?_eq_some hf, by have := List.find?_some hf; simpa using this⟩
      have hl : lower ry l = decide (l.priority < r.priority) := by
        unfold lower
        have : ry.find? (fun r => decide (r.tag = l.tag)) = some r := hf
        rw [this]
      simp only [ih, List.forall_mem_cons, hr, true_and, List.length_cons, List.filter_cons, hl, decide_eq_true_eq]
      split <;> (try simp only [List.length_cons]) <;> constructor <;> rintro ⟨h1, h2⟩ <;> refine ⟨h1, ?_⟩ <;> omega

theorem better_iff (rx ry : List Rating) : hasBetterRating rx ry = false ↔
    (∀ l ∈ rx, ∃ r ∈ ry, r.tag = l.tag) ∧ rx.length < 2 * (rx.filter (lower ry)).length := by
  unfold hasBetterRating
  rw [better_loop]
  constructor <;> rintro ⟨h1, h2⟩ <;> refine ⟨h1, ?_⟩ <;> omega

/-! ## Asking all expectations -/

/-- The report is the one that its expectation has given, and the expectation can resolve the call. -/
def Stands (O : Objects ω α ρ) (p : ω) (a : α) (m : MatchReport) : Prop :=
  ∃ min max count rs, m.control = .applicable min max count rs ∧ Rated O p a m.exp rs

theorem Rated.unique {O : Objects ω α ρ} {p : ω} {a : α} {e : Nat} {r r' : List Rating} (h : Rated O p a e r) (h' : Rated O p a e r') : r = r' := by
  obtain ⟨_, _, _, _, h1, -⟩ := h
  obtain ⟨_, _, _, _, h2, -⟩ := h'
  rw [h1] at h2
  simp only [Option.some.injEq, Prod.mk.injEq, ControlState.applicable.injEq] at h2
  exact h2.1.2.2.2

theorem Can.accepts {O : Objects ω α ρ} {p : ω} {a : α} {e : Nat} (h : Can O p a e) : Accepts O p a e := by
  obtain ⟨_, _, _, _, _, h1, h2⟩ := h
  exact ⟨_, _, h1, h2⟩

theorem Accepts.not_throws {O : Objects ω α ρ} {p : ω} {a : α} {e : Nat} (h : Accepts O p a e) : ¬ Throws O p a e := by
  obtain ⟨_, _, h1, _⟩ := h
  intro ht
  rw [Throws, h1] at ht
  cases ht

theorem scan_spec (O : Objects ω α ρ) (p : ω) (a : α) (es : List Nat) {r : Scan} (h : scan O p a es = .ok r) :
    Those (Throws O p a) es r.thrown ∧ Those (Can O p a) es (r.full.map (·.exp)) ∧ (∀ m ∈ r.full, Stands O p a m) ∧
    Those (fun e => Accepts O p a e ∧ ¬ Can O p a e) es (r.inapplicable.map (·.exp)) ∧
    Those (fun e => ¬ Throws O p a e ∧ ¬ Accepts O p a e) es (r.none.map (·.exp)) := by
  induction es generalizing r with
  | nil =>
    simp only [scan, Except.ok.injEq] at h
    subst h
    exact ⟨.nil, .nil, by simp, .nil, .nil⟩
  | cons e es ih =>
    unfold scan at h
    cases hm : O.matching e p a with
    | none =>
      simp only [hm] at h
      split at h
      · cases hs : scan O p a es with
        | error x => rw [hs] at h; cases h
        | ok q =>
          simp only [hs, Except.ok.injEq] at h
          subst h
          obtain ⟨h1, h2, h3, h4, h5⟩ := ih hs
          have ht : Throws O p a e := hm
          have ha : ¬ Accepts O p a e := fun h => h.not_throws ht
          exact ⟨.take ht h1, .skip (fun h => ha h.accepts) h2, h3, .skip (fun h => ha h.1) h4, .skip (fun h => h.1 ht) h5⟩
      · cases h
    | some v =>
      obtain ⟨c, rs⟩ := v
      simp only [hm] at h
      cases hs : scan O p a es with
      | error x => rw [hs] at h; cases h
      | ok q =>
        simp only [hs] at h
        obtain ⟨h1, h2, h3, h4, h5⟩ := ih hs
        have ht : ¬ Throws O p a e := by rw [Throws, hm]; simp
        have hacc : Accepts O p a e ↔ ∀ r ∈ rs, r.1 = true := by
          constructor
          · rintro ⟨c', rs', h', hall⟩
            rw [hm] at h'
            simp only [Option.some.injEq, Prod.mk.injEq] at h'
            rw [h'.2]
            exact hall
          · intro h'
            exact ⟨c, rs, hm, h'⟩
        have hcan : Can O p a e ↔ (∀ r ∈ rs, r.1 = true) ∧ c.isApplicable = true := by
          constructor
          · rintro ⟨rt, mi, ma, co, rs', h', hall⟩
            rw [hm] at h'
            simp only [Option.some.injEq, Prod.mk.injEq] at h'
            rw [h'.2, h'.1]
            exact ⟨hall, rfl⟩
          · rintro ⟨h', hc⟩
            cases c with
            | applicable mi ma co rt => exact ⟨rt, mi, ma, co, rs, hm, h'⟩
            | _ => simp [ControlState.isApplicable] at hc
        simp only [evaluateMatchReport] at h
        by_cases hall : ∀ r ∈ rs, r.1 = true
        · have hall' : rs.all (·.1) = true := by simpa using hall
          by_cases hc : c.isApplicable = true
          · simp only [hall', hc, Bool.not_true, Bool.false_eq_true, ↓reduceIte, Except.ok.injEq] at h
            subst h
            have hk := hcan.2 ⟨hall, hc⟩
            refine ⟨.skip ht h1, .take hk h2, ?_, .skip (fun h => h.2 hk) h4, .skip (fun h => h.2 hk.accepts) h5⟩
            intro m hm'
            rcases List.mem_cons.mp hm' with rfl | hm'
            · cases c with
              | applicable mi ma co rt => exact ⟨mi, ma, co, rt, rfl, mi, ma, co, rs, hm, hall⟩
              | _ => simp [ControlState.isApplicable] at hc
            · exact h3 m hm'
          · have hc' : c.isApplicable = false := by simpa using hc
            simp only [hall', hc', Bool.not_true, Bool.not_false, Bool.false_eq_true, ↓reduceIte, Except.ok.injEq] at h
            subst h
            have hk : ¬ Can O p a e := fun h => hc (hcan.1 h).2
            exact ⟨.skip ht h1, .skip hk h2, h3, .take ⟨hacc.2 hall, hk⟩ h4, .skip (fun h => h.2 (hacc.2 hall)) h5⟩
        · have hall' : rs.all (·.1) = false := by
            cases hx : rs.all (·.1) with
            | false => rfl
            | true => exact absurd (by simpa using hx) hall
          simp only [hall', Bool.not_false, ↓reduceIte, Except.ok.injEq] at h
          subst h
          have hna : ¬ Accepts O p a e := fun h => hall (hacc.1 h)
          exact ⟨.skip ht h1, .skip (fun h => hna h.accepts) h2, h3, .skip (fun h => hna h.1) h4, .take ⟨ht, hna⟩ h5⟩

theorem scan_ok_iff (O : Objects ω α ρ) (p : ω) (a : α) (es : List Nat) :
    (∃ r, scan O p a es = .ok r) ↔ ∀ e ∈ es, Throws O p a e → O.reportable e p = true := by
  induction es with
  | nil => simp [scan]
  | cons e es ih =>
    rw [List.forall_mem_cons, ← ih]
    simp only [scan, Throws]
    cases hm : O.matching e p a with
    | none =>
      cases hr : O.reportable e p with
      | false => simp
      | true =>
        cases hs : scan O p a es with
        | error x => simp
        | ok q => simp
    | some v =>
      obtain ⟨c, rs⟩ := v
      cases hs : scan O p a es with
      | error x => simp
      | ok q =>
        simp only [reduceCtorEq, false_implies, true_and, Except.ok.injEq, exists_eq', iff_true]
        split <;> exact ⟨_, rfl⟩

theorem scan_error (O : Objects ω α ρ) (p : ω) (a : α) (es : List Nat) {x : Stop} (h : scan O p a es = .error x) : ∃ t, x = .terminate t := by
  induction es generalizing x with
  | nil => cases h
  | cons e es ih =>
    unfold scan at h
    cases hm : O.matching e p a with
    | none =>
      simp only [hm] at h
      split at h
      · cases hs : scan O p a es with
        | error y =>
          simp only [hs, Except.error.injEq] at h
          subst h
          exact ih hs
        | ok q => rw [hs] at h; cases h
      · simp only [Except.error.injEq] at h
        exact ⟨_, h.symm⟩
    | some v =>
      obtain ⟨c, rs⟩ := v
      simp only [hm] at h
      cases hs : scan O p a es with
      | error y =>
        simp only [hs, Except.error.injEq] at h
        subst h
        exact ih hs
      | ok q =>
        simp only [hs] at h
        split at h <;> cases h

/-! ## Choosing -/

theorem pick_spec (O : Objects ω α ρ) (p : ω) (a : α) (ms : List MatchReport) : ∀ m, Stands O p a m → (∀ n ∈ ms, Stands O p a n) →
    ∃ b, pickLoop m ms = .ok b ∧ Chosen O p a m.exp (ms.map (·.exp)) b.exp := by
  induction ms with
  | nil => intro m _ _; exact ⟨m, rfl, .done _⟩
  | cons n ms ih =>
    intro m hm hall
    have hn := hall n (by simp)
    have hrest : ∀ x ∈ ms, Stands O p a x := fun x hx => hall x (by simp [hx])
    obtain ⟨_, _, _, rm, hmc, hmr⟩ := id hm
    obtain ⟨_, _, _, rn, hnc, hnr⟩ := id hn
    have e1 : m.ratings = .ok rm := by simp [MatchReport.ratings, hmc]
    have e2 : n.ratings = .ok rn := by simp [MatchReport.ratings, hnc]
    simp only [pickLoop, e1, e2, bind, Except.bind, List.map_cons]
    have hg : GivesWay O p a m.exp n.exp ↔ hasBetterRating rm rn = false := by
      rw [better_iff]
      constructor
      · rintro ⟨rx, ry, h1, h2, h3⟩
        rw [hmr.unique h1, hnr.unique h2]
        exact h3
      · intro h3
        exact ⟨rm, rn, hmr, hnr, h3⟩
    cases hb : hasBetterRating rm rn with
    | true =>
      obtain ⟨b, h1, h2⟩ := ih m hm hrest
      exact ⟨b, by simpa using h1, .stay (by rw [hg, hb]; simp) h2⟩
    | false =>
      obtain ⟨b, h1, h2⟩ := ih n hn hrest
      exact ⟨b, by simpa using h1, .move (hg.2 hb) h2⟩

theorem Chosen.unique {O : Objects ω α ρ} {p : ω} {a : α} {x r r' : Nat} {ys : List Nat} (h : Chosen O p a x ys r) (h' : Chosen O p a x ys r') :
    r = r' := by
  induction h with
  | done => cases h'; rfl
  | move hg _ ih =>
    cases h' with
    | move _ h => exact ih h
    | stay hn _ => exact absurd hg hn
  | stay hn _ ih =>
    cases h' with
    | move hg _ => exact absurd hg hn
    | stay _ h => exact ih h

theorem Chosen.mem {O : Objects ω α ρ} {p : ω} {a : α} {x r : Nat} {ys : List Nat} (h : Chosen O p a x ys r) : r ∈ x :: ys := by
  induction h with
  | done => simp
  | move _ _ ih => grind
  | stay _ _ ih => grind

/-- The one chosen splits the list: it does not give way to any older one, and it is the first one or a younger one gave way to it. -/
theorem Chosen.split {O : Objects ω α ρ} {p : ω} {a : α} {x r : Nat} {ys : List Nat} (h : Chosen O p a x ys r) :
    ∃ l l', x :: ys = l ++ r :: l' ∧ (∀ y ∈ l', ¬ GivesWay O p a r y) ∧ (l = [] ∨ ∃ z ∈ l, GivesWay O p a z r) := by
  induction h with
  | done x => exact ⟨[], [], rfl, by simp, .inl rfl⟩
  | @move x y r ys hg _ ih =>
    obtain ⟨l, l', h1, h2, h3⟩ := ih
    refine ⟨x :: l, l', by rw [h1]; rfl, h2, .inr ?_⟩
    rcases h3 with rfl | ⟨z, hz, hzg⟩
    · simp only [List.nil_append, List.cons.injEq] at h1
      exact ⟨x, by simp, by rw [← h1.1]; exact hg⟩
    · exact ⟨z, by simp [hz], hzg⟩
  | @stay x y r ys hn _ ih =>
    obtain ⟨l, l', h1, h2, h3⟩ := ih
    cases l with
    | nil =>
      simp only [List.nil_append, List.cons.injEq] at h1
      obtain ⟨rfl, rfl⟩ := h1
      refine ⟨[], y :: ys, rfl, ?_, .inl rfl⟩
      intro z hz
      rcases List.mem_cons.mp hz with rfl | hz
      · exact hn
      · exact h2 z hz
    | cons z l =>
      simp only [List.cons_append, List.cons.injEq] at h1
      obtain ⟨rfl, rfl⟩ := h1
      refine ⟨x :: y :: l, l', rfl, h2, .inr ?_⟩
      rcases h3 with h3 | ⟨z, hz, hzg⟩
      · cases h3
      · rcases List.mem_cons.mp hz with rfl | hz
        · exact ⟨z, by simp, hzg⟩
        · exact ⟨z, by simp [hz], hzg⟩

/-! ## Calls -/

theorem call_spec (O : Objects ω α ρ) (s s' : State ω) (a : α) (o : Out ρ) (h : call O s a = .ok (s', o)) :
    s'.members = s.members ∧ Called O s.rest a s.members.reverse s'.rest o := by
  unfold call at h
  cases hs : scan O s.rest a s.members.reverse with
  | error x => rw [hs] at h; cases h
  | ok r =>
    obtain ⟨h1, h2, h3, h4, h5⟩ := scan_spec O _ a _ hs
    simp only [hs] at h
    cases hf : r.full with
    | cons m ms =>
      rw [hf, List.map_cons] at h2
      obtain ⟨b, hb, hch⟩ := pick_spec O s.rest a ms m (h3 m (by simp [hf])) (fun n hn => h3 n (by simp [hf, hn]))
      simp only [hf, List.isEmpty_cons, Bool.not_false, ↓reduceIte, pickBestMatch, hb] at h
      rcases hc : O.consume b.exp s.rest a with ⟨p', k⟩
      cases k with
      | false =>
        simp only [hc, Except.ok.injEq, Prod.mk.injEq] at h
        obtain ⟨rfl, rfl⟩ := h
        exact ⟨rfl, .broken h1 h2 hch hc⟩
      | true =>
        simp only [hc, Except.ok.injEq, Prod.mk.injEq] at h
        obtain ⟨rfl, rfl⟩ := h
        exact ⟨rfl, .resolved h1 h2 hch hc rfl⟩
    | nil =>
      rw [hf, List.map_nil] at h2
      have hno : ∀ e ∈ s.members.reverse, ¬ Can O s.rest a e := fun e he hce => by
        have := (h2.mem e).2 ⟨he, hce⟩
        simp at this
      have h4' : Those (Accepts O s.rest a) s.members.reverse (r.inapplicable.map (·.exp)) :=
        h4.congr (fun e he => ⟨fun h => h.1, fun h => ⟨h, hno e he⟩⟩)
      cases hi : r.inapplicable with
      | cons m ms =>
        simp only [hf, hi, List.isEmpty_nil, List.isEmpty_cons, Bool.not_true, Bool.not_false, Bool.false_eq_true, ↓reduceIte, Except.ok.injEq,
          Prod.mk.injEq] at h
        obtain ⟨rfl, rfl⟩ := h
        rw [hi] at h4'
        exact ⟨rfl, .notNow h1 h2 h4' (by simp)⟩
      | nil =>
        simp only [hf, hi, List.isEmpty_nil, Bool.not_true, Bool.false_eq_true, ↓reduceIte, Except.ok.injEq, Prod.mk.injEq] at h
        obtain ⟨rfl, rfl⟩ := h
        rw [hi, List.map_nil] at h4'
        have hna : ∀ e ∈ s.members.reverse, ¬ Accepts O s.rest a e := fun e he hce => by
          have := (h4'.mem e).2 ⟨he, hce⟩
          simp at this
        exact ⟨rfl, .never h1 h4' (h5.congr (fun e he => ⟨fun h => h.1, fun h => ⟨h, hna e he⟩⟩))⟩

theorem call_ok_iff (O : Objects ω α ρ) (s : State ω) (a : α) :
    (∃ s' o, call O s a = .ok (s', o)) ↔ ∀ e ∈ s.members, Throws O s.rest a e → O.reportable e s.rest = true := by
  have key := scan_ok_iff O s.rest a s.members.reverse
  simp only [List.mem_reverse] at key
  rw [← key]
  constructor
  · rintro ⟨s', o, h⟩
    unfold call at h
    cases hs : scan O s.rest a s.members.reverse with
    | error x => rw [hs] at h; cases h
    | ok r => exact ⟨r, rfl⟩
  · rintro ⟨r, hs⟩
    obtain ⟨-, -, h3, -, -⟩ := scan_spec O _ a _ hs
    unfold call
    simp only [hs]
    cases hf : r.full with
    | cons m ms =>
      obtain ⟨b, hb, -⟩ := pick_spec O s.rest a ms m (h3 m (by simp [hf])) (fun n hn => h3 n (by simp [hf, hn]))
      simp only [List.isEmpty_cons, Bool.not_false, ↓reduceIte, pickBestMatch, hb]
      split <;> exact ⟨_, _, rfl⟩
    | nil =>
      simp only [List.isEmpty_nil, Bool.not_true, Bool.false_eq_true, ↓reduceIte]
      split <;> exact ⟨_, _, rfl⟩

theorem call_error (O : Objects ω α ρ) (s : State ω) (a : α) {x : Stop} (h : call O s a = .error x) : ∃ t, x = .terminate t := by
  cases hs : scan O s.rest a s.members.reverse with
  | error y =>
    unfold call at h
    simp only [hs, Except.error.injEq] at h
    subst h
    exact scan_error O _ a _ hs
  | ok r =>
    have h1 := (scan_ok_iff O s.rest a s.members.reverse).1 ⟨r, hs⟩
    simp only [List.mem_reverse] at h1
    obtain ⟨s', o, h2⟩ := (call_ok_iff O s a).2 h1
    rw [h2] at h
    cases h

theorem Called.unique {O : Objects ω α ρ} {p q q' : ω} {a : α} {es : List Nat} {o o' : Out ρ} (h : Called O p a es q o)
    (h' : Called O p a es q' o') : q = q' ∧ o = o' := by
  have hsub : ∀ {is : List Nat}, Those (Accepts O p a) es is → is = [] → ∀ {c : Nat} {cs : List Nat}, Those (Can O p a) es (c :: cs) → False := by
    intro is h1 h2 c cs h3
    have hc := (h3.mem c).1 (by simp)
    have := (h1.mem c).2 ⟨hc.1, hc.2.accepts⟩
    rw [h2] at this
    cases this
  cases h with
  | resolved h1 h2 h3 h4 h5 =>
    cases h' with
    | resolved g1 g2 g3 g4 g5 =>
      cases h1.unique g1; cases h2.unique g2; cases h3.unique g3; rw [h4] at g4; cases g4; rw [h5] at g5; cases g5; exact ⟨rfl, rfl⟩
    | broken g1 g2 g3 g4 => cases h1.unique g1; cases h2.unique g2; cases h3.unique g3; rw [h4] at g4; cases g4
    | notNow g1 g2 => cases h2.unique g2
    | never g1 g2 => exact (hsub g2 rfl h2).elim
  | broken h1 h2 h3 h4 =>
    cases h' with
    | resolved g1 g2 g3 g4 g5 => cases h1.unique g1; cases h2.unique g2; cases h3.unique g3; rw [h4] at g4; cases g4
    | broken g1 g2 g3 g4 => cases h1.unique g1; cases h2.unique g2; cases h3.unique g3; rw [h4] at g4; cases g4; exact ⟨rfl, rfl⟩
    | notNow g1 g2 => cases h2.unique g2
    | never g1 g2 => exact (hsub g2 rfl h2).elim
  | notNow h1 h2 h3 h4 =>
    cases h' with
    | resolved g1 g2 => cases h2.unique g2
    | broken g1 g2 => cases h2.unique g2
    | notNow g1 g2 g3 g4 => cases h1.unique g1; cases h3.unique g3; exact ⟨rfl, rfl⟩
    | never g1 g2 => exact (h4 (h3.unique g2)).elim
  | never h1 h2 h3 =>
    cases h' with
    | resolved g1 g2 => exact (hsub h2 rfl g2).elim
    | broken g1 g2 => exact (hsub h2 rfl g2).elim
    | notNow g1 g2 g3 g4 => exact (g4 (g3.unique h2)).elim
    | never g1 g2 g3 => cases h1.unique g1; cases h3.unique g3; exact ⟨rfl, rfl⟩

/-! ## Histories -/

theorem FTrace.present_snoc (th : FTrace ω α ρ) (op : FOp ω α) (o : Out ρ) : FTrace.present (th ++ [(op, o)]) =
    match op with
    | .push e => e :: th.present
    | .remove e => th.present.filter (· ≠ e)
    | _ => th.present := by
  unfold FTrace.present
  rw [List.foldl_append]
  rfl

theorem FTrace.took_snoc (th : FTrace ω α ρ) (op : FOp ω α) (o : Out ρ) (e : Nat) : FTrace.took (th ++ [(op, o)]) e =
    th.took e ++
      match op with
      | .call a => if Event.fullMatch e ∈ o.events then [a] else []
      | _ => [] := by
  unfold FTrace.took
  rw [List.filterMap_append]
  congr 1
  cases op with
  | call a =>
    simp only [List.filterMap_cons, List.filterMap_nil]
    split <;> simp_all
  | _ => rfl

theorem FReach.members {O : Objects ω α ρ} {p₀ : ω} {th : FTrace ω α ρ} {s : State ω} (h : FReach O p₀ th s) :
    s.members.reverse = th.present ∧ th.present.Nodup := by
  induction h with
  | init => exact ⟨rfl, List.nodup_nil⟩
  | @step th s s' op o _ hs ih =>
    obtain ⟨h1, h2⟩ := ih
    rw [FTrace.present_snoc]
    cases op with
    | change f =>
      simp only [Foreign.step, Except.ok.injEq, Prod.mk.injEq] at hs
      obtain ⟨rfl, -⟩ := hs
      exact ⟨h1, h2⟩
    | push e =>
      simp only [Foreign.step] at hs
      split at hs
      · cases hs
      · rename_i hc
        simp only [Except.ok.injEq, Prod.mk.injEq] at hs
        obtain ⟨rfl, -⟩ := hs
        refine ⟨by simp [h1], List.nodup_cons.mpr ⟨?_, h2⟩⟩
        rw [← h1]
        simpa using hc
    | remove e =>
      have hm : s'.members = s.members.erase e := by
        simp only [Foreign.step] at hs
        split at hs
        · split at hs
          · cases hs; rfl
          · split at hs <;> · cases hs; rfl
        · cases hs
      have hnd : s.members.Nodup := by
        rw [← h1] at h2
        have := List.pairwise_reverse.mp h2
        exact this.imp (fun h => Ne.symm h)
      simp only [hm]
      refine ⟨?_, h2.filter _⟩
      rw [hnd.erase_eq_filter, ← h1, List.filter_reverse]
      congr 1
      apply List.filter_congr
      intro x _
      by_cases hx : x = e <;> simp [hx]
    | call a =>
      simp only [Foreign.step] at hs
      rw [(call_spec O s s' a o hs).1]
      exact ⟨h1, h2⟩

theorem FReach.mem {O : Objects ω α ρ} {p₀ : ω} {th : FTrace ω α ρ} {s : State ω} (h : FReach O p₀ th s) (e : Nat) :
    e ∈ s.members ↔ e ∈ th.present := by
  rw [← h.members.1, List.mem_reverse]

theorem Called.place {σ : Type} {O : Objects ω α ρ} {p q : ω} {a : α} {es : List Nat} {o : Out ρ} (h : Called O p a es q o) {e : Nat}
    {place : ω → σ} {use : σ → α → σ} (hp : Private O e place use) :
    place q = if Event.fullMatch e ∈ o.events then use (place p) a else place p := by
  cases h with
  | @resolved ts cs c e' p' p'' x h1 h2 h3 h4 h5 =>
    by_cases he : e' = e
    · subst he
      have := hp.own p a
      simp only [h4, ↓reduceIte, h5] at this
      simp [this]
    · have a1 := (hp.others e' p a he).1
      have a2 := (hp.others e' p' a he).2
      rw [h4] at a1
      rw [h5] at a2
      rw [if_neg]
      · exact a2.trans a1
      · simp [Ne.symm he]
  | @broken ts cs c e' p' h1 h2 h3 h4 =>
    by_cases he : e' = e
    · subst he
      have := hp.own p a
      simp only [h4, Bool.false_eq_true, ↓reduceIte] at this
      simp [this]
    · have a1 := (hp.others e' p a he).1
      rw [h4] at a1
      rw [if_neg]
      · exact a1
      · simp [Ne.symm he]
  | notNow => simp
  | never => simp

/-! ## The library's own expectations -/

theorem scan_library (w : World α) (a : α) (es : List Nat) {r : Scan} (h : Mimic.scan w a es = .ok r) : scan (library α) w a es = .ok r := by
  induction es generalizing r with
  | nil => exact h
  | cons e es ih =>
    unfold Mimic.scan at h
    unfold scan
    cases hd : w.deref e with
    | error x => rw [hd] at h; cases h
    | ok x =>
      simp only [hd, bind, Except.bind] at h
      cases hm : x.matchReport e w.seqs a with
      | error y => simp only [hm] at h; cases h
      | ok rep =>
        simp only [hm] at h
        cases hs : Mimic.scan w a es with
        | error y => simp only [hs] at h; cases h
        | ok q =>
          simp only [hs] at h
          have hq := ih hs
          cases rep with
          | none =>
            have : (library α).matching e w a = none := by simp [library, hd, hm]
            simp only [this, hq]
            exact h
          | some rep =>
            have h1 : (library α).matching e w a = some (rep.control, rep.results) := by simp [library, hd, hm]
            have h2 : rep.exp = e := by
              unfold Exp.matchReport at hm
              cases hc : x.control.state w.seqs with
              | error y => rw [hc] at hm; cases hm
              | ok st =>
                simp only [hc, bind, Except.bind] at hm
                split at hm
                · cases hm
                · cases hm; rfl
            have h3 : ({ exp := e, control := rep.control, results := rep.results } : MatchReport) = rep := by rw [← h2]
            simp only [h1, hq, h3]
            cases hv : evaluateMatchReport rep <;> simp only [hv] at h ⊢ <;> exact h

theorem call_library (w w' : World α) (c : Nat) (es : List Nat) (a : α) (evs : List Event) (b : Option Nat) (hc : w.colls[c]? = some es)
    (h : w.handleCall c a = .ok (w', evs, b)) :
    call (library α) { members := es, rest := w } a = .ok ({ members := es, rest := w' },
      { events := evs, touches := es.reverse.map .asked ++ (b.toList.map .consumed ++ b.toList.map .finalized), result := b }) := by
  unfold World.handleCall at h
  simp only [hc] at h
  cases hs : Mimic.scan w a es.reverse with
  | error x => rw [hs] at h; cases h
  | ok r =>
    simp only [hs, bind, Except.bind] at h
    unfold call
    simp only [scan_library w a es.reverse hs]
    cases hf : r.full with
    | cons m ms =>
      simp only [hf, List.isEmpty_cons, Bool.not_false, ↓reduceIte] at h ⊢
      cases hp : pickBestMatch (m :: ms) with
      | error x => simp only [hp] at h; cases h
      | ok best =>
        simp only [hp] at h ⊢
        cases hw : w.consume best.exp with
        | error x => simp only [hw] at h; cases h
        | ok w2 =>
          simp only [hw] at h
          cases h
          have : (library α).consume best.exp w a = (w', true) := by simp [library, hw]
          simp only [this]
          rfl
    | nil =>
      simp only [hf, List.isEmpty_nil, Bool.not_true, Bool.false_eq_true, ↓reduceIte] at h ⊢
      cases hi : r.inapplicable with
      | cons m ms =>
        simp only [hi, List.isEmpty_cons, Bool.not_false, ↓reduceIte] at h ⊢
        cases h
        simp
      | nil =>
        simp only [hi, List.isEmpty_nil, Bool.not_true, Bool.false_eq_true, ↓reduceIte] at h ⊢
        cases h
        simp

end Mimic.Foreign
