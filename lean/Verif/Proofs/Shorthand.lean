import Verif.Spec.Shorthand

/-!
# Proofs about the arguments of `expect_call`
-/

set_option autoImplicit false

namespace Mimic.Shorthand

theorem textOf_ok {v : Val} {l : List Nat} : textOf v = .ok l ↔ HasText v l := by
  constructor
  · intro h
    cases v with
    | text l' => cases h; exact .object _
    | chars s =>
      cases s with
      | null => cases h
      | units u =>
        simp only [textOf] at h
        split at h
        · rename_i h0
          cases h
          have hd : u = u.takeWhile (· ≠ 0) ++ u.dropWhile (· ≠ 0) := (List.takeWhile_append_dropWhile).symm
          have hn : 0 ∉ u.takeWhile (· ≠ 0) := by
            intro hm
            have := List.all_takeWhile (p := fun x : Nat => decide (x ≠ 0)) (l := u)
            rw [List.all_eq_true] at this
            simpa using this 0 hm
          cases hr : u.dropWhile (· ≠ 0) with
          | nil =>
            rw [hr, List.append_nil] at hd
            exact (hn (hd ▸ h0)).elim
          | cons x rest =>
            have hx : x = 0 := by
              have := List.head?_dropWhile_not (p := fun x : Nat => decide (x ≠ 0)) (l := u)
              rw [hr] at this
              simpa using this
            rw [hr, hx] at hd
            generalize u.takeWhile (· ≠ 0) = t at *
            subst hd
            exact .cString _ _ hn
        · cases h
    | num n => cases h
    | addr a => cases h
    | pack vs => cases h
    | obj x => cases h
  · intro h
    cases h with
    | object => rfl
    | cString _ rest hn =>
      have : (l ++ 0 :: rest).takeWhile (· ≠ 0) = l := by
        rw [List.takeWhile_append_of_pos]
        · simp
        · intro x hx
          simp only [decide_eq_true_eq]
          rintro rfl
          exact hn hx
      simp only [textOf]
      rw [if_pos (by simp)]
      exact congrArg _ this

theorem HasText.unique {v : Val} {l l' : List Nat} (h : HasText v l) (h' : HasText v l') : l = l' := by
  have := (textOf_ok.mpr h).symm.trans (textOf_ok.mpr h')
  cases this; rfl

theorem isString_iff {t : Ty} : IsString t ↔ t.charType.isSome = true := by
  cases t <;> simp [IsString, Ty.charType]

theorem textOf_bad {t : Ty} {v : Val} (hs : IsString t) (ht : Typed t v) (h : ¬ Readable v) :
    ∃ why, textOf v = .error (.ub why) := by
  cases hx : textOf v with
  | ok l => exact (h ⟨l, textOf_ok.mp hx⟩).elim
  | error e =>
    rcases hs with ⟨c, rfl | rfl | rfl | rfl⟩
    · cases ht with
      | cstr _ s =>
        cases s with
        | null => cases hx; exact ⟨_, rfl⟩
        | units l => simp only [textOf] at hx; split at hx <;> cases hx; exact ⟨_, rfl⟩
    · cases ht with
      | array _ l => simp only [textOf] at hx; split at hx <;> cases hx; exact ⟨_, rfl⟩
    · cases ht; cases hx
    · cases ht; cases hx

theorem numEq_iff {s s' : Bool} {b b' : Nat} {x y : Int} (hx : InRange s b x) (hy : InRange s' b' y)
    (h : s ≠ s' → 0 ≤ x ∧ 0 ≤ y) : numEq s b s' b' x y = true ↔ x = y := by
  have hup : ∀ (s : Bool) (b : Nat) (x : Int), InRange s b x → x < (2 ^ b : Nat) := by
    intro s b x hx
    cases s with
    | false => exact hx.2
    | true =>
      have h1 : x < (2 ^ (b - 1) : Nat) := hx.2
      have h2 : 2 ^ (b - 1) ≤ 2 ^ b := Nat.pow_le_pow_right (by omega) (by omega)
      omega
  have hpr : ∀ (s : Bool) (b : Nat), b ≤ (promote s b).2 := by
    intro s b; unfold promote; split <;> simp <;> omega
  have hps : ∀ (s : Bool) (b : Nat), (promote s b).1 = false → s = false := by
    intro s b; unfold promote; split <;> simp
  have hmod : ∀ (B c : Nat) (z : Int), c ≤ B → 0 ≤ z → z < (2 ^ c : Nat) → z % (2 ^ B : Nat) = z := by
    intro B c z hc h0 h1
    have : 2 ^ c ≤ 2 ^ B := Nat.pow_le_pow_right (by omega) hc
    exact Int.emod_eq_of_lt h0 (by omega)
  have hcommon : ∀ a b : Bool × Nat, (commonType a b).1 = false →
      (a.1 = false ∨ b.1 = false) ∧ a.2 ≤ (commonType a b).2 ∧ b.2 ≤ (commonType a b).2 := by
    rintro ⟨a1, a2⟩ ⟨b1, b2⟩
    cases a1 <;> cases b1 <;> simp [commonType] <;> (try split) <;> simp_all <;> omega
  simp only [numEq, decide_eq_true_eq]
  generalize hc : commonType (promote s b) (promote s' b') = t
  obtain ⟨ts, tb⟩ := t
  cases ts with
  | true => simp [convertTo]
  | false =>
    have := hcommon (promote s b) (promote s' b') (by rw [hc])
    rw [hc] at this
    obtain ⟨h1, h2, h3⟩ := this
    have hnn : 0 ≤ x ∧ 0 ≤ y := by
      by_cases hss : s = s'
      · subst hss
        have : s = false := by rcases h1 with h1 | h1 <;> exact hps _ _ h1
        subst this
        exact ⟨hx.1, hy.1⟩
      · exact h hss
    simp only [convertTo, Bool.false_eq_true, if_false]
    rw [hmod tb b x (Nat.le_trans (hpr _ _) h2) hnn.1 (hup _ _ _ hx), hmod tb b' y (Nat.le_trans (hpr _ _) h3) hnn.2 (hup _ _ _ hy)]

theorem numEq_wraps {b b' : Nat} {x y : Int} (hx : InRange true b x) (hy : InRange false b' y) (h0 : x < 0) :
    numEq true b false b' x y = true ↔ Wraps true b x false b' y := by
  have hy1 : 0 ≤ y := hy.1
  have hy2 : y < (2 ^ b' : Nat) := hy.2
  have hx1 : -((2 ^ (b - 1) : Nat) : Int) ≤ x := hx.1
  simp only [numEq, decide_eq_true_eq, Wraps, true_and]
  by_cases hb : b' < 32
  · have hc : (commonType (promote true b) (promote false b')).1 = true := by
      unfold promote
      rw [if_pos hb]
      split <;> rfl
    simp only [convertTo, hc, if_true]
    constructor <;> intro h <;> omega
  · have hp' : promote false b' = (false, b') := by unfold promote; rw [if_neg hb]
    by_cases hle : b ≤ b'
    · have hc : commonType (promote true b) (promote false b') = (false, b') := by
        rw [hp']
        unfold promote commonType
        by_cases h32 : b < 32
        · simp only [h32, if_true, Bool.true_eq_false, if_false]; exact if_pos (by omega)
        · simp only [h32, if_false, Bool.true_eq_false, if_true]; exact if_pos (by simpa using hle)
      have hpow : 2 ^ (b - 1) ≤ 2 ^ b' := Nat.pow_le_pow_right (by omega) (by omega)
      rw [hc]
      simp only [convertTo, Bool.false_eq_true, if_false]
      rw [Int.emod_eq_of_lt hy1 hy2, ← Int.add_emod_right, Int.emod_eq_of_lt (by omega) (by omega)]
      constructor
      · intro h; exact ⟨hle, by omega, h0, h.symm⟩
      · intro h; exact h.2.2.2.symm
    · have hc : (commonType (promote true b) (promote false b')).1 = true := by
        rw [hp']
        unfold promote commonType
        have h32 : ¬ b < 32 := by omega
        simp only [h32, if_false, Bool.true_eq_false, if_true]
        rw [if_neg hle]
      simp only [convertTo, hc, if_true]
      constructor <;> intro h <;> omega

theorem commonType_comm (a b : Bool × Nat) : commonType a b = commonType b a := by
  obtain ⟨a1, a2⟩ := a
  obtain ⟨b1, b2⟩ := b
  cases a1 <;> cases b1 <;> simp [commonType, Nat.max_comm]

theorem numEq_comm (s : Bool) (b : Nat) (s' : Bool) (b' : Nat) (x y : Int) : numEq s b s' b' x y = numEq s' b' s b y x := by
  unfold numEq
  rw [commonType_comm, decide_eq_decide]
  exact eq_comm

theorem numEq_exact {s s' : Bool} {b b' : Nat} {x y : Int} (hx : InRange s b x) (hy : InRange s' b' y) :
    numEq s b s' b' x y = true ↔ x = y ∨ Wraps s b x s' b' y ∨ Wraps s' b' y s b x := by
  by_cases h : s ≠ s' → 0 ≤ x ∧ 0 ≤ y
  · rw [numEq_iff hx hy h]
    refine ⟨.inl, ?_⟩
    rintro (h1 | ⟨rfl, rfl, -, -, h1, -⟩ | ⟨rfl, rfl, -, -, h1, -⟩)
    · exact h1
    · have := h (by simp); omega
    · have := h (by simp); omega
  · have hne : s ≠ s' := fun he => h fun hn => absurd he hn
    cases s <;> cases s'
    · exact absurd rfl hne
    · have hx0 : 0 ≤ x := hx.1
      have hy0 : y < 0 := by
        by_cases hy0 : y < 0
        · exact hy0
        · exact absurd (fun _ => ⟨hx0, by omega⟩) h
      rw [numEq_comm, numEq_wraps hy hx hy0]
      refine ⟨fun h => .inr (.inr h), ?_⟩
      rintro (h1 | ⟨h1, -⟩ | h1)
      · omega
      · cases h1
      · exact h1
    · have hy0 : 0 ≤ y := hy.1
      have hx0 : x < 0 := by
        by_cases hx0 : x < 0
        · exact hx0
        · exact absurd (fun _ => ⟨by omega, hy0⟩) h
      rw [numEq_wraps hx hy hx0]
      refine ⟨fun h => .inr (.inl h), ?_⟩
      rintro (h1 | h1 | ⟨h1, -⟩)
      · omega
      · exact h1
      · cases h1
    · exact absurd rfl hne

theorem equalTo_cases {E : Classes} {p u : Ty} {eq : Val → Val → Bool} (h : equalTo E p u = some eq) :
    (∃ s b s' b', p = .num s b ∧ u = .num s' b' ∧ ∀ x y, eq (.num x) (.num y) = numEq s b s' b' x y) ∨
    (p = .ptr ∧ u = .ptr ∧ ∀ x y, eq (.addr x) (.addr y) = decide (x = y)) ∨
    (p = .ptr ∧ u = .nullptr ∧ ∀ x y, eq (.addr x) y = decide (x = none)) ∨
    (∃ c, p = .cstr c ∧ u = .nullptr ∧ ∀ x y, eq (.chars x) y = decide (x = .null)) ∨
    ((Custom p ∨ Custom u) ∧ E.equal p u = some eq) := by
  unfold equalTo at h
  split at h
  · cases h; exact Or.inl ⟨_, _, _, _, rfl, rfl, fun _ _ => rfl⟩
  · cases h; exact Or.inr (Or.inl ⟨rfl, rfl, fun _ _ => rfl⟩)
  · cases h; exact Or.inr (Or.inr (Or.inl ⟨rfl, rfl, fun _ _ => rfl⟩))
  · cases h; exact Or.inr (Or.inr (Or.inr (Or.inl ⟨_, rfl, rfl, fun _ _ => rfl⟩)))
  all_goals first
    | (cases h; done)
    | exact Or.inr (Or.inr (Or.inr (Or.inr ⟨by simp [Custom], h⟩)))

theorem matchesEq_some {E : Classes} {p ty : Ty} {x : Val} {t : Test} (h : matchesEq E p ⟨ty, x⟩ = some t)
    (h1 : ∀ u, ty ≠ .tuple [u]) :
    ∃ u eq, Decays ty u ∧ equalTo E p u = some eq ∧ t = fun target => .ok (eq target x) := by
  have key : ∀ u, Decays ty u → deduce ty = [u] → stored ty x = [x] →
      ∃ u eq, Decays ty u ∧ equalTo E p u = some eq ∧ t = fun target => .ok (eq target x) := by
    intro u hd h2 h3
    simp only [matchesEq, h2, h3] at h
    cases he : equalTo E p u with
    | none => rw [he] at h; cases h
    | some eq => rw [he] at h; cases h; exact ⟨u, eq, hd, he, rfl⟩
  cases ty with
  | pair a b => simp [matchesEq, deduce] at h
  | tuple ts =>
    unfold matchesEq at h
    simp only [deduce] at h
    split at h
    · exact (h1 _ rfl).elim
    · cases h
  | array c => exact key (.cstr c) (Or.inl ⟨c, rfl, rfl⟩) rfl rfl
  | _ => exact key _ (Or.inr ⟨fun c hc => (by cases hc), rfl⟩) rfl rfl

/-- What one argument asks for, where the comparison is defined and does not change signs. -/
theorem argMatcher_spec {E : Classes} {p : Ty} {a : Arg} {t : Test} {v : Val} (h : argMatcher E p a = some t)
    (hv : Typed p v) (ha : Typed a.ty a.val) (hr : IsString p → IsString a.ty → Readable v ∧ Readable a.val)
    (hs : ¬ SignChanges p a.ty v a.val) (h1 : ∀ u, a.ty ≠ .tuple [u]) :
    ∃ b, t v = .ok b ∧ (b = true ↔ Asks E p a v) := by
  obtain ⟨ty, x⟩ := a
  simp only at ha hr hs h1
  have hown : (∃ n m, ty = .cls n ∧ E.matcher n p = some m ∧ t = fun target => .ok (m x target)) ∨
      ((∀ n, ty = .cls n → E.matcher n p = none) ∧
        (if p.charType.isSome && ty.charType.isSome then matchesStrEq p ⟨ty, x⟩
          else if (equalTo E p ty).isSome then matchesEq E p ⟨ty, x⟩ else none) = some t) := by
    unfold argMatcher at h
    cases ty with
    | cls n =>
      simp only [ownMatcher] at h
      cases hm : E.matcher n p with
      | some m => rw [hm] at h; cases h; exact Or.inl ⟨n, m, rfl, hm, rfl⟩
      | none => rw [hm] at h; exact Or.inr ⟨fun n' hn => by cases hn; exact hm, h⟩
    | _ => exact Or.inr ⟨fun n' hn => (by cases hn), h⟩
  rcases hown with ⟨n, m, rfl, hm, rfl⟩ | ⟨hn, h⟩
  · refine ⟨_, rfl, ⟨fun hb => .matcher n m rfl hm hb, fun hk => ?_⟩⟩
    cases hk with
    | matcher n' m' he hm' hs' => cases he; rw [hm] at hm'; cases hm'; exact hs'
    | text l hp ha' => rcases ha' with ⟨c, h | h | h | h⟩ <;> cases h
    | number s s' b b' hp ha' => cases ha'
    | pointer hp ha' => cases ha'
    | null ha' => cases ha'
    | equal t eq hn' => rw [hn' n rfl] at hm; cases hm
  · split at h
    · rename_i hstr
      simp only [Bool.and_eq_true] at hstr
      have hps := isString_iff.mpr hstr.1
      have has := isString_iff.mpr hstr.2
      obtain ⟨⟨l, hl⟩, ⟨l', hl'⟩⟩ := hr hps has
      unfold matchesStrEq at h
      split at h
      · cases h
        refine ⟨decide (l = l'), ?_, ?_⟩
        · simp [textOf_ok.mpr hl, textOf_ok.mpr hl', bind, Except.bind, pure, Except.pure]
        · rw [decide_eq_true_iff]
          constructor
          · rintro rfl; exact .text l hps has hl' hl
          · intro hk
            cases hk with
            | matcher n m he => rw [show ty = _ from he] at has; rcases has with ⟨c, h | h | h | h⟩ <;> cases h
            | text k _ _ h1 h2 => exact (hl.unique h2).trans (hl'.unique h1).symm
            | number s s' b b' hp => subst hp; rcases hps with ⟨c, h | h | h | h⟩ <;> cases h
            | pointer hp => subst hp; rcases hps with ⟨c, h | h | h | h⟩ <;> cases h
            | null ha' => rw [show ty = _ from ha'] at has; rcases has with ⟨c, h | h | h | h⟩ <;> cases h
            | equal t eq _ hc =>
              rcases hc with hc | hc
              · rcases hps with ⟨c, rfl | rfl | rfl | rfl⟩ <;> simp [Custom] at hc
              · have hc' : Custom ty := hc
                rcases has with ⟨c, rfl | rfl | rfl | rfl⟩ <;> simp [Custom] at hc'
      · cases h
    · rename_i hstr
      split at h
      · rename_i heq
        obtain ⟨u, eq, hd, he, rfl⟩ := matchesEq_some h h1
        refine ⟨_, rfl, ?_⟩
        have hnostr : ¬ (IsString p ∧ IsString ty) := by
          rintro ⟨h1, h2⟩
          exact hstr (by simp [isString_iff.mp h1, isString_iff.mp h2])
        have hdn : ∀ t', Decays ty t' → t' = u := by
          intro t' ht'
          rcases hd with ⟨c, rfl, rfl⟩ | ⟨hd, rfl⟩ <;> rcases ht' with ⟨c', h', rfl⟩ | ⟨ht', rfl⟩
          · cases h'; rfl
          · exact (ht' c rfl).elim
          · exact (hd c' h').elim
          · rfl
        have hdecay : (∀ c, u ≠ .cstr c) → ty = u := by
          intro hu
          rcases hd with ⟨c, _, hc⟩ | ⟨_, hd⟩
          · exact (hu c hc).elim
          · exact hd.symm
        rcases equalTo_cases he with ⟨s, b, s', b', rfl, rfl, hq⟩ | ⟨rfl, rfl, hq⟩ | ⟨rfl, rfl, hq⟩ | ⟨c, rfl, rfl, hq⟩ | ⟨hc, hq⟩
        · obtain rfl : ty = .num s' b' := hdecay (fun c hc => by cases hc)
          cases hv with
          | num _ _ i hi =>
            cases ha with
            | num _ _ j hj =>
              rw [hq, numEq_iff hi hj]
              · constructor
                · rintro rfl; exact .number _ _ _ _ rfl rfl rfl
                · intro hk
                  cases hk with
                  | matcher n m he => cases he
                  | text l hp => rcases hp with ⟨c, h | h | h | h⟩ <;> cases h
                  | number _ _ _ _ _ _ h => cases h; rfl
                  | pointer hp => cases hp
                  | null ha' => cases ha'
                  | equal t eq _ hc => rcases hc with hc | hc <;> simp [Custom] at hc
              · intro hss
                by_cases hneg : i < 0 ∨ j < 0
                · exact (hs ⟨s, b, s', b', i, j, rfl, rfl, rfl, rfl, hss, hneg⟩).elim
                · omega
        · obtain rfl : ty = .ptr := hdecay (fun c hc => by cases hc)
          cases hv with
          | ptr i =>
            cases ha with
            | ptr j =>
              rw [hq, decide_eq_true_iff]
              constructor
              · rintro rfl; exact .pointer rfl rfl rfl
              · intro hk
                cases hk with
                | matcher n m he => cases he
                | text l hp => rcases hp with ⟨c, h | h | h | h⟩ <;> cases h
                | number _ _ _ _ hp => cases hp
                | pointer _ _ h => cases h; rfl
                | null ha' => cases ha'
                | equal t eq _ hc => rcases hc with hc | hc <;> simp [Custom] at hc
        · obtain rfl : ty = .nullptr := hdecay (fun c hc => by cases hc)
          cases hv with
          | ptr i =>
            rw [hq, decide_eq_true_iff]
            constructor
            · rintro rfl; exact .null rfl (Or.inl ⟨rfl, rfl⟩)
            · intro hk
              cases hk with
              | matcher n m he => cases he
              | text l hp => rcases hp with ⟨c, h | h | h | h⟩ <;> cases h
              | number _ _ _ _ hp => cases hp
              | pointer _ ha' => cases ha'
              | null _ hp => rcases hp with ⟨_, h⟩ | ⟨⟨_, h⟩, _⟩ <;> cases h; rfl
              | equal t eq _ hc => rcases hc with hc | hc <;> simp [Custom] at hc
        · obtain rfl : ty = .nullptr := hdecay (fun c hc => by cases hc)
          cases hv with
          | cstr _ i =>
            rw [hq, decide_eq_true_iff]
            constructor
            · rintro rfl; exact .null rfl (Or.inr ⟨⟨_, rfl⟩, rfl⟩)
            · intro hk
              cases hk with
              | matcher n m he => cases he
              | text l _ ha' => rcases ha' with ⟨c, h | h | h | h⟩ <;> cases h
              | number _ _ _ _ hp => cases hp
              | pointer hp => cases hp
              | null _ hp => rcases hp with ⟨h, _⟩ | ⟨_, h⟩ <;> cases h; rfl
              | equal t eq _ hc => rcases hc with hc | hc <;> simp [Custom] at hc
        · have hc' : Custom p ∨ Custom ty := by
            rcases hc with hc | hc
            · exact Or.inl hc
            · rcases hd with ⟨c, rfl, rfl⟩ | ⟨_, rfl⟩
              · simp [Custom] at hc
              · exact Or.inr hc
          constructor
          · intro hb; exact .equal u eq hn hc' hd hq hb
          · intro hk
            cases hk with
            | matcher n m he hm => rw [hn n he] at hm; cases hm
            | text l hp ha' => exact (hnostr ⟨hp, ha'⟩).elim
            | number _ _ _ _ hp ha' => subst hp; rw [show ty = _ from ha'] at hc'; simp [Custom] at hc'
            | pointer hp ha' => subst hp; rw [show ty = _ from ha'] at hc'; simp [Custom] at hc'
            | null ha' hp =>
              rw [show ty = _ from ha'] at hc'
              rcases hp with ⟨rfl, _⟩ | ⟨⟨c, rfl⟩, _⟩ <;> simp [Custom] at hc'
            | equal t' eq' _ _ hd' he' hb =>
              cases hdn _ hd'
              rw [hq] at he'
              cases he'
              exact hb
      · cases h

theorem requirements_cons {E : Classes} {i : Nat} {ps : List Ty} {as : List Arg} {rs : List (Nat × Test)}
    (h : requirements E i ps as = some rs) :
    (ps = [] ∧ as = [] ∧ rs = []) ∨ ∃ p ps' a as' t rs', ps = p :: ps' ∧ as = a :: as' ∧ rs = (i, t) :: rs' ∧
      argMatcher E p a = some t ∧ requirements E (i + 1) ps' as' = some rs' := by
  match ps, as with
  | [], [] => cases h; exact Or.inl ⟨rfl, rfl, rfl⟩
  | p :: ps', a :: as' =>
    simp only [requirements, Option.bind_eq_bind, Option.bind_eq_some_iff] at h
    obtain ⟨t, ht, rs', hrs, he⟩ := h
    cases he
    exact Or.inr ⟨p, ps', a, as', t, rs', rfl, rfl, rfl, ht, hrs⟩
  | [], _ :: _ => cases h
  | _ :: _, [] => cases h

theorem requirements_spec {E : Classes} {call : List Val} : ∀ {ps : List Ty} {as : List Arg} {i : Nat} {rs : List (Nat × Test)},
    requirements E i ps as = some rs → call.length = i + ps.length →
    (∀ (k : Nat) p a v, ps[k]? = some p → as[k]? = some a → call[i + k]? = some v → Typed p v ∧ Typed a.ty a.val ∧
      (IsString p → IsString a.ty → Readable v ∧ Readable a.val) ∧ ¬ SignChanges p a.ty v a.val ∧ ∀ u, a.ty ≠ .tuple [u]) →
    ∃ bs, results call rs = .ok bs ∧
      (bs.all id = true ↔ ∀ (k : Nat) p a v, ps[k]? = some p → as[k]? = some a → call[i + k]? = some v → Asks E p a v) := by
  intro ps
  induction ps with
  | nil =>
    intro as i rs h hl hc
    rcases requirements_cons h with ⟨_, _, rfl⟩ | ⟨_, _, _, _, _, _, hh, _⟩
    · exact ⟨[], rfl, by simp⟩
    · cases hh
  | cons p ps ih =>
    intro as i rs h hl hc
    rcases requirements_cons h with ⟨hh, _⟩ | ⟨_, _, a, as', t, rs', hh, rfl, rfl, ht, hrs⟩
    · cases hh
    · cases hh
      have hlt : i < call.length := by simp at hl; omega
      obtain ⟨h1, h2, h3, h4, h5⟩ := hc 0 p a call[i] rfl rfl (List.getElem?_eq_getElem hlt)
      obtain ⟨b, hb, hb'⟩ := argMatcher_spec ht h1 h2 h3 h4 h5
      obtain ⟨bs, hbs, hbs'⟩ := ih hrs (by simp at hl; omega) (fun k p' a' v hp ha hv =>
        hc (k + 1) p' a' v (by simpa using hp) (by simpa using ha) (by rw [← hv]; congr 1; omega))
      refine ⟨b :: bs, ?_, ?_⟩
      · simp [results, testOne, List.getElem?_eq_getElem hlt, hb, hbs, bind, Except.bind, pure, Except.pure]
      · simp only [List.all_cons, Bool.and_eq_true, id, hb']
        rw [hbs']
        constructor
        · rintro ⟨h1, h2⟩ k p' a' v hp ha hv
          cases k with
          | zero =>
            cases hp; cases ha
            rw [Nat.add_zero, List.getElem?_eq_getElem hlt] at hv
            cases hv; exact h1
          | succ k => exact h2 k p' a' v (by simpa using hp) (by simpa using ha) (by rw [← hv]; congr 1; omega)
        · intro hall
          refine ⟨hall 0 p a _ rfl rfl (List.getElem?_eq_getElem hlt), fun k p' a' v hp ha hv => ?_⟩
          exact hall (k + 1) p' a' v (by simpa using hp) (by simpa using ha) (by rw [← hv]; congr 1; omega)

theorem argMatcher_total {E : Classes} {p : Ty} {a : Arg} {t : Test} {v : Val} (h : argMatcher E p a = some t)
    (hv : Typed p v) (ha : Typed a.ty a.val) :
    (∃ b, t v = .ok b) ∨ ∃ why, t v = .error (.ub why) := by
  unfold argMatcher at h
  split at h
  · rename_i m hm
    cases h
    unfold ownMatcher at hm
    split at hm
    · simp only [Option.map_eq_some_iff] at hm
      obtain ⟨m, _, rfl⟩ := hm
      exact Or.inl ⟨_, rfl⟩
    · cases hm
  · split at h
    · rename_i hstr
      simp only [Bool.and_eq_true] at hstr
      have hps := isString_iff.mpr hstr.1
      have has := isString_iff.mpr hstr.2
      unfold matchesStrEq at h
      split at h
      · cases h
        by_cases h1 : Readable v
        · obtain ⟨l, hl⟩ := h1
          by_cases h2 : Readable a.val
          · obtain ⟨l', hl'⟩ := h2
            exact Or.inl ⟨decide (l = l'), by simp only [textOf_ok.mpr hl, textOf_ok.mpr hl', bind, Except.bind, pure, Except.pure]⟩
          · obtain ⟨why, hw⟩ := textOf_bad has ha h2
            exact Or.inr ⟨why, by simp only [textOf_ok.mpr hl, hw, bind, Except.bind]⟩
        · obtain ⟨why, hw⟩ := textOf_bad hps hv h1
          exact Or.inr ⟨why, by simp only [hw, bind, Except.bind]⟩
      · cases h
    · split at h
      · unfold matchesEq at h
        split at h
        · simp only [Option.map_eq_some_iff] at h
          obtain ⟨eq, _, rfl⟩ := h
          exact Or.inl ⟨_, rfl⟩
        · cases h
      · cases h

theorem argMatcher_unreadable {E : Classes} {p : Ty} {a : Arg} {t : Test} {v : Val} (h : argMatcher E p a = some t)
    (hv : Typed p v) (ha : Typed a.ty a.val) (hps : IsString p) (has : IsString a.ty) (hr : ¬ (Readable v ∧ Readable a.val)) :
    ∃ why, t v = .error (.ub why) := by
  have hown : ownMatcher E p a = none := by
    unfold ownMatcher
    rcases has with ⟨c, h | h | h | h⟩ <;> rw [h]
  unfold argMatcher at h
  rw [hown] at h
  simp only [isString_iff.mp hps, isString_iff.mp has, Bool.and_self, if_true] at h
  unfold matchesStrEq at h
  split at h
  · cases h
    by_cases h1 : Readable v
    · obtain ⟨l, hl⟩ := h1
      obtain ⟨why, hw⟩ := textOf_bad has ha (fun h2 => hr ⟨⟨l, hl⟩, h2⟩)
      exact ⟨why, by simp only [textOf_ok.mpr hl, hw, bind, Except.bind]⟩
    · obtain ⟨why, hw⟩ := textOf_bad hps hv h1
      exact ⟨why, by simp only [hw, bind, Except.bind]⟩
  · cases h

theorem requirements_unreadable {E : Classes} {call : List Val} : ∀ {ps : List Ty} {as : List Arg} {i : Nat} {rs : List (Nat × Test)},
    requirements E i ps as = some rs → call.length = i + ps.length →
    (∀ (k : Nat) p a v, ps[k]? = some p → as[k]? = some a → call[i + k]? = some v → Typed p v ∧ Typed a.ty a.val) →
    (∃ (k : Nat) (p : Ty) (a : Arg) (v : Val), ps[k]? = some p ∧ as[k]? = some a ∧ call[i + k]? = some v ∧ IsString p ∧
      IsString a.ty ∧ ¬ (Readable v ∧ Readable a.val)) →
    ∃ why, results call rs = .error (.ub why) := by
  intro ps
  induction ps with
  | nil =>
    rintro as i rs h hl hc ⟨k, p, a, v, hp, -⟩
    simp at hp
  | cons p ps ih =>
    rintro as i rs h hl hc ⟨k, p', a', v, hp, ha, hv, hps, has, hr⟩
    rcases requirements_cons h with ⟨hh, _⟩ | ⟨_, _, a, as', t, rs', hh, rfl, rfl, ht, hrs⟩
    · cases hh
    · cases hh
      have hlt : i < call.length := by simp at hl; omega
      obtain ⟨h1, h2⟩ := hc 0 p a call[i] rfl rfl (List.getElem?_eq_getElem hlt)
      rcases argMatcher_total ht h1 h2 with ⟨b, hb⟩ | ⟨why, hw⟩
      · cases k with
        | zero =>
          cases hp; cases ha
          rw [Nat.add_zero, List.getElem?_eq_getElem hlt] at hv
          cases hv
          obtain ⟨why, hw⟩ := argMatcher_unreadable ht h1 h2 hps has hr
          rw [hb] at hw; cases hw
        | succ k =>
          obtain ⟨why, hw⟩ := ih hrs (by simp at hl; omega) (fun k p' a' v hp ha hv =>
            hc (k + 1) p' a' v (by simpa using hp) (by simpa using ha) (by rw [← hv]; congr 1; omega))
            ⟨k, p', a', v, by simpa using hp, by simpa using ha, by rw [← hv]; congr 1; omega, hps, has, hr⟩
          exact ⟨why, by simp [results, testOne, List.getElem?_eq_getElem hlt, hb, hw, bind, Except.bind]⟩
      · exact ⟨why, by simp [results, testOne, List.getElem?_eq_getElem hlt, hw, bind, Except.bind]⟩

theorem requirements_isSome {E : Classes} : ∀ {ps : List Ty} {as : List Arg} {i : Nat}, ps.length = as.length →
    ((requirements E i ps as).isSome = true ↔
      ∀ (k : Nat) p a, ps[k]? = some p → as[k]? = some a → (argMatcher E p a).isSome = true) := by
  intro ps
  induction ps with
  | nil =>
    intro as i h
    cases as with
    | nil => simp [requirements]
    | cons a as => cases h
  | cons p ps ih =>
    intro as i h
    cases as with
    | nil => cases h
    | cons a as =>
      have := ih (as := as) (i := i + 1) (by simpa using h)
      constructor
      · intro hs k p' a' hp ha
        obtain ⟨rs, hrs⟩ := Option.isSome_iff_exists.mp hs
        rcases requirements_cons hrs with ⟨hh, _⟩ | ⟨_, _, _, _, t, rs', hh, hh', rfl, ht, hrs'⟩
        · cases hh
        · cases hh; cases hh'
          cases k with
          | zero => cases hp; cases ha; simp [ht]
          | succ k => exact this.mp (by simp [hrs']) k p' a' (by simpa using hp) (by simpa using ha)
      · intro hall
        have h0 := hall 0 p a rfl rfl
        have hrest := this.mpr (fun k p' a' hp ha => hall (k + 1) p' a' (by simpa using hp) (by simpa using ha))
        obtain ⟨t, ht⟩ := Option.isSome_iff_exists.mp h0
        obtain ⟨rs, hrs⟩ := Option.isSome_iff_exists.mp hrest
        simp [requirements, ht, hrs]

end Mimic.Shorthand
