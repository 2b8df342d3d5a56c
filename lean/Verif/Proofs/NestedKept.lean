import Verif.Proofs.NestedLocks

/-!
# Lemmas about histories with matchers that call mocks, without any assumption about what they call
-/

set_option autoImplicit false

namespace Mimic.Nested

variable {α : Type}

/-- What is kept in all histories. -/
structure Kept (nh : NTrace α) (s : Store α) : Prop where
  len : s.asks.length = s.w.exps.length
  asks : ∀ e : Nat, s.asks[e]? = nh.findSome? (asksStep e)
  decl : ∀ e : Nat, (nh.flat.decl e).map (·.mock) = (s.w.exps[e]?).map (·.coll)
  dead : ∀ (e : Nat) (x : Exp (Seen α)), s.w.exps[e]? = some x → x.alive = false → Event.destroyed e ∈ nh.flat.events
  colls : ∀ (e : Nat) (x : Exp (Seen α)), s.w.exps[e]? = some x → x.alive = true →
    ∃ es, s.w.colls[x.coll]? = some es ∧ e ∈ es

theorem decl_calls {P : Nat → Prop} {tr new : Trace (Seen α)} (h : Calls P new) (e : Nat) : Trace.decl (tr ++ new) e = tr.decl e := by
  induction new generalizing tr with
  | nil => simp
  | cons st new ih =>
    obtain ⟨op, ev⟩ := st
    rw [show tr ++ (op, ev) :: new = (tr ++ [(op, ev)]) ++ new by simp, ih (fun st hst => h st (by simp [hst]))]
    obtain ⟨⟨m, c, h1, _⟩, _⟩ := h (op, ev) (by simp)
    simp only at h1
    subst h1
    exact decl_snoc_none rfl

theorem events_append (tr tr' : Trace (Seen α)) : Trace.events (tr ++ tr') = tr.events ++ tr'.events := by simp [Trace.events]

/-- Releasing a sequence leaves the expectations alone. -/
theorem release_keeps {w w' : World (Seen α)} {q : Nat} {ev : List Event} (h : w.release q = .ok (w', ev)) :
    w'.exps = w.exps ∧ w'.colls = w.colls := by
  unfold World.release at h
  split at h
  · simp only [Except.ok.injEq, Prod.mk.injEq] at h
    rw [← h.1]; exact ⟨rfl, rfl⟩
  · simp only [bind, Except.bind, pure, Except.pure] at h
    split at h
    · simp at h
    · split at h
      · simp at h
      · split at h <;>
        · simp only [Except.ok.injEq, Prod.mk.injEq] at h
          rw [← h.1]; exact ⟨rfl, rfl⟩

theorem releaseAll_keeps {l : List Nat} {w w' : World (Seen α)} {ev : List Event} (h : w.releaseAll l = .ok (w', ev)) :
    w'.exps = w.exps ∧ w'.colls = w.colls := by
  induction l generalizing w w' ev with
  | nil =>
    simp only [World.releaseAll, Except.ok.injEq, Prod.mk.injEq] at h
    rw [← h.1]; exact ⟨rfl, rfl⟩
  | cons q l ih =>
    simp only [World.releaseAll, bind, Except.bind, pure, Except.pure] at h
    split at h
    · simp at h
    · rename_i r hr
      split at h
      · simp at h
      · rename_i r' hr'
        simp only [Except.ok.injEq, Prod.mk.injEq] at h
        obtain ⟨rfl, rfl⟩ := h
        obtain ⟨h1, h2⟩ := release_keeps hr
        obtain ⟨h3, h4⟩ := ih hr'
        exact ⟨h3.trans h1, h4.trans h2⟩

/-- What the end of an expectation changes. -/
theorem destroy_keeps {w w' : World (Seen α)} {e : Nat} {ev : List Event} (h : w.destroyExp e = .ok (w', ev)) :
    ∃ x es, w.exps[e]? = some x ∧ w.colls[x.coll]? = some es ∧ w'.exps = w.exps.set e { x with alive := false } ∧
      w'.colls = w.colls.set x.coll (es.erase e) ∧ Event.destroyed e ∈ ev := by
  unfold World.destroyExp at h
  split at h
  · simp at h
  · rename_i x hx
    split at h
    · simp at h
    · split at h
      · simp at h
      · rename_i es hes
        simp only [bind, Except.bind, pure, Except.pure] at h
        split at h
        · simp at h
        · split at h
          · simp at h
          · rename_i r hr
            simp only [Except.ok.injEq, Prod.mk.injEq] at h
            obtain ⟨rfl, rfl⟩ := h
            obtain ⟨h1, h2⟩ := releaseAll_keeps hr
            exact ⟨x, es, hx, hes, h1, h2, by simp⟩

/-- What a new expectation changes. -/
theorem expect_keeps {w w' : World (Seen α)} {m : Nat} {min max : Int} {tags : List Nat} {ps : List (Policy (Seen α))}
    {ev : List Event} (h : w.expect m min max tags ps = .ok (w', ev)) :
    (ev = [.rejected] ∧ w' = w) ∨
    (ev = [.created w.exps.length] ∧ ∃ es c, w.colls[m]? = some es ∧
      w'.exps = w.exps ++ [{ coll := m, control := c, policies := ps, alive := true }] ∧
      w'.colls = w.colls.set m (es ++ [w.exps.length])) := by
  unfold World.expect at h
  split at h
  · simp at h
  · rename_i es hes
    split at h
    · split at h
      · simp only [bind, Except.bind, pure, Except.pure] at h
        split at h
        · simp at h
        · rename_i r hr
          split at h
          · simp at h
          · simp only [Except.ok.injEq, Prod.mk.injEq] at h
            obtain ⟨rfl, rfl⟩ := h
            exact Or.inr ⟨rfl, es, _, hes, rfl, rfl⟩
      · simp only [pure, Except.pure, Except.ok.injEq, Prod.mk.injEq] at h
        obtain ⟨rfl, rfl⟩ := h
        exact Or.inl ⟨rfl, rfl⟩
    · simp at h

theorem asksStep_none {e : Nat} {op : NOp α} {tr : Trace (Seen α)} (h : ∀ m min max tags asks, op ≠ .expect m min max tags asks) :
    asksStep e (op, tr) = none := by
  cases op with
  | expect m min max tags asks => exact absurd rfl (h m min max tags asks)
  | _ => rfl

theorem reach_kept {nh : NTrace α} {s : Store α} (h : NReach nh s) : Kept nh s := by
  induction h with
  | init => exact ⟨rfl, by simp [Store.init], by simp [Store.init, World.init, NTrace.flat, Trace.decl],
      by simp [Store.init, World.init], by simp [Store.init, World.init]⟩
  | @step nh s s' op tr hr hs g =>
    -- operations that change neither the expectations nor whose they are
    have quiet : (∀ m min max tags asks, op ≠ .expect m min max tags asks) → s'.asks = s.asks →
        (∀ e, fixed s'.w e = fixed s.w e) → (∀ (m : Nat) es, s.w.colls[m]? = some es → s'.w.colls[m]? = some es) →
        (∀ e, Trace.decl (nh.flat ++ tr) e = nh.flat.decl e) → s'.w.exps.length = s.w.exps.length → Kept (nh ++ [(op, tr)]) s' := by
      intro hop h1 h2 h3 h4 h5
      have back : ∀ (e : Nat) (x : Exp (Seen α)), s'.w.exps[e]? = some x →
          ∃ y, s.w.exps[e]? = some y ∧ y.coll = x.coll ∧ y.alive = x.alive := by
        intro e x hx
        have := h2 e
        simp only [fixed, hx, Option.map_some] at this
        cases hy : s.w.exps[e]? with
        | none => simp [hy] at this
        | some y =>
          simp only [hy, Option.map_some, Option.some.injEq, Prod.mk.injEq] at this
          exact ⟨y, rfl, this.1.symm, this.2.symm⟩
      refine ⟨by rw [h1, h5, g.len], fun e => ?_, fun e => ?_, fun e x hx ha => ?_, fun e x hx ha => ?_⟩
      · rw [List.findSome?_append, h1, g.asks e]
        simp [asksStep_none hop]
      · rw [NTrace.flat_snoc, h4, g.decl e]
        have := h2 e
        unfold fixed at this
        cases hx : s'.w.exps[e]? with
        | none =>
          cases hy : s.w.exps[e]? with
          | none => rfl
          | some y => simp [hx, hy] at this
        | some x =>
          obtain ⟨y, hy, hc, _⟩ := back e x hx
          simp [hy, hc]
      · obtain ⟨y, hy, _, hya⟩ := back e x hx
        rw [NTrace.flat_snoc, events_append]
        exact List.mem_append_left _ (g.dead e y hy (hya.trans ha))
      · obtain ⟨y, hy, hyc, hya⟩ := back e x hx
        obtain ⟨es, k1, k2⟩ := g.colls e y hy (hya.trans ha)
        exact ⟨es, h3 _ _ (hyc ▸ k1), k2⟩
    cases op with
    | newSequence st =>
      simp only [Store.step, Store.plain, World.step, Except.ok.injEq, Prod.mk.injEq] at hs
      obtain ⟨rfl, rfl⟩ := hs
      exact quiet (by simp) rfl (fun _ => rfl) (fun _ _ h => h) (fun e => decl_snoc_none rfl) rfl
    | newMock =>
      simp only [Store.step, Store.plain, World.step, Except.ok.injEq, Prod.mk.injEq] at hs
      obtain ⟨rfl, rfl⟩ := hs
      refine quiet (by simp) rfl (fun _ => rfl) (fun m es h => ?_) (fun e => decl_snoc_none rfl) rfl
      simp only
      rw [List.getElem?_append_left (List.getElem?_eq_some_iff.mp h).1]
      exact h
    | dropSequence q =>
      simp only [Store.step, Store.plain, World.step] at hs
      split at hs
      · simp at hs
      · rename_i w' ev hw
        simp only [Except.ok.injEq, Prod.mk.injEq] at hs
        obtain ⟨rfl, rfl⟩ := hs
        split at hw
        · obtain ⟨h1, h2⟩ := release_keeps hw
          exact quiet (by simp) rfl (fun e => by simp only [fixed, h1]) (fun m es h => by simp only [h2]; exact h)
            (fun e => decl_snoc_none rfl) (by simp only [h1])
        · simp at hw
    | call m a =>
      simp only [Store.step] at hs
      split at hs
      · simp at hs
      · rename_i s1 tr1 r hc
        simp only [Except.ok.injEq, Prod.mk.injEq] at hs
        obtain ⟨rfl, rfl⟩ := hs
        obtain ⟨q1, q2⟩ := call_keeps _ _ _ _ _ _ _ _ hc
        refine quiet (by simp) q1.asks q1.exps (fun m es h => by rw [q1.colls]; exact h) (decl_calls q2) ?_
        have none_iff : ∀ (w : World (Seen α)) (e : Nat), fixed w e = none ↔ w.exps.length ≤ e := by
          intro w e
          simp [fixed]
        have l1 := none_iff s1.w s.w.exps.length
        have l2 := none_iff s.w s.w.exps.length
        have l3 := none_iff s1.w s1.w.exps.length
        have l4 := none_iff s.w s1.w.exps.length
        rw [q1.exps] at l1 l3
        have a1 := l1.mp (l2.mpr (Nat.le_refl _))
        have a2 := l4.mp (l3.mpr (Nat.le_refl _))
        omega
    | destroy e =>
      simp only [Store.step, Store.plain, World.step] at hs
      split at hs
      · simp at hs
      · rename_i w' ev hw
        simp only [Except.ok.injEq, Prod.mk.injEq] at hs
        obtain ⟨rfl, rfl⟩ := hs
        obtain ⟨x, es, hx, hes, h1, h2, h3⟩ := destroy_keeps hw
        refine ⟨by simp [h1, g.len], fun e' => ?_, fun e' => ?_, fun e' y hy ha => ?_, fun e' y hy ha => ?_⟩
        · rw [List.findSome?_append, ← g.asks e']
          simp [asksStep]
        · rw [NTrace.flat_snoc, decl_snoc_none rfl, g.decl e']
          simp only [h1, List.getElem?_set]
          by_cases he : e = e'
          · subst he
            have hlt := (List.getElem?_eq_some_iff.mp hx).1
            rw [if_pos rfl, if_pos hlt, hx]
            rfl
          · simp [he]
        · rw [NTrace.flat_snoc, events_append]
          simp only [h1, List.getElem?_set] at hy
          by_cases he : e = e'
          · subst he
            exact List.mem_append_right _ (by simpa [Trace.events] using h3)
          · simp only [he, if_false] at hy
            exact List.mem_append_left _ (g.dead e' y hy ha)
        · simp only [h1, List.getElem?_set] at hy
          by_cases he : e = e'
          · subst he
            have hlt := (List.getElem?_eq_some_iff.mp hx).1
            rw [if_pos rfl, if_pos hlt, Option.some.injEq] at hy
            subst hy
            simp at ha
          · simp only [he, if_false] at hy
            obtain ⟨es', k1, k2⟩ := g.colls e' y hy ha
            simp only [h2, List.getElem?_set]
            by_cases hc : x.coll = y.coll
            · have hlt := (List.getElem?_eq_some_iff.mp hes).1
              rw [if_pos hc, if_pos hlt]
              rw [hc, k1, Option.some.injEq] at hes
              subst hes
              exact ⟨_, rfl, (List.mem_erase_of_ne (Ne.symm he)).mpr k2⟩
            · rw [if_neg hc]
              exact ⟨es', k1, k2⟩
    | expect m min max tags asks =>
      simp only [Store.step, World.step] at hs
      split at hs
      · simp at hs
      · rename_i w' ev hw
        simp only [Except.ok.injEq, Prod.mk.injEq] at hs
        obtain ⟨rfl, rfl⟩ := hs
        rcases expect_keeps hw with ⟨rfl, rfl⟩ | ⟨rfl, es, c, hes, h1, h2⟩
        · refine ⟨by simp [g.len], fun e => ?_, fun e => ?_, fun e x hx ha => ?_, fun e x hx ha => g.colls e x hx ha⟩
          · rw [List.findSome?_append, ← g.asks e]
            simp [asksStep, Trace.events]
          · rw [NTrace.flat_snoc, decl_snoc, g.decl e |>.symm]
            cases nh.flat.decl e <;> simp [declStep]
          · rw [NTrace.flat_snoc, events_append]
            exact List.mem_append_left _ (g.dead e x hx ha)
        · have fresh : ∀ e, s.w.exps.length ≤ e → nh.flat.decl e = none := by
            intro e he
            have := g.decl e
            rw [List.getElem?_eq_none he] at this
            simpa using this
          refine ⟨by simp [h1, g.len], fun e => ?_, fun e => ?_, fun e x hx ha => ?_, fun e x hx ha => ?_⟩
          · rw [List.findSome?_append, ← g.asks e]
            simp only [if_true]
            rw [List.getElem?_append, g.len]
            by_cases he : e < s.w.exps.length
            · rw [if_pos he]
              have hy : s.asks[e]? = some (s.asks[e]'(by rw [g.len]; exact he)) := List.getElem?_eq_getElem _
              rw [hy, Option.some_or]
            · rw [if_neg he]
              have hn : s.asks[e]? = none := List.getElem?_eq_none (by rw [g.len]; omega)
              rw [hn, Option.none_or]
              by_cases he' : e = s.w.exps.length
              · subst he'
                simp [asksStep, Trace.events]
              · cases hk : e - s.w.exps.length with
                | zero => omega
                | succ k => simp [asksStep, Trace.events, he']
          · rw [NTrace.flat_snoc, decl_snoc, h1, List.getElem?_append]
            by_cases he : e < s.w.exps.length
            · rw [if_pos he, ← g.decl e]
              have := g.decl e
              rw [List.getElem?_eq_getElem he] at this
              cases hd : nh.flat.decl e with
              | none => simp [hd] at this
              | some d => simp
            · rw [if_neg he, fresh e (by omega), Option.none_or]
              by_cases he' : e = s.w.exps.length
              · subst he'
                simp [declStep]
              · cases hk : e - s.w.exps.length with
                | zero => omega
                | succ k => simp [declStep, he']
          · rw [NTrace.flat_snoc, events_append]
            refine List.mem_append_left _ ?_
            rw [h1, List.getElem?_append] at hx
            by_cases he : e < s.w.exps.length
            · rw [if_pos he] at hx
              exact g.dead e x hx ha
            · rw [if_neg he] at hx
              cases hk : e - s.w.exps.length with
              | zero =>
                simp only [hk, List.getElem?_cons_zero, Option.some.injEq] at hx
                subst hx
                simp at ha
              | succ k => simp [hk] at hx
          · rw [h1, List.getElem?_append] at hx
            have hlt := (List.getElem?_eq_some_iff.mp hes).1
            simp only [h2, List.getElem?_set]
            by_cases he : e < s.w.exps.length
            · rw [if_pos he] at hx
              obtain ⟨es', k1, k2⟩ := g.colls e x hx ha
              by_cases hc : m = x.coll
              · rw [if_pos hc, if_pos hlt]
                rw [hc, k1, Option.some.injEq] at hes
                subst hes
                exact ⟨_, rfl, List.mem_append_left _ k2⟩
              · rw [if_neg hc]
                exact ⟨es', k1, k2⟩
            · rw [if_neg he] at hx
              cases hk : e - s.w.exps.length with
              | zero =>
                simp only [hk, List.getElem?_cons_zero, Option.some.injEq] at hx
                subst hx
                simp only
                rw [if_pos trivial, if_pos hlt]
                exact ⟨_, rfl, by
                  have : e = s.w.exps.length := by omega
                  simp [this]⟩
              | succ k => simp [hk] at hx

/-- Living expectations are stored with their mock. -/
theorem Kept.stored {nh : NTrace α} {s : Store α} (g : Kept nh s) {e : Nat} {d : Decl (Seen α)} (hl : nh.flat.live e)
    (hd : nh.flat.decl e = some d) : ∃ es, s.w.colls[d.mock]? = some es ∧ e ∈ es := by
  have h1 := g.decl e
  rw [hd, Option.map_some] at h1
  cases hx : s.w.exps[e]? with
  | none => simp [hx] at h1
  | some x =>
    simp only [hx, Option.map_some, Option.some.injEq] at h1
    rw [h1]
    refine g.colls e x hx ?_
    cases ha : x.alive with
    | true => rfl
    | false => exact absurd (g.dead e x hx ha) hl.2

theorem Kept.matchers {nh : NTrace α} {s : Store α} (g : Kept nh s) : s.matchers = nh.matchers := by
  funext e
  rw [matchers_eq, ← g.asks e]
  rfl

/-- All expectations in the list are asked, as they were declared. -/
theorem scan_asks {P : Nat → Prop} {rec : Rec α} (hrec : Keeps P rec) {a : α} {es : List Nat} {s s' : Store α}
    {new : Trace (Seen α)} {r : Scan} {ans : List (Nat × Option Bool)} (h : scan rec a s es = .ok (s', new, r, ans)) {e : Nat}
    (he : e ∈ es) : ∃ s₁ s₂ tr b, Same s s₁ ∧ askAll rec a s₁ (s.matchers e) = .ok (s₂, tr, b) := by
  induction es generalizing s s' new r ans with
  | nil => simp at he
  | cons e' es ih =>
    simp only [scan] at h
    split at h
    · simp at h
    · split at h
      · simp at h
      · split at h
        · simp at h
        · rename_i hr
          have h1 := (askAll_keeps hrec hr).1
          split at h
          · simp at h
          · rename_i hk
            simp only [List.mem_cons] at he
            rcases he with rfl | he
            · exact ⟨s, _, _, _, .refl _, hr⟩
            · obtain ⟨s₁, s₂, tr, b, k1, k2⟩ := ih hk he
              rw [h1.matchers] at k2
              exact ⟨s₁, s₂, tr, b, h1.trans k1, k2⟩

/-- A matcher that calls its own mock never gets an answer. -/
theorem call_relock {nh : NTrace α} {s : Store α} (g : Kept nh s) {fuel : Nat} {m e : Nat} {a a' : α} {d : Decl (Seen α)}
    (hl : nh.flat.live e) (hd : nh.flat.decl e = some d) (hm : d.mock = m) {p : α → Ask α} {ps : List (α → Ask α)}
    (hp : nh.matchers e = p :: ps) {next : Option Nat → Ask α} (hpa : p a = .call m a' next) :
    ∀ r, call fuel [] s m a ≠ .ok r := by
  intro r h
  subst hm
  obtain ⟨es, h1, h2⟩ := g.stored hl hd
  cases fuel with
  | zero => simp [call] at h
  | succ fuel =>
    simp only [call, h1, List.contains_nil, Bool.false_eq_true, if_false] at h
    split at h
    · simp at h
    · rename_i hk
      obtain ⟨s₁, s₂, tr, b, k1, k2⟩ := scan_asks (call_keeps fuel [d.mock]) hk (List.mem_reverse.mpr h2)
      rw [g.matchers, hp] at k2
      have never : ∀ r, call fuel [d.mock] s₁ d.mock a' ≠ .ok r := by
        intro r
        cases fuel with
        | zero => simp [call]
        | succ fuel => simp [call, k1.colls, h1]
      simp only [askAll, hpa, ask] at k2
      split at k2
      · simp at k2
      · rename_i hx
        split at hx
        · simp at hx
        · rename_i hy
          exact never _ hy
      · rename_i hx
        split at hx
        · simp at hx
        · rename_i hy
          exact never _ hy

end Mimic.Nested
