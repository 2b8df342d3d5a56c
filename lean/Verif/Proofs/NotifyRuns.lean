import Verif.Proofs.NotifyEnd

/-!
# Lemmas about whole histories with reporters that call mocks
-/

set_option autoImplicit false

namespace Mimic.Notify

open Mimic.Display (Show Rec tooDeep Frame Extends print_extends)

variable {α : Type} {rank srank : Nat → Nat} {hooks : Hooks α}

theorem flat_snoc (nh : NTrace α) (op : Op α) (tr : Trace α) : NTrace.flat (nh ++ [(op, tr)]) = nh.flat ++ tr := by
  simp [NTrace.flat]

/-- Operations during which nothing is reported. -/
def plain : Op α → Prop
  | .newSequence _ | .newMock | .expect _ _ _ _ _ => True
  | _ => False

theorem step_other {fuel : Nat} {w w' : World α} {op : Op α} {tr : Trace α} (hop : plain op)
    (h : step hooks fuel w op = .ok (w', tr)) : ∃ ev, w.step op = .ok (w', ev) ∧ tr = [(op, ev)] := by
  cases op with
  | call m a => exact absurd hop id
  | destroy e => exact absurd hop id
  | dropSequence s => exact absurd hop id
  | _ =>
    simp only [step] at h
    split at h
    · simp at h
    · rename_i hw
      simp only [Except.ok.injEq, Prod.mk.injEq] at h
      obtain ⟨rfl, rfl⟩ := h
      exact ⟨_, hw, rfl⟩

theorem step_call {fuel : Nat} {w w' : World α} {m : Nat} {a : α} {tr : Trace α}
    (h : step hooks fuel w (.call m a) = .ok (w', tr)) : ∃ r, call hooks fuel [] w m a = .ok (w', tr, r) := by
  simp only [step] at h
  split at h
  · simp at h
  · rename_i hw
    simp only [Except.ok.injEq, Prod.mk.injEq] at h
    obtain ⟨rfl, rfl⟩ := h
    exact ⟨_, hw⟩

/-- What an ordinary operation reports is not heard of by the reporter, apart from calls and ends. -/
theorem plain_silent {w w' : World α} {op : Op α} (hop : plain op) {ev : List Event} (h : w.step op = .ok (w', ev)) :
    ev.filter isReport = [] := by
  cases op with
  | call m a => exact absurd hop id
  | destroy e => exact absurd hop id
  | dropSequence s => exact absurd hop id
  | newSequence st =>
    simp only [World.step, Except.ok.injEq, Prod.mk.injEq] at h
    rw [← h.2]
    rfl
  | newMock =>
    simp only [World.step, Except.ok.injEq, Prod.mk.injEq] at h
    rw [← h.2]
    rfl
  | expect m min max tags pols =>
    simp only [World.step, World.expect] at h
    split at h
    · simp at h
    · split at h
      · split at h
        · simp only [bind, Except.bind] at h
          split at h
          · simp at h
          · split at h
            · simp at h
            · simp only [pure, Except.pure, Except.ok.injEq, Prod.mk.injEq] at h
              rw [← h.2]
              rfl
        · simp only [pure, Except.pure, Except.ok.injEq, Prod.mk.injEq] at h
          rw [← h.2]
          rfl
      · simp at h

theorem conclude_report {r : Scan} {ev : Event} (h : conclude r = .ok ev) : isReport ev = true := by
  unfold conclude at h
  split at h
  · split at h
    · simp at h
    · simp only [Except.ok.injEq] at h
      rw [← h]
      rfl
  · split at h <;> simp only [Except.ok.injEq] at h <;> rw [← h] <;> rfl

/-- The reporter hears of everything that a call reports. -/
theorem call_reports {w w' : World α} {m : Nat} {a : α} {ev : List Event} (h : w.step (.call m a) = .ok (w', ev)) :
    ev.filter isReport = ev := by
  simp only [World.step, handleCall_eq, bind, Except.bind, pure, Except.pure] at h
  cases hes : w.colls[m]? with
  | none => simp [hes] at h
  | some es =>
    simp only [hes] at h
    cases hs : Mimic.scan w a es.reverse with
    | error x => simp [hs] at h
    | ok r =>
      simp only [hs] at h
      cases hc : conclude r with
      | error x => simp [hc] at h
      | ok x =>
        simp only [hc] at h
        cases hm : commit w x with
        | error x => simp [hm] at h
        | ok u =>
          simp only [hm, Except.ok.injEq, Prod.mk.injEq] at h
          rw [← h.2, List.filter_eq_self]
          intro y hy
          simp only [List.mem_append, List.mem_map, List.mem_singleton] at hy
          rcases hy with ⟨e, _, rfl⟩ | rfl
          · rfl
          · exact conclude_report hc

/-- One operation. -/
theorem step_ok (hl : Layered rank srank hooks) {fuel : Nat} {tr : Trace α} {w w' : World α} {op : Op α} {new : Trace α}
    (h : Display.Good rank srank tr w) (hs : step hooks fuel w op = .ok (w', new))
    (ho : ∀ m min max tags pols, op = .expect m min max tags pols → ∀ q ∈ tags, srank q = rank m) :
    Display.Good rank srank (tr ++ new) w' ∧ ∃ calls ev after, new = calls ++ [(op, ev)] ++ after ∧ OnlyCalls calls ∧ OnlyCalls after ∧
      Reacts hooks (mockOf tr) op ev calls ∧ Follows hooks op ev after := by
  by_cases hp : plain op
  · obtain ⟨ev, h3, rfl⟩ := step_other hp hs
    refine ⟨h.other h3 ho, [], ev, [], rfl, by simp [OnlyCalls], by simp [OnlyCalls], ?_, ?_⟩
    · unfold Reacts
      rw [plain_silent hp h3]
      exact .nil
    · cases op with
      | call m a => exact absurd hp id
      | _ => rfl
  · cases op with
    | newSequence st => exact absurd trivial hp
    | newMock => exact absurd trivial hp
    | expect m min max tags pols => exact absurd trivial hp
    | call m a =>
      obtain ⟨r, hr⟩ := step_call hs
      obtain ⟨g, -, hm, hn⟩ := (call_ok (srank := srank) hl 0 fuel [] (rank m + 1) (by simp) tr w m a h (Nat.lt_succ_self _)).2 _ _ _ hr
      refine ⟨g, ?_⟩
      cases hm with
      | @call t t' _ _ ev ht hf =>
        refine ⟨t, ev, t', rfl, fun p hp => hn p (by simp [hp]), fun p hp => hn p (by simp [hp]), ?_, hf⟩
        have hreach := g.reach
        rw [List.append_assoc, ← List.append_assoc] at hreach
        obtain ⟨w₀, w₁, h0, h1⟩ := Reach.split (post := t') hreach
        unfold Reacts
        rw [call_reports h1]
        exact ht
    | destroy e =>
      obtain ⟨g, calls, ev, d, hd, h1, h2, h3⟩ := (destroy_ok hl 0 fuel h e).2 w' new hs
      refine ⟨g, calls, ev, [], by simpa using h1, h2, by simp [OnlyCalls], ?_, rfl⟩
      unfold Reacts at h3 ⊢
      have : (fun y => hooks (about (mockOf tr) (.destroy e) y) y) = fun y => hooks (about (fun _ => d.mock) (.destroy e) y) y := by
        funext y
        cases y <;> simp [about, mockOf, hd]
      rw [this]
      exact h3
    | dropSequence s =>
      obtain ⟨g, calls, ev, h1, h2, h3⟩ := (drop_ok hl 0 fuel h s).2 w' new hs
      exact ⟨g, calls, ev, [], by simpa using h1, h2, by simp [OnlyCalls], h3 _, rfl⟩

theorem reach_good (hl : Layered rank srank hooks) {nh : NTrace α} {w : World α} (h : NReach hooks nh w) (hs : nh.layered rank srank) :
    Display.Good rank srank nh.flat w := by
  induction h with
  | init => exact ⟨.init, by intro e d hd; simp [NTrace.flat, Trace.decl] at hd⟩
  | @step nh w w' op tr fuel h1 h2 ih =>
    have g := ih (fun m min max tags pols tr hm => hs m min max tags pols tr (by simp [hm]))
    rw [flat_snoc]
    exact (step_ok hl g h2 (fun m min max tags pols ho => by
      subst ho
      exact hs m min max tags pols _ (List.mem_append_right _ (List.mem_singleton.mpr rfl)))).1

theorem NReach.split {pre post : NTrace α} {op : Op α} {tr : Trace α} {w : World α}
    (h : NReach hooks (pre ++ (op, tr) :: post) w) : ∃ w₀ w₁ fuel, NReach hooks pre w₀ ∧ Notify.step hooks fuel w₀ op = .ok (w₁, tr) := by
  generalize hl : pre ++ (op, tr) :: post = l at h
  induction h generalizing post with
  | init => simp at hl
  | @step nh s s' op' tr' fuel hr hs ih =>
    rcases List.eq_nil_or_concat post with rfl | ⟨post', last, rfl⟩
    · obtain ⟨h1, h2⟩ := List.append_inj' hl rfl
      simp only [List.cons.injEq, Prod.mk.injEq, and_true] at h2
      obtain ⟨rfl, rfl⟩ := h2
      subst h1
      exact ⟨s, s', fuel, hr, hs⟩
    · rw [List.concat_eq_append, ← List.cons_append, ← List.append_assoc] at hl
      exact ih (List.append_inj' hl rfl).1

/-! ## The bound on the depth -/

theorem scan_extends {rec rec' : Rec α} (h : Extends rec rec') (p : Nat → Show α) (a : α) (es : List Nat) (w : World α)
    (hp : scan rec p a w es ≠ .error tooDeep) : scan rec' p a w es = scan rec p a w es := by
  induction es generalizing w with
  | nil => rfl
  | cons e es ih =>
    simp only [scan] at hp ⊢
    cases hd : w.deref e with
    | error x => rfl
    | ok x =>
      simp only [hd] at hp ⊢
      cases hm : x.matchReport e w.seqs a with
      | error y => rfl
      | ok rep =>
        simp only [hm] at hp ⊢
        cases rep with
        | none =>
          simp only at hp ⊢
          cases hr : Display.print rec w (p e) with
          | error y =>
            rw [hr] at hp
            simp only at hp
            rw [print_extends h w (p e) (by rw [hr]; simpa using hp), hr]
          | ok v =>
            obtain ⟨w', tr⟩ := v
            rw [hr] at hp
            rw [print_extends h w (p e) (by rw [hr]; simp), hr]
            simp only at hp ⊢
            cases hk : scan rec p a w' es with
            | error y =>
              rw [hk] at hp
              simp only at hp
              rw [ih w' (by rw [hk]; exact hp), hk]
            | ok v => rw [ih w' (by rw [hk]; simp), hk]
        | some rep =>
          simp only at hp ⊢
          cases hk : scan rec p a w es with
          | error y =>
            rw [hk] at hp
            simp only at hp
            rw [ih w (by rw [hk]; exact hp), hk]
          | ok v => rw [ih w (by rw [hk]; simp), hk]

theorem body_extends {rec rec' r1 r1' : Rec α} (held : List Nat) (h : Extends rec r1) (h' : Extends rec' r1') (w : World α) (m : Nat) (a : α)
    (hp : body hooks held rec rec' w m a ≠ .error tooDeep) :
    body hooks held r1 r1' w m a = body hooks held rec rec' w m a := by
  unfold body at hp ⊢
  cases hes : w.colls[m]? with
  | none => rfl
  | some es =>
    simp only [hes] at hp ⊢
    by_cases hh : held.contains m = true
    · rw [if_pos hh, if_pos hh]
    · rw [if_neg hh] at hp
      rw [if_neg hh, if_neg hh]
      cases hsc : scan rec (fun e => hooks (.call m a) (.unhandled e)) a w es.reverse with
      | error y =>
        rw [hsc] at hp
        simp only at hp
        rw [scan_extends h _ _ _ _ (by rw [hsc]; simpa using hp), hsc]
      | ok v =>
        obtain ⟨w', tr, r⟩ := v
        rw [hsc] at hp
        rw [scan_extends h _ _ _ _ (by rw [hsc]; simp), hsc]
        simp only at hp ⊢
        cases hc : conclude r with
        | error y => rfl
        | ok ev =>
          simp only [hc] at hp ⊢
          cases hpr : Display.print rec' w' (hooks (.call m a) ev) with
          | error y =>
            rw [hpr] at hp
            simp only at hp
            rw [print_extends h' _ _ (by rw [hpr]; simpa using hp), hpr]
          | ok v =>
            obtain ⟨w₂, t₂⟩ := v
            rw [hpr] at hp
            rw [print_extends h' _ _ (by rw [hpr]; simp), hpr]
            simp only at hp ⊢
            cases hcm : commit w₂ ev with
            | error y => rfl
            | ok u =>
              obtain ⟨w₃, res⟩ := u
              simp only [hcm] at hp ⊢
              cases hac : Display.print rec' w₃ (hooks.effects m a res) with
              | error y =>
                rw [hac] at hp
                simp only at hp
                rw [print_extends h' _ _ (by rw [hac]; simpa using hp), hac]
              | ok v => rw [print_extends h' _ _ (by rw [hac]; simp), hac]

theorem call_extends (hooks : Hooks α) (fuel : Nat) (held : List Nat) : Extends (call hooks fuel held) (call hooks (fuel + 1) held) := by
  induction fuel generalizing held with
  | zero =>
    intro w m a h
    exact absurd rfl h
  | succ fuel ih =>
    intro w m a h
    exact body_extends held (ih (m :: held)) (ih held) w m a h

theorem release_extends (fuel : Nat) (w : World α) (s : Nat) (h : release hooks fuel w s ≠ .error tooDeep) :
    release hooks (fuel + 1) w s = release hooks fuel w s := by
  unfold release at h ⊢
  by_cases ho : w.owned s = true
  · rw [if_pos ho, if_pos ho]
  · rw [if_neg ho] at h
    rw [if_neg ho, if_neg ho]
    cases hd : w.seqs.deref s with
    | error x => rfl
    | ok q =>
      simp only [hd] at h ⊢
      cases hq : q.destruct with
      | error x => rfl
      | ok err =>
        simp only [hq] at h ⊢
        cases err with
        | none => rfl
        | some kn =>
          obtain ⟨k, n⟩ := kn
          simp only at h ⊢
          cases hp : Display.print (call hooks fuel []) w (hooks (.sequence s) (.sequenceError s k n)) with
          | error x =>
            rw [hp] at h
            rw [print_extends (call_extends hooks fuel []) _ _ (by rw [hp]; simpa using h), hp]
          | ok v => rw [print_extends (call_extends hooks fuel []) _ _ (by rw [hp]; simp), hp]

theorem releaseAll_extends (fuel : Nat) (l : List Nat) (w : World α) (h : releaseAll hooks fuel w l ≠ .error tooDeep) :
    releaseAll hooks (fuel + 1) w l = releaseAll hooks fuel w l := by
  induction l generalizing w with
  | nil => rfl
  | cons s l ih =>
    simp only [releaseAll] at h ⊢
    cases hr : release hooks fuel w s with
    | error x =>
      rw [hr] at h
      rw [release_extends fuel w s (by rw [hr]; simpa using h), hr]
    | ok u =>
      obtain ⟨w', tr, ev⟩ := u
      rw [hr] at h
      rw [release_extends fuel w s (by rw [hr]; simp), hr]
      simp only at h ⊢
      cases hk : releaseAll hooks fuel w' l with
      | error x =>
        rw [hk] at h
        rw [ih w' (by rw [hk]; simpa using h), hk]
      | ok v => rw [ih w' (by rw [hk]; simp), hk]

theorem remove_extends (fuel : Nat) (w : World α) (e : Nat) (x : Exp α) (h : remove hooks fuel w e x ≠ .error tooDeep) :
    remove hooks (fuel + 1) w e x = remove hooks fuel w e x := by
  unfold remove at h ⊢
  cases hes : w.colls[x.coll]? with
  | none => rfl
  | some es =>
    simp only [hes] at h ⊢
    by_cases hc : es.contains e = true
    · rw [if_pos hc] at h
      rw [if_pos hc, if_pos hc]
      by_cases hsat : x.isSatisfied = true
      · rw [if_pos hsat, if_pos hsat]
      · rw [if_neg hsat] at h
        rw [if_neg hsat, if_neg hsat]
        generalize ({ w with colls := w.colls.set x.coll (es.erase e), exps := w.exps.set e { x with alive := false } } : World α) = w₁
          at h ⊢
        cases hp : Display.print (call hooks fuel [x.coll]) w₁ (hooks (.expectation x.coll) (.unfulfilled e)) with
        | error y =>
          rw [hp] at h
          rw [print_extends (call_extends hooks fuel [x.coll]) _ _ (by rw [hp]; simpa using h), hp]
        | ok v => rw [print_extends (call_extends hooks fuel [x.coll]) _ _ (by rw [hp]; simp), hp]
    · rw [if_neg hc, if_neg hc]

theorem destroy_extends (fuel : Nat) (w : World α) (e : Nat) (h : destroy hooks fuel w e ≠ .error tooDeep) :
    destroy hooks (fuel + 1) w e = destroy hooks fuel w e := by
  unfold destroy at h ⊢
  cases hx : w.exps[e]? with
  | none => rfl
  | some x =>
    simp only [hx] at h ⊢
    by_cases ha : (!x.alive) = true
    · rw [if_pos ha, if_pos ha]
    · rw [if_neg ha] at h
      rw [if_neg ha, if_neg ha]
      cases hr : remove hooks fuel w e x with
      | error y =>
        rw [hr] at h
        rw [remove_extends fuel w e x (by rw [hr]; simpa using h), hr]
      | ok u =>
        obtain ⟨w', tr, ev⟩ := u
        rw [hr] at h
        rw [remove_extends fuel w e x (by rw [hr]; simp), hr]
        simp only at h ⊢
        cases hk : releaseAll hooks fuel w' (x.control.entries.map (·.1)) with
        | error y =>
          rw [hk] at h
          rw [releaseAll_extends fuel _ w' (by rw [hk]; simpa using h), hk]
        | ok v => rw [releaseAll_extends fuel _ w' (by rw [hk]; simp), hk]

theorem drop_extends (fuel : Nat) (w : World α) (s : Nat) (h : drop hooks fuel w s ≠ .error tooDeep) :
    drop hooks (fuel + 1) w s = drop hooks fuel w s := by
  unfold drop at h ⊢
  by_cases hh : w.hasHandle s = true
  · rw [if_pos hh] at h
    rw [if_pos hh, if_pos hh]
    generalize ({ w with seqs := w.seqs.modify s (fun c => { c with handle := false }) } : World α) = w₁ at h ⊢
    cases hr : release hooks fuel w₁ s with
    | error y =>
      rw [hr] at h
      rw [release_extends fuel w₁ s (by rw [hr]; simpa using h), hr]
    | ok u => rw [release_extends fuel w₁ s (by rw [hr]; simp), hr]
  · rw [if_neg hh, if_neg hh]

theorem step_extends (hooks : Hooks α) (fuel k : Nat) (w : World α) (op : Op α)
    (h : step hooks fuel w op ≠ .error tooDeep) : step hooks (fuel + k) w op = step hooks fuel w op := by
  induction k with
  | zero => rfl
  | succ k ih =>
    rw [← ih]
    rw [← ih] at h
    cases op with
    | call m a =>
      simp only [step] at h ⊢
      cases hc : call hooks (fuel + k) [] w m a with
      | error x =>
        rw [hc] at h
        rw [show fuel + (k + 1) = fuel + k + 1 from rfl, call_extends hooks (fuel + k) [] w m a (by rw [hc]; simpa using h), hc]
      | ok v =>
        rw [show fuel + (k + 1) = fuel + k + 1 from rfl, call_extends hooks (fuel + k) [] w m a (by rw [hc]; simp), hc]
    | destroy e => exact destroy_extends (fuel + k) w e h
    | dropSequence s => exact drop_extends (fuel + k) w s h
    | _ => rfl

/-! ## Printers only -/

theorem andThen_done (p : Show α) : andThen p .done = p := by
  induction p with
  | done => rfl
  | call m a next ih => simp only [andThen, ih]

theorem scan_prints (rec : Rec α) (p : Show α) (a : α) (es : List Nat) (w : World α) :
    scan rec (fun _ => p) a w es = Display.scan rec p a w es := by
  induction es generalizing w with
  | nil => rfl
  | cons e es ih =>
    simp only [scan, Display.scan, ih]
    rfl

theorem call_prints (ht : ∀ x ev, hooks.tells x ev = .done) (ha : ∀ m e a, hooks.acts m e a = .done) (fuel : Nat) (held : List Nat) :
    (call hooks fuel held : Rec α) = Display.call hooks.shows fuel held := by
  have he : ∀ m a r, hooks.effects m a r = .done := fun m a r => by cases r <;> simp [Hooks.effects, ha]
  induction fuel generalizing held with
  | zero => rfl
  | succ fuel ih =>
    funext w m a
    simp only [call, body, Display.call, Hooks.report, ht, andThen_done, he, ih, scan_prints]
    cases w.colls[m]? with
    | none => rfl
    | some es =>
      simp only
      by_cases hh : held.contains m = true
      · rw [if_pos hh, if_pos hh]
      · rw [if_neg hh, if_neg hh]
        cases Display.scan (Display.call hooks.shows fuel (m :: held)) (hooks.shows m a) a w es.reverse with
        | error x => rfl
        | ok v =>
          obtain ⟨w₁, t₁, r⟩ := v
          simp only [conclude]
          by_cases hf : (!r.full.isEmpty) = true
          · rw [if_pos hf, if_pos hf]
            cases pickBestMatch r.full with
            | error x => rfl
            | ok best =>
              simp only
              cases Display.print (Display.call hooks.shows fuel held) w₁ (hooks.shows m a) with
              | error x => rfl
              | ok u =>
                simp only [commit]
                cases u.1.consume best.exp with
                | error x => rfl
                | ok w₃ => simp [Display.print]
          · rw [if_neg hf, if_neg hf]
            by_cases hi : (!r.inapplicable.isEmpty) = true
            · rw [if_pos hi]
              cases Display.print (Display.call hooks.shows fuel held) w₁ (hooks.shows m a) with
              | error x => rfl
              | ok u => simp [commit, hi, Display.print]
            · rw [if_neg hi]
              cases Display.print (Display.call hooks.shows fuel held) w₁ (hooks.shows m a) with
              | error x => rfl
              | ok u => simp [commit, hi, Display.print]

/-! ## Reporters that make no calls -/

/-- If there is only one layer, everything is in it. -/
theorem anywhere (p : Show α) : p.Below (fun _ => 0) 1 := by
  induction p with
  | done => exact .done
  | call m a next ih => exact .call (Nat.lt_succ_self _) ih

theorem scan_done {rec : Rec α} {p : Nat → Show α} (hp : ∀ e, p e = .done) (a : α) (w : World α) (es : List Nat) :
    scan rec p a w es =
      (match Mimic.scan w a es with
       | .error x => .error x
       | .ok r => .ok (w, [], r)) := by
  induction es with
  | nil => rfl
  | cons e es ih =>
    simp only [scan, Mimic.scan, bind, Except.bind, pure, Except.pure]
    cases w.deref e with
    | error x => rfl
    | ok x =>
      simp only
      cases x.matchReport e w.seqs a with
      | error x => rfl
      | ok rep =>
        cases rep with
        | none =>
          simp only [hp, Display.print, ih]
          cases Mimic.scan w a es <;> simp
        | some rep =>
          simp only [ih]
          cases Mimic.scan w a es with
          | error x => rfl
          | ok r =>
            simp only
            cases evaluateMatchReport rep <;> rfl

theorem call_done {w : World α} {m : Nat} {a : α} (hs : ∀ ev, hooks (.call m a) ev = .done) (ha : ∀ r, hooks.effects m a r = .done) (fuel : Nat) (held : List Nat) (hh : m ∉ held) :
    call hooks (fuel + 1) held w m a =
      (match w.handleCall m a with
       | .error x => .error x
       | .ok (w', ev, r) => .ok (w', [(.call m a, ev)], r)) := by
  have hc : held.contains m = false := by
    cases h : held.contains m with
    | false => rfl
    | true => exact absurd (by simpa using h) hh
  simp only [call, body, handleCall_eq, hc]
  cases w.colls[m]? with
  | none => rfl
  | some es =>
    simp only [Bool.false_eq_true, if_false]
    rw [scan_done (fun e => hs (.unhandled e))]
    cases Mimic.scan w a es.reverse with
    | error x => rfl
    | ok r =>
      simp only
      cases conclude r with
      | error x => rfl
      | ok ev =>
        simp only [hs, ha, Display.print]
        cases commit w ev with
        | error x => rfl
        | ok u => simp

theorem release_done (hs : ∀ s ev, hooks (.sequence s) ev = .done) (fuel : Nat) (w : World α) (s : Nat) :
    release hooks fuel w s = (w.release s).map (fun u => (u.1, [], u.2)) := by
  simp only [release, World.release, hs, Display.print, bind, Except.bind, pure, Except.pure]
  by_cases ho : w.owned s = true
  · rw [if_pos ho, if_pos ho]; rfl
  · rw [if_neg ho, if_neg ho]
    cases w.seqs.deref s with
    | error x => rfl
    | ok q =>
      simp only
      cases q.destruct with
      | error x => rfl
      | ok err => cases err <;> rfl

theorem releaseAll_done (hs : ∀ s ev, hooks (.sequence s) ev = .done) (fuel : Nat) (l : List Nat) (w : World α) :
    releaseAll hooks fuel w l = (w.releaseAll l).map (fun u => (u.1, [], u.2)) := by
  induction l generalizing w with
  | nil => rfl
  | cons s l ih =>
    simp only [releaseAll, World.releaseAll, release_done hs, ih, bind, Except.bind, pure, Except.pure]
    cases w.release s with
    | error x => rfl
    | ok u =>
      simp only [Except.map]
      cases u.1.releaseAll l <;> rfl

/-! ## Reporting that never ends -/

/-- If reporting exceptions never succeeds, no policy threw. -/
theorem scan_blocked {rec : Rec α} {p : Nat → Show α} (hp : ∀ e w v, Display.print rec w (p e) ≠ .ok v) {a : α} {w : World α}
    {es : List Nat} {v : World α × Trace α × Scan} (h : scan rec p a w es = .ok v) :
    ∀ e ∈ es, ∀ x, w.deref e = .ok x → x.matchReport e w.seqs a ≠ .ok none := by
  induction es generalizing v with
  | nil => simp
  | cons e es ih =>
    simp only [scan] at h
    cases hd : w.deref e with
    | error x => simp [hd] at h
    | ok x =>
      simp only [hd] at h
      cases hm : x.matchReport e w.seqs a with
      | error y => simp [hm] at h
      | ok rep =>
        simp only [hm] at h
        cases rep with
        | none =>
          exfalso
          simp only at h
          cases hr : Display.print rec w (p e) with
          | error y => simp [hr] at h
          | ok v => exact hp e w v hr
        | some rep =>
          simp only at h
          cases hk : scan rec p a w es with
          | error y => simp [hk] at h
          | ok v' =>
            intro e' he' x' hx'
            simp only [List.mem_cons] at he'
            rcases he' with rfl | he'
            · rw [hd] at hx'
              simp only [Except.ok.injEq] at hx'
              subst hx'
              rw [hm]
              simp
            · exact ih hk e' he' x' hx'

theorem print_held {m fuel : Nat} {held : List Nat} {a' : α} {next : Option Nat → Show α} (w : World α) (v : World α × Trace α) :
    Display.print (call hooks fuel (m :: held)) w (.call m a' next) ≠ .ok v := by
  intro h
  simp only [Display.print] at h
  cases hc : call hooks fuel (m :: held) w m a' with
  | error x => simp [hc] at h
  | ok u =>
    cases fuel with
    | zero => simp [call] at hc
    | succ fuel =>
      simp only [call, body] at hc
      cases hes : w.colls[m]? with
      | none => simp [hes] at hc
      | some es => simp [hes] at hc

/-- A call that returns has reported how it was decided. -/
theorem call_tells {fuel : Nat} {held : List Nat} {w : World α} {m : Nat} {a : α} {v : World α × Trace α × Option Nat}
    (h : call hooks (fuel + 1) held w m a = .ok v) :
    ∃ es u w' ev u', w.colls[m]? = some es ∧
      scan (call hooks fuel (m :: held)) (fun e => hooks (.call m a) (.unhandled e)) a w es.reverse = .ok u ∧
      Display.print (call hooks fuel held) w' (hooks (.call m a) ev) = .ok u' := by
  simp only [call, body] at h
  cases hes : w.colls[m]? with
  | none => simp [hes] at h
  | some es =>
    simp only [hes] at h
    split at h
    · simp at h
    · cases hsc : scan (call hooks fuel (m :: held)) (fun e => hooks (.call m a) (.unhandled e)) a w es.reverse with
      | error y => simp [hsc] at h
      | ok u =>
        obtain ⟨w', tr, r⟩ := u
        simp only [hsc] at h
        cases hc : conclude r with
        | error y => simp [hc] at h
        | ok ev =>
          simp only [hc] at h
          cases hpr : Display.print (call hooks fuel held) w' (hooks (.call m a) ev) with
          | ok u' => exact ⟨es, _, w', ev, u', rfl, hsc, hpr⟩
          | error y => simp [hpr] at h

theorem call_endless {S : α → Prop} {m : Nat} (hS : ∀ a, S a → ∀ ev, ∃ a' next, hooks (.call m a) ev = .call m a' next ∧ S a') (fuel : Nat)
    (held : List Nat) (w : World α) (a : α) (ha : S a) (v : World α × Trace α × Option Nat) : call hooks fuel held w m a ≠ .ok v := by
  induction fuel generalizing held w a v with
  | zero => simp [call]
  | succ fuel ih =>
    intro h
    obtain ⟨es, u, w', ev, u', _, _, hp⟩ := call_tells h
    obtain ⟨a', next, hsh, ha'⟩ := hS a ha ev
    rw [hsh] at hp
    simp only [Display.print] at hp
    cases hc : call hooks fuel held w' m a' with
    | error x => simp [hc] at hp
    | ok v => exact ih held w' a' ha' v hc

end Mimic.Notify
