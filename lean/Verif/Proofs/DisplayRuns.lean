import Verif.Proofs.Display

/-!
# Lemmas about whole histories with printers that call mocks
-/

set_option autoImplicit false

namespace Mimic.Display

variable {α : Type} {rank srank : Nat → Nat} {shows : Nat → α → Show α}

theorem flat_snoc (dh : DTrace α) (op : Op α) (tr : Trace α) : DTrace.flat (dh ++ [(op, tr)]) = dh.flat ++ tr := by
  simp [DTrace.flat]

/-- An operation that is not a call. -/
theorem Good.other {tr : Trace α} {w w' : World α} (h : Good rank srank tr w) {op : Op α} {ev : List Event}
    (hs : w.step op = .ok (w', ev))
    (hl : ∀ m min max tags pols, op = .expect m min max tags pols → ∀ q ∈ tags, srank q = rank m) :
    Good rank srank (tr ++ [(op, ev)]) w' := by
  refine ⟨h.reach.step hs, fun e d hd => ?_⟩
  rw [decl_snoc] at hd
  cases ho : tr.decl e with
  | some d' =>
    rw [ho] at hd
    simp only [Option.some_or, Option.some.injEq] at hd
    subst hd
    exact h.decl e d' ho
  | none =>
    rw [ho, Option.none_or] at hd
    cases op with
    | expect m min max tags pols =>
      simp only [declStep] at hd
      split at hd
      · simp only [Option.some.injEq] at hd
        subst hd
        exact hl m min max tags pols rfl
      · simp at hd
    | _ => simp [declStep] at hd

theorem step_other {fuel : Nat} {w w' : World α} {op : Op α} {tr : Trace α} (hop : ∀ m a, op ≠ .call m a)
    (h : step shows fuel w op = .ok (w', tr)) : ∃ ev, w.step op = .ok (w', ev) ∧ tr = [(op, ev)] := by
  cases op with
  | call m a => exact absurd rfl (hop m a)
  | _ =>
    simp only [step] at h
    split at h
    · simp at h
    · rename_i hw
      simp only [Except.ok.injEq, Prod.mk.injEq] at h
      obtain ⟨rfl, rfl⟩ := h
      exact ⟨_, hw, rfl⟩

theorem step_call {fuel : Nat} {w w' : World α} {m : Nat} {a : α} {tr : Trace α}
    (h : step shows fuel w (.call m a) = .ok (w', tr)) : ∃ r, call shows fuel [] w m a = .ok (w', tr, r) := by
  simp only [step] at h
  split at h
  · simp at h
  · rename_i hw
    simp only [Except.ok.injEq, Prod.mk.injEq] at h
    obtain ⟨rfl, rfl⟩ := h
    exact ⟨_, hw⟩

theorem reach_good (hl : Layered rank shows) {dh : DTrace α} {w : World α} (h : DReach shows dh w) (hs : dh.layered rank srank) :
    Good rank srank dh.flat w := by
  induction h with
  | init => exact ⟨.init, by intro e d hd; simp [DTrace.flat, Trace.decl] at hd⟩
  | @step dh w w' op tr fuel h1 h2 ih =>
    have g := ih (fun m min max tags pols tr hm => hs m min max tags pols tr (by simp [hm]))
    rw [flat_snoc]
    by_cases hop : ∃ m a, op = .call m a
    · obtain ⟨m, a, rfl⟩ := hop
      obtain ⟨r, hr⟩ := step_call h2
      exact ((call_ok (srank := srank) hl 0 fuel [] (rank m + 1) (by simp) dh.flat w m a g (Nat.lt_succ_self _)).2 _ _ _ hr).1
    · obtain ⟨ev, h3, rfl⟩ := step_other (fun m a ho => hop ⟨m, a, ho⟩) h2
      exact g.other h3 (fun m min max tags pols ho => by
        subst ho
        exact hs m min max tags pols _ (List.mem_append_right _ (List.mem_singleton.mpr rfl)))

theorem DReach.split {pre post : DTrace α} {op : Op α} {tr : Trace α} {w : World α}
    (h : DReach shows (pre ++ (op, tr) :: post) w) : ∃ w₀ w₁ fuel, DReach shows pre w₀ ∧ Display.step shows fuel w₀ op = .ok (w₁, tr) := by
  generalize hl : pre ++ (op, tr) :: post = l at h
  induction h generalizing post with
  | init => simp at hl
  | @step nh s s' op' tr' fuel hr hs ih =>
    rcases List.eq_nil_or_concat post with rfl | ⟨post', last, rfl⟩
    · obtain ⟨h1, h2⟩ := List.append_inj' hl rfl
      simp only [List.cons.injEq, Prod.mk.injEq, and_true] at h2
      obtain ⟨rfl, rfl⟩ := h2
      subst h1
      exact ⟨s, s', fuel, hr, hs⟩
    · rw [List.concat_eq_append, ← List.cons_append, ← List.append_assoc] at hl
      exact ih (List.append_inj' hl rfl).1

/-! ## The bound on the depth -/

/-- A second way of carrying out calls that gives the same result unless the first one gives up. -/
def Extends (rec rec' : Rec α) : Prop := ∀ w m a, rec w m a ≠ .error tooDeep → rec' w m a = rec w m a

theorem print_extends {rec rec' : Rec α} (h : Extends rec rec') (w : World α) (p : Show α) (hp : print rec w p ≠ .error tooDeep) :
    print rec' w p = print rec w p := by
  induction p generalizing w with
  | done => rfl
  | call m a next ih =>
    simp only [print] at hp ⊢
    cases hr : rec w m a with
    | error x =>
      rw [hr] at hp
      simp only at hp
      rw [h w m a (by rw [hr]; simpa using hp), hr]
    | ok v =>
      obtain ⟨w', tr, r⟩ := v
      rw [hr] at hp
      simp only at hp
      rw [h w m a (by rw [hr]; simp), hr]
      simp only
      cases hk : print rec w' (next r) with
      | error x =>
        rw [hk] at hp
        simp only at hp
        rw [ih r w' (by rw [hk]; exact hp), hk]
      | ok v => rw [ih r w' (by rw [hk]; simp), hk]

theorem scan_extends {rec rec' : Rec α} (h : Extends rec rec') (p : Show α) (a : α) (es : List Nat) (w : World α)
    (hp : scan rec p a w es ≠ .error tooDeep) : scan rec' p a w es = scan rec p a w es := by
  induction es generalizing w with
  | nil => rfl
  | cons e es ih =>
    simp only [scan] at hp ⊢
    cases hd : w.deref e with
    | error x => rfl
    | ok x =>
      simp only [hd] at hp ⊢
      cases hm : x.matchReport e w.seqs a with
      | error y => rfl
      | ok rep =>
        simp only [hm] at hp ⊢
        cases rep with
        | none =>
          simp only at hp ⊢
          cases hr : print rec w p with
          | error y =>
            rw [hr] at hp
            simp only at hp
            rw [print_extends h w p (by rw [hr]; simpa using hp), hr]
          | ok v =>
            obtain ⟨w', tr⟩ := v
            rw [hr] at hp
            rw [print_extends h w p (by rw [hr]; simp), hr]
            simp only at hp ⊢
            cases hk : scan rec p a w' es with
            | error y =>
              rw [hk] at hp
              simp only at hp
              rw [ih w' (by rw [hk]; exact hp), hk]
            | ok v => rw [ih w' (by rw [hk]; simp), hk]
        | some rep =>
          simp only at hp ⊢
          cases hk : scan rec p a w es with
          | error y =>
            rw [hk] at hp
            simp only at hp
            rw [ih w (by rw [hk]; exact hp), hk]
          | ok v => rw [ih w (by rw [hk]; simp), hk]

/-- One call, given how calls are carried out during the loop and after it. -/
def body (shows : Nat → α → Show α) (held : List Nat) (rec rec' : Rec α) (w : World α) (m : Nat) (a : α) :
    M (World α × Trace α × Option Nat) :=
  match w.colls[m]? with
  | none => .error (.client "call on a non-existing mock")
  | some es =>
    if held.contains m then .error (.ub "a std::mutex is locked twice by one thread")
    else
      match scan rec (shows m a) a w es.reverse with
      | .error x => .error x
      | .ok (w', tr, r) =>
        let unhandled := r.thrown.map Event.unhandled
        if !r.full.isEmpty then
          match pickBestMatch r.full with
          | .error x => .error x
          | .ok best =>
            match print rec' w' (shows m a) with
            | .error x => .error x
            | .ok (w'', tr') =>
              match w''.consume best.exp with
              | .error x => .error x
              | .ok w₃ => .ok (w₃, tr ++ tr' ++ [(.call m a, unhandled ++ [.fullMatch best.exp])], some best.exp)
        else
          match print rec' w' (shows m a) with
          | .error x => .error x
          | .ok (w'', tr') =>
            if !r.inapplicable.isEmpty then
              .ok (w'', tr ++ tr' ++ [(.call m a, unhandled ++ [.inapplicable (r.inapplicable.map (·.exp))])], none)
            else
              .ok (w'', tr ++ tr' ++ [(.call m a, unhandled ++ [.noMatch (r.none.map (·.exp))])], none)

theorem call_succ (shows : Nat → α → Show α) (fuel : Nat) (held : List Nat) (w : World α) (m : Nat) (a : α) :
    call shows (fuel + 1) held w m a = body shows held (call shows fuel (m :: held)) (call shows fuel held) w m a := rfl

theorem body_extends {rec rec' r1 r1' : Rec α} (held : List Nat) (h : Extends rec r1) (h' : Extends rec' r1') (w : World α) (m : Nat) (a : α)
    (hp : body shows held rec rec' w m a ≠ .error tooDeep) :
    body shows held r1 r1' w m a = body shows held rec rec' w m a := by
  unfold body at hp ⊢
  cases hes : w.colls[m]? with
  | none => rfl
  | some es =>
    simp only [hes] at hp ⊢
    by_cases hh : held.contains m = true
    · rw [if_pos hh, if_pos hh]
    · rw [if_neg hh] at hp
      rw [if_neg hh, if_neg hh]
      cases hsc : scan rec (shows m a) a w es.reverse with
      | error y =>
        rw [hsc] at hp
        simp only at hp
        rw [scan_extends h _ _ _ _ (by rw [hsc]; simpa using hp), hsc]
      | ok v =>
        obtain ⟨w', tr, r⟩ := v
        rw [hsc] at hp
        rw [scan_extends h _ _ _ _ (by rw [hsc]; simp), hsc]
        simp only at hp ⊢
        by_cases hfull : (!r.full.isEmpty) = true
        · rw [if_pos hfull] at hp
          rw [if_pos hfull, if_pos hfull]
          cases hb : pickBestMatch r.full with
          | error y => rfl
          | ok best =>
            simp only [hb] at hp ⊢
            cases hpr : print rec' w' (shows m a) with
            | error y =>
              rw [hpr] at hp
              simp only at hp
              rw [print_extends h' _ _ (by rw [hpr]; simpa using hp), hpr]
            | ok v => rw [print_extends h' _ _ (by rw [hpr]; simp), hpr]
        · rw [if_neg hfull] at hp
          rw [if_neg hfull, if_neg hfull]
          cases hpr : print rec' w' (shows m a) with
          | error y =>
            rw [hpr] at hp
            simp only at hp
            rw [print_extends h' _ _ (by rw [hpr]; simpa using hp), hpr]
          | ok v => rw [print_extends h' _ _ (by rw [hpr]; simp), hpr]

theorem call_extends (shows : Nat → α → Show α) (fuel : Nat) (held : List Nat) : Extends (call shows fuel held) (call shows (fuel + 1) held) := by
  induction fuel generalizing held with
  | zero =>
    intro w m a h
    exact absurd rfl h
  | succ fuel ih =>
    intro w m a h
    rw [call_succ] at h
    rw [call_succ shows (fuel + 1), call_succ shows fuel]
    exact body_extends held (ih (m :: held)) (ih held) w m a h

theorem step_extends (shows : Nat → α → Show α) (fuel k : Nat) (w : World α) (op : Op α)
    (h : step shows fuel w op ≠ .error tooDeep) : step shows (fuel + k) w op = step shows fuel w op := by
  induction k with
  | zero => rfl
  | succ k ih =>
    rw [← ih]
    rw [← ih] at h
    cases op with
    | call m a =>
      simp only [step] at h ⊢
      cases hc : call shows (fuel + k) [] w m a with
      | error x =>
        rw [hc] at h
        rw [show fuel + (k + 1) = fuel + k + 1 from rfl, call_extends shows (fuel + k) [] w m a (by rw [hc]; simpa using h), hc]
      | ok v =>
        rw [show fuel + (k + 1) = fuel + k + 1 from rfl, call_extends shows (fuel + k) [] w m a (by rw [hc]; simp), hc]
    | _ => rfl

/-! ## Printing nothing -/

theorem scan_done (rec : Rec α) (a : α) (w : World α) (es : List Nat) :
    scan rec .done a w es =
      (match Mimic.scan w a es with
       | .error x => .error x
       | .ok r => .ok (w, [], r)) := by
  induction es with
  | nil => rfl
  | cons e es ih =>
    simp only [scan, Mimic.scan, bind, Except.bind, pure, Except.pure]
    cases w.deref e with
    | error x => rfl
    | ok x =>
      simp only
      cases x.matchReport e w.seqs a with
      | error x => rfl
      | ok rep =>
        cases rep with
        | none =>
          simp only [print, ih]
          cases Mimic.scan w a es <;> simp
        | some rep =>
          simp only [ih]
          cases Mimic.scan w a es with
          | error x => rfl
          | ok r =>
            simp only
            cases evaluateMatchReport rep <;> rfl

theorem call_done {w : World α} {m : Nat} {a : α} (hs : shows m a = .done) (fuel : Nat) (held : List Nat) (hh : m ∉ held) :
    call shows (fuel + 1) held w m a =
      (match w.handleCall m a with
       | .error x => .error x
       | .ok (w', ev, r) => .ok (w', [(.call m a, ev)], r)) := by
  have hc : held.contains m = false := by
    cases h : held.contains m with
    | false => rfl
    | true => exact absurd (by simpa using h) hh
  simp only [call, World.handleCall, hs, scan_done, hc, print, bind, Except.bind, pure, Except.pure]
  cases w.colls[m]? with
  | none => rfl
  | some es =>
    simp only [Bool.false_eq_true, if_false]
    cases Mimic.scan w a es.reverse with
    | error x => rfl
    | ok r =>
      simp only
      by_cases hfull : r.full.isEmpty
      · simp only [hfull, Bool.not_true, Bool.false_eq_true, if_false, List.append_nil, List.nil_append]
        by_cases hin : r.inapplicable.isEmpty <;> simp [hin]
      · simp only [hfull, Bool.not_false, if_true, List.append_nil, List.nil_append]
        cases pickBestMatch r.full with
        | error x => rfl
        | ok best =>
          simp only
          cases w.consume best.exp <;> rfl

/-! ## Printing that never ends -/

/-- If printing never succeeds, no policy threw. -/
theorem scan_blocked {rec : Rec α} {p : Show α} (hp : ∀ w v, print rec w p ≠ .ok v) {a : α} {w : World α} {es : List Nat}
    {v : World α × Trace α × Scan} (h : scan rec p a w es = .ok v) :
    ∀ e ∈ es, ∀ x, w.deref e = .ok x → x.matchReport e w.seqs a ≠ .ok none := by
  induction es generalizing v with
  | nil => simp
  | cons e es ih =>
    simp only [scan] at h
    cases hd : w.deref e with
    | error x => simp [hd] at h
    | ok x =>
      simp only [hd] at h
      cases hm : x.matchReport e w.seqs a with
      | error y => simp [hm] at h
      | ok rep =>
        simp only [hm] at h
        cases rep with
        | none =>
          exfalso
          simp only at h
          cases hr : print rec w p with
          | error y => simp [hr] at h
          | ok v => exact hp w v hr
        | some rep =>
          simp only at h
          cases hk : scan rec p a w es with
          | error y => simp [hk] at h
          | ok v' =>
            intro e' he' x' hx'
            simp only [List.mem_cons] at he'
            rcases he' with rfl | he'
            · rw [hd] at hx'
              simp only [Except.ok.injEq] at hx'
              subst hx'
              rw [hm]
              simp
            · exact ih hk e' he' x' hx'

theorem print_held {m fuel : Nat} {held : List Nat} {a' : α} {next : Option Nat → Show α} (w : World α) (v : World α × Trace α) :
    print (call shows fuel (m :: held)) w (.call m a' next) ≠ .ok v := by
  intro h
  simp only [print] at h
  cases hc : call shows fuel (m :: held) w m a' with
  | error x => simp [hc] at h
  | ok u =>
    cases fuel with
    | zero => simp [call] at hc
    | succ fuel =>
      simp only [call] at hc
      cases hes : w.colls[m]? with
      | none => simp [hes] at hc
      | some es => simp [hes] at hc

/-- A call that returns has printed its arguments at the end. -/
theorem call_prints {fuel : Nat} {held : List Nat} {w : World α} {m : Nat} {a : α} {v : World α × Trace α × Option Nat}
    (h : call shows (fuel + 1) held w m a = .ok v) :
    ∃ es u w' u', w.colls[m]? = some es ∧ scan (call shows fuel (m :: held)) (shows m a) a w es.reverse = .ok u ∧
      print (call shows fuel held) w' (shows m a) = .ok u' := by
  simp only [call] at h
  cases hes : w.colls[m]? with
  | none => simp [hes] at h
  | some es =>
    simp only [hes] at h
    split at h
    · simp at h
    · cases hsc : scan (call shows fuel (m :: held)) (shows m a) a w es.reverse with
      | error y => simp [hsc] at h
      | ok u =>
        obtain ⟨w', tr, r⟩ := u
        simp only [hsc] at h
        cases hpr : print (call shows fuel held) w' (shows m a) with
        | ok u' => exact ⟨es, _, w', u', rfl, hsc, hpr⟩
        | error y =>
          simp only [hpr] at h
          split at h
          · split at h <;> simp at h
          · simp at h

theorem call_endless {S : α → Prop} {m : Nat} (hS : ∀ a, S a → ∃ a' next, shows m a = .call m a' next ∧ S a') (fuel : Nat)
    (held : List Nat) (w : World α) (a : α) (ha : S a) (v : World α × Trace α × Option Nat) : call shows fuel held w m a ≠ .ok v := by
  induction fuel generalizing held w a v with
  | zero => simp [call]
  | succ fuel ih =>
    intro h
    obtain ⟨es, u, w', u', _, _, hp⟩ := call_prints h
    obtain ⟨a', next, hsh, ha'⟩ := hS a ha
    rw [hsh] at hp
    simp only [print] at hp
    cases hc : call shows fuel held w' m a' with
    | error x => simp [hc] at hp
    | ok v => exact ih held w' a' ha' v hc

/-! ## Shapes -/

theorem Made.of_done {m : Nat} {a : α} {tr : Trace α} {r : Option Nat} (hs : shows m a = .done) (h : Made shows m a tr r) :
    ∃ ev, tr = [(.call m a, ev)] := by
  cases h with
  | @call tr' _ _ ev h =>
    rw [hs] at h
    have : ∀ n (t : Trace α), Repeats shows n .done t → t = [] := by
      intro n
      induction n with
      | zero => intro t ht; cases ht; rfl
      | succ n ih =>
        intro t ht
        cases ht with
        | succ h1 h2 =>
          cases h1
          simp [ih _ h2]
    exact ⟨ev, by simp [this _ _ h]⟩

theorem Repeats.of_one {k : Nat} {a' : α} (hs : shows k a' = .done) {n : Nat} {t : Trace α}
    (h : Repeats shows n (.call k a' fun _ => .done) t) : t.map (·.1) = List.replicate n (.call k a') := by
  induction n generalizing t with
  | zero => cases h; rfl
  | succ n ih =>
    cases h with
    | succ h1 h2 =>
      cases h1 with
      | call h3 h4 =>
        obtain ⟨ev, rfl⟩ := h3.of_done hs
        cases h4
        simp [ih h2, List.replicate_succ]

end Mimic.Display
