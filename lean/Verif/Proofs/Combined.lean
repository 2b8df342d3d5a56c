import Verif.Spec.Combined
import Verif.Proofs.Watchful
import Verif.Proofs.WatchedProgress
import Verif.Proofs.WatchedTerminate

/-!
# All rules for watched objects of the client's own types: proofs
-/

set_option autoImplicit false

namespace Mimic.Combined

variable {α : Type} {a0 : Trigger α}

theorem calm_iff {b : WTrace α} : Calm b ↔ quiet b := by
  simp only [Calm, quiet, thrown_false]

theorem follows_runs {tr b : WTrace α} {ww : WWorld α} (h : WReach a0 tr ww) (hf : Follows a0 tr b) : ∃ ww', WRuns a0 ww b ww' := by
  induction b generalizing tr ww with
  | nil => exact ⟨_, .nil _⟩
  | cons st b ih =>
    obtain ⟨op, log⟩ := st
    have h0 := hf [] op log b rfl
    rw [List.append_nil] at h0
    obtain ⟨ww1, hs⟩ := Watchful.step_of_rule h h0
    obtain ⟨ww2, hr⟩ := ih (.step h hs) (fun pre op' log' post he => by
      have := hf ((op, log) :: pre) op' log' post (by rw [he]; rfl)
      simpa using this)
    exact ⟨ww2, .cons hs hr⟩

theorem runs_follows {tr b : WTrace α} {ww ww' : WWorld α} (h : WReach a0 tr ww) (hr : WRuns a0 ww b ww') : Follows a0 tr b := by
  intro pre op log post he
  exact Watchful.reach_lawful (hr.reach h) (tr ++ pre) op log post (by rw [he]; simp)

theorem runs_split {ww ww' : WWorld α} {b c : WTrace α} (h : WRuns a0 ww (b ++ c) ww') :
    ∃ ww1, WRuns a0 ww b ww1 ∧ WRuns a0 ww1 c ww' := by
  induction b generalizing ww with
  | nil => exact ⟨ww, .nil _, h⟩
  | cons st b ih =>
    cases h with
    | cons hs hr =>
      obtain ⟨ww1, h1, h2⟩ := ih hr
      exact ⟨ww1, .cons hs h1, h2⟩

theorem unwind_of {ww ww' : WWorld α} {os : List Nat} {d : WTrace α} (hr : WRuns a0 ww d ww') (hm : d.map (·.1) = os.map .drop)
    (hq : quiet d) : unwind a0 ww os = .ok (ww', d) := by
  induction hr generalizing os with
  | nil => cases os with | nil => rfl | cons _ _ => simp at hm
  | @cons ww ww1 ww2 op log d hs hr ih =>
    cases os with
    | nil => simp at hm
    | cons o os =>
      simp only [List.map_cons, List.cons.injEq] at hm
      obtain ⟨rfl, hm⟩ := hm
      have ht : thrown log = false := hq _ List.mem_cons_self
      simp only [unwind, hs, ht, Bool.false_eq_true, if_false, ih hm (fun st hst => hq st (by simp [hst]))]

theorem build_of {nothrow : Bool} {ww ww' : WWorld α} {made : List Nat} {b : WTrace α} (hr : WRuns a0 ww b ww')
    (hm : ∀ st ∈ b, makes st.1) (hq : quiet b) :
    build a0 nothrow ww made (b.map (·.1)) = .ok (ww', b, some ((List.range' ww.objs.length b.length).reverse ++ made)) := by
  induction hr generalizing made with
  | nil => rfl
  | @cons ww ww1 ww2 op log d hs hr ih =>
    have ht : thrown log = false := hq _ List.mem_cons_self
    have hl := (makes_ok (hm (op, log) (by simp)) hs ht).1
    simp only [List.map_cons, build, hs, ht, Bool.false_eq_true, if_false,
      ih (made := ww.objs.length :: made) (fun st hst => hm st (by simp [hst])) (fun st hst => hq st (by simp [hst])), hl, List.length_cons, List.range'_succ, List.reverse_cons,
      List.append_assoc, List.singleton_append]

theorem build_throws {ww ww1 ww2 ww3 : WWorld α} {made : List Nat} {b d : WTrace α} {op : WOp α} {log : List (WEvent α)}
    {rest : List (WOp α)} (hr : WRuns a0 ww b ww1) (hm : ∀ st ∈ b, makes st.1) (hq : quiet b)
    (hs : ww1.step a0 op = .ok (ww2, log)) (ht : thrown log = true) (hd : WRuns a0 ww2 d ww3)
    (hdm : d.map (·.1) = ((List.range' ww.objs.length b.length).reverse ++ made).map .drop) (hdq : quiet d) :
    build a0 false ww made (b.map (·.1) ++ op :: rest) = .ok (ww3, b ++ (op, log) :: d, none) := by
  induction hr generalizing made with
  | nil => 
    simp only [List.map_nil, List.nil_append, build, hs, ht, if_true, Bool.false_eq_true, if_false]
    rw [unwind_of hd (by simpa using hdm) hdq]
  | @cons ww ww0 ww1 op' log' d' hs' hr ih =>
    have ht' : thrown log' = false := hq _ List.mem_cons_self
    have hl := (makes_ok (hm (op', log') (by simp)) hs' ht').1
    have := ih (made := ww.objs.length :: made) (fun st hst => hm st (by simp [hst])) (fun st hst => hq st (by simp [hst])) hs (by
      rw [hdm, hl]
      simp [List.range'_succ])
    simp only [List.map_cons, List.cons_append, build, hs', ht', Bool.false_eq_true, if_false, this]

theorem assign_of {nothrow : Bool} {ww ww' : WWorld α} {b : WTrace α} (hr : WRuns a0 ww b ww') (hq : quiet b) :
    assign a0 nothrow ww (b.map (·.1)) = .ok (ww', b, false) := by
  induction hr with
  | nil => rfl
  | @cons ww ww1 ww2 op log d hs hr ih =>
    have ht : thrown log = false := hq _ List.mem_cons_self
    simp only [List.map_cons, assign, hs, ht, Bool.false_eq_true, if_false, ih (fun st hst => hq st (by simp [hst]))]

theorem assign_throws {ww ww1 ww2 : WWorld α} {b : WTrace α} {op : WOp α} {log : List (WEvent α)} {rest : List (WOp α)}
    (hr : WRuns a0 ww b ww1) (hq : quiet b) (hs : ww1.step a0 op = .ok (ww2, log)) (ht : thrown log = true) :
    assign a0 false ww (b.map (·.1) ++ op :: rest) = .ok (ww2, b ++ [(op, log)], true) := by
  induction hr with
  | nil => simp [assign, hs, ht]
  | @cons ww ww0 ww1 op' log' d' hs' hr ih =>
    have ht' : thrown log' = false := hq _ List.mem_cons_self
    simp only [List.map_cons, List.cons_append, assign, hs', ht', Bool.false_eq_true, if_false,
      ih (fun st hst => hq st (by simp [hst])) hs]

theorem dropParts_of {nothrow threw : Bool} {ww ww' : WWorld α} {os : List Nat} {b : WTrace α} (hr : WRuns a0 ww b ww')
    (hm : b.map (·.1) = os.map .drop) (hq : quiet b) : dropParts a0 nothrow ww threw os = .ok (ww', b, threw) := by
  induction hr generalizing os with
  | nil => cases os with | nil => rfl | cons _ _ => simp at hm
  | @cons ww ww1 ww2 op log d hs hr ih =>
    cases os with
    | nil => simp at hm
    | cons o os =>
      simp only [List.map_cons, List.cons.injEq] at hm
      obtain ⟨rfl, hm⟩ := hm
      have ht : thrown log = false := hq _ List.mem_cons_self
      simp only [dropParts, hs, ht, Bool.false_and, Bool.false_eq_true, if_false, Bool.or_false, ih hm (fun st hst => hq st (by simp [hst]))]

theorem dropParts_throws {ww ww1 ww2 ww3 : WWorld α} {os : List Nat} {b b' : WTrace α} {op : WOp α} {log : List (WEvent α)}
    (hr : WRuns a0 ww b ww1) (hq : quiet b) (hs : ww1.step a0 op = .ok (ww2, log)) (ht : thrown log = true)
    (hr' : WRuns a0 ww2 b' ww3) (hq' : quiet b') (hm : (b ++ (op, log) :: b').map (·.1) = os.map .drop) :
    dropParts a0 false ww false os = .ok (ww3, b ++ (op, log) :: b', true) := by
  induction hr generalizing os with
  | nil =>
    cases os with
    | nil => simp at hm
    | cons o os =>
      simp only [List.nil_append, List.map_cons, List.cons.injEq] at hm
      obtain ⟨rfl, hm⟩ := hm
      simp only [List.nil_append, dropParts, hs, ht, Bool.or_self, Bool.and_false, Bool.false_eq_true, if_false, Bool.false_or, dropParts_of hr' hm hq']
  | @cons ww ww0 ww1 op' log' d hs' hr ih =>
    cases os with
    | nil => simp at hm
    | cons o os =>
      simp only [List.cons_append, List.map_cons, List.cons.injEq] at hm
      obtain ⟨rfl, hm⟩ := hm
      have ht' : thrown log' = false := hq _ List.mem_cons_self
      simp only [List.cons_append, dropParts, hs', ht', Bool.false_and, Bool.false_eq_true, if_false, Bool.or_false,
        ih (fun st hst => hq st (by simp [hst])) hs hm]

theorem prefix_split {l : WTrace α} {st : WOp α × List (WEvent α)} {ops : List (WOp α)} (h : (l ++ [st]).map (·.1) <+: ops) :
    ∃ rest, ops = l.map (·.1) ++ st.1 :: rest := by
  obtain ⟨rest, he⟩ := h
  exact ⟨rest, by rw [← he]; simp⟩

theorem construct_iff {tr : WTrace α} {cw : CWorld α} (h : WReach a0 tr cw.ww) {base : BaseSpec} {kinds : List Watcher}
    {nothrow fails : Bool} {ops : List (WOp α)} {log : CLog α} (hm : ∀ op ∈ ops, makes op) :
    (∃ cw', cw.construct a0 base kinds nothrow ops fails = .ok (cw', log)) ↔
    (∃ b, fails = false ∧ b.map (·.1) = ops ∧ Calm b ∧ Follows a0 tr b ∧ log = ⟨b, some cw.objs.length, false⟩) ∨
    (∃ b d, nothrow = false ∧ FailsIn ops fails b ∧ d.map (·.1) = b.createdIn.reverse.map .drop ∧ Calm d ∧ Follows a0 tr (b ++ d) ∧
      log = ⟨b ++ d, none, true⟩) := by
  have hmk : ∀ {t : WTrace α} {rest : List (WOp α)}, ops = t.map (·.1) ++ rest → ∀ st ∈ t, makes st.1 := by
    intro t rest he st hst
    exact hm _ (by rw [he]; exact List.mem_append_left _ (List.mem_map_of_mem hst))
  constructor
  · rintro ⟨cw', hc⟩
    obtain ⟨inner, made, threw⟩ := log
    rcases construct_spec hm hc with ⟨h1, h2, h3, h4, h5, h6, -⟩ |
      ⟨h1, h2, h3, h4, ops1, ops2, t1, t2, t3, ww1, ww2, g1, g2, g3, g4, g5, g6, g7, g8, g9, g10, g11⟩
    · dsimp only at h1 h3 h4 h5 h6
      subst h1 h3
      exact .inl ⟨inner, h2, h5, calm_iff.mpr h6, runs_follows h h4, rfl⟩
    · dsimp only at h1 h3 g2
      subst h1 h3 g2
      have hmk1 := hmk (t := t1) (rest := ops2) (by rw [g1, g4])
      have hcr := created_runs g3 hmk1 g5
      have hlen : t1.length = ops1.length := by rw [← g4]; simp
      right
      refine ⟨t1 ++ t2, t3, h2, ?_, ?_, calm_iff.mpr g9, runs_follows h ((g3.append g7).append g8), rfl⟩
      · rcases g11 with ⟨rfl, hf, rfl⟩ | ⟨op, rest, l, rfl, rfl, hl⟩
        · exact .inr ⟨hf, by rw [List.append_nil, g4, g1, List.append_nil], by rw [List.append_nil]; exact calm_iff.mpr g5⟩
        · refine .inl ⟨t1, (op, l), rfl, ?_, calm_iff.mpr g5, thrown_iff.mp hl⟩
          exact ⟨rest, by rw [g1, ← g4]; simp⟩
      · have h2 : t2.createdIn = [] := by
          rcases g11 with ⟨rfl, hf, rfl⟩ | ⟨op, rest, l, rfl, rfl, hl⟩
          · rfl
          · cases g7 with
            | cons hs _ =>
              have := (makes_fail (hm op (by rw [g1]; simp)) hs hl).2.1
              simp [WTrace.createdIn, createdBy_eq, this]
        have h3 : (t1 ++ t2).createdIn = t1.createdIn ++ t2.createdIn := by simp [WTrace.createdIn]
        rw [g10, h3, h2, hcr, hlen, List.append_nil]
  · rintro (⟨b, rfl, rfl, hq, hf, rfl⟩ | ⟨b, d, rfl, hF, hd, hq, hf, rfl⟩)
    · obtain ⟨ww', hr⟩ := follows_runs h hf
      have := build_of (nothrow := nothrow) (made := []) hr (hmk (rest := []) (by simp)) (calm_iff.mp hq)
      exact ⟨_, by simp only [CWorld.construct, this, Bool.false_eq_true, if_false]; rfl⟩
    · obtain ⟨ww', hr⟩ := follows_runs h hf
      obtain ⟨ww2, hb, hd'⟩ := runs_split hr
      rcases hF with ⟨b0, st, rfl, hp, hc0, hst⟩ | ⟨rfl, rfl, hc⟩
      · obtain ⟨ww1, hb0, hb1⟩ := runs_split hb
        obtain ⟨rest, rfl⟩ := prefix_split hp
        obtain ⟨op, l⟩ := st
        cases hb1 with
        | cons hs hnil =>
          cases hnil
          have hl : thrown l = true := thrown_iff.mpr hst
          have hmk1 := hmk (t := b0) rfl
          have hq0 : quiet b0 := calm_iff.mp hc0
          have hcr := created_runs hb0 hmk1 hq0
          have hz : WTrace.createdIn [(op, l)] = ([] : List Nat) := by
            have := (makes_fail (hm op (by simp)) hs hl).2.1
            simp [WTrace.createdIn, createdBy_eq, this]
          have h3 : WTrace.createdIn (b0 ++ [(op, l)]) = WTrace.createdIn b0 ++ WTrace.createdIn [(op, l)] := by
            simp only [WTrace.createdIn, List.flatMap_append]
          have := build_throws (made := []) (rest := rest) hb0 hmk1 hq0 hs hl hd' (by rw [hd, h3, hz, hcr]; simp) (calm_iff.mp hq)
          exact ⟨_, by simp only [CWorld.construct, this, List.append_assoc, List.singleton_append]; rfl⟩
      · have hqb : quiet b := calm_iff.mp hc
        have hmk1 := hmk (t := b) (rest := []) (by simp)
        have hcr := created_runs hb hmk1 hqb
        have := build_of (nothrow := false) (made := []) hb hmk1 hqb
        have hu := unwind_of (os := b.createdIn.reverse) hd' hd (calm_iff.mp hq)
        rw [hcr] at hu
        exact ⟨_, by simp only [CWorld.construct, this, if_true, Bool.false_eq_true, if_false, List.append_nil, hu]; rfl⟩

theorem assign_iff {tr : WTrace α} {ww : WWorld α} (h : WReach a0 tr ww) {nothrow : Bool} {ops : List (WOp α)} {b : WTrace α} {r : Bool} :
    (∃ ww', assign a0 nothrow ww ops = .ok (ww', b, r)) ↔
    Follows a0 tr b ∧ ((r = false ∧ b.map (·.1) = ops ∧ Calm b) ∨
      (r = true ∧ nothrow = false ∧ ∃ b0 st, b = b0 ++ [st] ∧ b.map (·.1) <+: ops ∧ Calm b0 ∧ ¬ completed st.2)) := by
  constructor
  · rintro ⟨ww', ha⟩
    obtain ⟨h1, h2, h3⟩ := assign_runs ha
    refine ⟨runs_follows h h1, ?_⟩
    cases r with
    | false => exact .inl ⟨rfl, (h2 rfl).1, calm_iff.mpr (h2 rfl).2⟩
    | true =>
      obtain ⟨h4, ops1, op, ops2, t1, log, rfl, rfl, rfl, g1, g2⟩ := h3 rfl
      exact .inr ⟨rfl, h4, t1, _, rfl, ⟨ops2, by simp⟩, calm_iff.mpr g1, thrown_iff.mp g2⟩
  · rintro ⟨hf, ⟨rfl, rfl, hc⟩ | ⟨rfl, rfl, b0, ⟨op, l⟩, rfl, hp, hc, hst⟩⟩
    · obtain ⟨ww', hr⟩ := follows_runs h hf
      exact ⟨ww', assign_of hr (calm_iff.mp hc)⟩
    · obtain ⟨ww', hr⟩ := follows_runs h hf
      obtain ⟨ww1, hb0, hb1⟩ := runs_split hr
      obtain ⟨rest, rfl⟩ := prefix_split hp
      cases hb1 with
      | cons hs hnil =>
        cases hnil
        exact ⟨_, assign_throws hb0 (calm_iff.mp hc) hs (thrown_iff.mpr hst)⟩

theorem dropParts_iff {tr : WTrace α} {ww : WWorld α} (h : WReach a0 tr ww) {nothrow : Bool} {os : List Nat} {b : WTrace α} {r : Bool} :
    (∃ ww', dropParts a0 nothrow ww false os = .ok (ww', b, r)) ↔
    Follows a0 tr b ∧ b.map (·.1) = os.map .drop ∧ ((r = false ∧ Calm b) ∨
      (r = true ∧ nothrow = false ∧ ∃ b1 st b2, b = b1 ++ st :: b2 ∧ Calm b1 ∧ ¬ completed st.2 ∧ Calm b2)) := by
  constructor
  · rintro ⟨ww', ha⟩
    obtain ⟨h1, h2, h3, h4⟩ := dropParts_runs ha
    have h5 := dropParts_failures ha
    refine ⟨runs_follows h h1, h2, ?_⟩
    cases r with
    | false =>
      left
      refine ⟨rfl, calm_iff.mpr fun st hst => ?_⟩
      cases ht : thrown st.2 with
      | false => rfl
      | true => have := h3.mpr (.inr ⟨st, hst, ht⟩); cases this
    | true =>
      right
      rcases h3.mp rfl with h3 | ⟨st, hst, ht⟩
      · cases h3
      · refine ⟨rfl, ?_, ?_⟩
        · cases nothrow with
          | false => rfl
          | true => rw [h4 rfl st hst] at ht; cases ht
        · obtain ⟨b1, b2, rfl⟩ := List.append_of_mem hst
          have h6 : failures b1 = 0 ∧ failures b2 = 0 := by
            simp only [failures, List.countP_append, List.countP_cons, ht, Bool.false_eq_true, if_false, if_true] at h5 ⊢
            omega
          simp only [failures, List.countP_eq_zero] at h6
          exact ⟨b1, st, b2, rfl, calm_iff.mpr (fun s hs => by simpa using h6.1 s hs), thrown_iff.mp ht, calm_iff.mpr (fun s hs => by simpa using h6.2 s hs)⟩
  · rintro ⟨hf, hm, ⟨rfl, hc⟩ | ⟨rfl, rfl, b1, ⟨op, l⟩, b2, rfl, hc1, hst, hc2⟩⟩
    · obtain ⟨ww', hr⟩ := follows_runs h hf
      exact ⟨ww', dropParts_of hr hm (calm_iff.mp hc)⟩
    · obtain ⟨ww', hr⟩ := follows_runs h hf
      obtain ⟨ww1, hb0, hb1⟩ := runs_split hr
      cases hb1 with
      | cons hs hb2 => exact ⟨_, dropParts_throws hb0 (calm_iff.mp hc1) hs (thrown_iff.mpr hst) hb2 (calm_iff.mp hc2) hm⟩

theorem Makes.not_single {op : COp α} (h : Makes op) : ¬ ((∃ p, op = .plain p) ∨ ∃ c i min max ss ps, op = .expect c i min max ss ps) := by
  rcases h with ⟨_, _, _, rfl⟩ | ⟨_, _, rfl⟩ | ⟨_, _, rfl⟩ <;> simp

theorem Makes.not_assigns {op : COp α} (h : Makes op) : ¬ Assigns op := by
  rcases h with ⟨_, _, _, rfl⟩ | ⟨_, _, rfl⟩ | ⟨_, _, rfl⟩ <;> simp [Assigns]

theorem Makes.not_drop {op : COp α} (h : Makes op) (c : Nat) : op ≠ .drop c := by
  rcases h with ⟨_, _, _, rfl⟩ | ⟨_, _, rfl⟩ | ⟨_, _, rfl⟩ <;> simp

theorem Assigns.not_single {op : COp α} (h : Assigns op) : ¬ ((∃ p, op = .plain p) ∨ ∃ c i min max ss ps, op = .expect c i min max ss ps) := by
  rcases h with ⟨_, _, _, rfl⟩ | ⟨_, _, _, rfl⟩ <;> simp

theorem Assigns.not_drop {op : COp α} (h : Assigns op) (c : Nat) : op ≠ .drop c := by
  rcases h with ⟨_, _, _, rfl⟩ | ⟨_, _, _, rfl⟩ <;> simp

theorem rule_makes {tr : CTrace α} {op : COp α} {log : CLog α} (hop : Makes op) :
    Rule a0 tr op log ↔ Usable tr op ∧
      ((∃ b n, ownFails op = false ∧ b.map (·.1) = tr.work op ∧ Calm b ∧ Follows a0 tr.flat b ∧ NextObject tr n ∧ log = ⟨b, some n, false⟩) ∨
       (∃ b d, ¬ Promise tr op ∧ FailsIn (tr.work op) (ownFails op) b ∧ d.map (·.1) = b.createdIn.reverse.map .drop ∧ Calm d ∧
        Follows a0 tr.flat (b ++ d) ∧ log = ⟨b ++ d, none, true⟩)) := by
  constructor
  · intro h
    cases h with
    | single h1 => exact absurd h1 hop.not_single
    | made _ h1 h2 h3 h4 h5 h6 => exact ⟨h1, .inl ⟨_, _, h2, h3, h4, h5, h6, rfl⟩⟩
    | unmade _ h1 h2 h3 h4 h5 h6 => exact ⟨h1, .inr ⟨_, _, h2, h3, h4, h5, h6, rfl⟩⟩
    | assigned h1 => exact absurd h1 hop.not_assigns
    | unassigned h1 => exact absurd h1 hop.not_assigns
    | dropped => exact absurd rfl (hop.not_drop _)
    | droppedThrows => exact absurd rfl (hop.not_drop _)
  · rintro ⟨h1, ⟨b, n, h2, h3, h4, h5, h6, rfl⟩ | ⟨b, d, h2, h3, h4, h5, h6, rfl⟩⟩
    · exact .made hop h1 h2 h3 h4 h5 h6
    · exact .unmade hop h1 h2 h3 h4 h5 h6

theorem rule_assigns {tr : CTrace α} {op : COp α} {log : CLog α} (hop : Assigns op) :
    Rule a0 tr op log ↔ Usable tr op ∧
      ((∃ b, ownFails op = false ∧ b.map (·.1) = tr.work op ∧ Calm b ∧ Follows a0 tr.flat b ∧ log = ⟨b, none, false⟩) ∨
       (∃ b, ¬ Promise tr op ∧ FailsIn (tr.work op) (ownFails op) b ∧ Follows a0 tr.flat b ∧ log = ⟨b, none, true⟩)) := by
  constructor
  · intro h
    cases h with
    | single h1 => exact absurd h1 hop.not_single
    | made h1 => exact absurd hop h1.not_assigns
    | unmade h1 => exact absurd hop h1.not_assigns
    | assigned _ h1 h2 h3 h4 h5 => exact ⟨h1, .inl ⟨_, h2, h3, h4, h5, rfl⟩⟩
    | unassigned _ h1 h2 h3 h4 => exact ⟨h1, .inr ⟨_, h2, h3, h4, rfl⟩⟩
    | dropped => exact absurd rfl (hop.not_drop _)
    | droppedThrows => exact absurd rfl (hop.not_drop _)
  · rintro ⟨h1, ⟨b, h2, h3, h4, h5, rfl⟩ | ⟨b, h2, h3, h4, rfl⟩⟩
    · exact .assigned hop h1 h2 h3 h4 h5
    · exact .unassigned hop h1 h2 h3 h4

theorem exists_obj {tr : CTrace α} {cw : CWorld α} (h : CReach a0 tr cw) (c : Nat) :
    tr.exists c ↔ ∃ x, cw.obj c = some x := by
  constructor
  · intro he
    obtain ⟨x, hx, -⟩ := h.there he
    exact ⟨x, hx⟩
  · rintro ⟨x, hx⟩
    obtain ⟨h1, h2⟩ := cobj_some hx
    obtain ⟨ps, h3, -⟩ := h.inv.parts c x h1
    refine ⟨⟨ps, h3⟩, fun hd => ?_⟩
    rw [← h.inv.dropped c x h1, h2] at hd
    cases hd

theorem obj_data {tr : CTrace α} {cw : CWorld α} (h : CReach a0 tr cw) {c : Nat} {x : Watched} (hx : cw.obj c = some x) :
    tr.exists c ∧ tr.watchers c = x.parts ∧ tr.type c = some (x.base, x.kinds) := by
  have he := (exists_obj h c).mpr ⟨x, hx⟩
  obtain ⟨y, hy, h1, -, -, h2, -⟩ := h.there he
  rw [hx] at hy
  cases hy
  exact ⟨he, h1.symm, h2⟩

theorem nextObject_iff {tr : CTrace α} {cw : CWorld α} (h : CReach a0 tr cw) (n : Nat) : NextObject tr n ↔ n = cw.objs.length := by
  have h1 : NextObject tr cw.objs.length := by
    intro k
    constructor
    · rintro ⟨ps, hp⟩
      apply Nat.lt_of_not_le
      intro hc
      rw [h.inv.fresh k hc] at hp
      cases hp
    · intro hk
      obtain ⟨ps, hp, -⟩ := h.inv.parts k cw.objs[k] (by simp [hk])
      exact ⟨ps, hp⟩
  exact ⟨fun h2 => Whole.nextNumber_unique h2 h1, fun he => he ▸ h1⟩

theorem one_iff {tr : WTrace α} {ww : WWorld α} (h : WReach a0 tr ww) (wop : WOp α) (l : List (WEvent α)) :
    Follows a0 tr [(wop, l)] ↔ ∃ ww', ww.step a0 wop = .ok (ww', l) := by
  constructor
  · intro hf
    obtain ⟨ww', hr⟩ := follows_runs h hf
    cases hr with | cons hs _ => exact ⟨_, hs⟩
  · rintro ⟨ww', hs⟩
    exact runs_follows h (.cons hs (.nil _))

theorem assigned_iff {tr : WTrace α} {ww : WWorld α} (h : WReach a0 tr ww) {nothrow fails : Bool} {ops : List (WOp α)} {log : CLog α} :
    (∃ ww' b r, assign a0 nothrow ww ops = .ok (ww', b, r) ∧ (fails && nothrow) = false ∧ log = ⟨b, none, r || fails⟩) ↔
    (∃ b, fails = false ∧ b.map (·.1) = ops ∧ Calm b ∧ Follows a0 tr b ∧ log = ⟨b, none, false⟩) ∨
    (∃ b, nothrow = false ∧ FailsIn ops fails b ∧ Follows a0 tr b ∧ log = ⟨b, none, true⟩) := by
  constructor
  · rintro ⟨ww', b, r, ha, hn, rfl⟩
    obtain ⟨h1, ⟨rfl, h2, h3⟩ | ⟨rfl, h2, b0, st, rfl, h3, h4, h5⟩⟩ := (assign_iff h).mp ⟨ww', ha⟩
    · cases fails with
      | false => exact .inl ⟨b, rfl, h2, h3, h1, rfl⟩
      | true => exact .inr ⟨b, by simpa using hn, .inr ⟨rfl, h2, h3⟩, h1, rfl⟩
    · exact .inr ⟨_, h2, .inl ⟨b0, st, rfl, h3, h4, h5⟩, h1, by simp⟩
  · rintro (⟨b, rfl, h2, h3, h1, rfl⟩ | ⟨b, rfl, ⟨b0, st, rfl, h3, h4, h5⟩ | ⟨rfl, h2, h3⟩, h1, rfl⟩)
    · obtain ⟨ww', ha⟩ := (assign_iff (nothrow := nothrow) h).mpr ⟨h1, .inl ⟨rfl, h2, h3⟩⟩
      exact ⟨ww', b, false, ha, by simp, by simp⟩
    · obtain ⟨ww', ha⟩ := (assign_iff (nothrow := false) h).mpr ⟨h1, .inr ⟨rfl, rfl, b0, st, rfl, h3, h4, h5⟩⟩
      exact ⟨ww', _, true, ha, by simp, by simp⟩
    · obtain ⟨ww', ha⟩ := (assign_iff (nothrow := false) h).mpr ⟨h1, .inl ⟨rfl, h2, h3⟩⟩
      exact ⟨ww', _, false, ha, by simp, by simp⟩

theorem usable_assign {tr : CTrace α} {cw : CWorld α} (h : CReach a0 tr cw) {d s : Nat} :
    (tr.exists d ∧ tr.exists s ∧ tr.type d = tr.type s) ↔
      ∃ x y, cw.obj d = some x ∧ cw.obj s = some y ∧ x.base = y.base ∧ x.kinds = y.kinds := by
  constructor
  · rintro ⟨h1, h2, h3⟩
    obtain ⟨x, hx⟩ := (exists_obj h d).mp h1
    obtain ⟨y, hy⟩ := (exists_obj h s).mp h2
    rw [(obj_data h hx).2.2, (obj_data h hy).2.2] at h3
    simp only [Option.some.injEq, Prod.mk.injEq] at h3
    exact ⟨x, y, hx, hy, h3⟩
  · rintro ⟨x, y, hx, hy, h1, h2⟩
    refine ⟨(obj_data h hx).1, (obj_data h hy).1, ?_⟩
    rw [(obj_data h hx).2.2, (obj_data h hy).2.2, h1, h2]

theorem step_iff {tr : CTrace α} {cw : CWorld α} (h : CReach a0 tr cw) (op : COp α) (log : CLog α) :
    (∃ cw', cw.step a0 op = .ok (cw', log)) ↔ Rule a0 tr op log := by
  have hr := h.inv.reach
  have hno := nextObject_iff h
  have data : ∀ {c x}, cw.obj c = some x → _ := fun hx => obj_data h hx
  cases op with
  | plain p =>
    constructor
    · rintro ⟨cw', hs⟩
      simp only [CWorld.step] at hs
      split at hs
      · cases hs
      · rename_i ww' l hl
        cases hs
        exact .single (.inl ⟨p, rfl⟩) trivial rfl ((one_iff hr _ _).mpr ⟨_, hl⟩)
    · intro hl
      cases hl with
      | single _ _ hw hf =>
        cases hw
        obtain ⟨ww', hs⟩ := (one_iff hr _ _).mp hf
        exact ⟨_, by simp only [CWorld.step, hs]; rfl⟩
      | made h1 => simp [Makes] at h1
      | unmade h1 => simp [Makes] at h1
      | assigned h1 => simp [Assigns] at h1
      | unassigned h1 => simp [Assigns] at h1
  | create base kinds f =>
    rw [rule_makes (.inl ⟨_, _, _, rfl⟩)]
    simp only [CWorld.step]
    rw [construct_iff hr (by simp [makes])]
    simp only [Usable, ownFails, CTrace.work, Promise, hno, not_false_eq_true, true_and, exists_eq_left, exists_and_left]
  | copy s f =>
    rw [rule_makes (.inr (.inl ⟨_, _, rfl⟩))]
    cases hx : cw.obj s with
    | none =>
      have : ¬ tr.exists s := by rw [exists_obj h, hx]; simp
      simp [CWorld.step, hx, Usable, this]
    | some x =>
      obtain ⟨h1, h2, h3⟩ := data hx
      simp only [CWorld.step, hx]
      rw [construct_iff hr (by simp [makes])]
      simp only [Usable, ownFails, CTrace.work, Promise, hno, not_false_eq_true, true_and, h1, h2]
      grind
  | move s f =>
    rw [rule_makes (.inr (.inr ⟨_, _, rfl⟩))]
    cases hx : cw.obj s with
    | none =>
      have : ¬ tr.exists s := by rw [exists_obj h, hx]; simp
      simp [CWorld.step, hx, Usable, this]
    | some x =>
      obtain ⟨h1, h2, h3⟩ := data hx
      have hp : ¬ Promise tr (.move s f) ↔ x.base.nothrowMove = false := by
        simp [Promise, h3]
      simp only [CWorld.step, hx]
      rw [construct_iff hr (by simp [makes])]
      simp only [Usable, ownFails, CTrace.work, hp, hno, true_and, h1, h2]
      grind
  | copyAssign d s f =>
    rw [rule_assigns (.inl ⟨_, _, _, rfl⟩)]
    constructor
    · rintro ⟨cw', hs⟩
      simp only [CWorld.step] at hs
      split at hs
      · rename_i x y hx hy
        split at hs
        · rename_i hk
          obtain ⟨-, h2, -⟩ := data hx
          obtain ⟨-, h4, -⟩ := data hy
          refine ⟨(usable_assign h).mpr ⟨x, y, hx, hy, hk⟩, ?_⟩
          simp only [ownFails, CTrace.work, Promise, h2, h4, not_false_eq_true]
          split at hs
          · cases hs
          · rename_i ww' t r ha
            cases hs
            simpa using (assigned_iff (fails := f) hr).mp ⟨ww', t, r, ha, by simp, rfl⟩
        · cases hs
      · cases hs
    · rintro ⟨hu, hl⟩
      obtain ⟨x, y, hx, hy, hk⟩ := (usable_assign h).mp hu
      obtain ⟨-, h2, -⟩ := data hx
      obtain ⟨-, h4, -⟩ := data hy
      simp only [ownFails, CTrace.work, Promise, h2, h4, not_false_eq_true] at hl
      obtain ⟨ww', b, r, ha, -, rfl⟩ := (assigned_iff (nothrow := false) hr).mpr (by simpa using hl)
      exact ⟨_, by simp only [CWorld.step, hx, hy, hk, and_self, if_true, ha]; rfl⟩
  | moveAssign d s f =>
    rw [rule_assigns (.inr ⟨_, _, _, rfl⟩)]
    constructor
    · rintro ⟨cw', hs⟩
      simp only [CWorld.step] at hs
      split at hs
      · rename_i x y hx hy
        split at hs
        · rename_i hk
          obtain ⟨-, h2, -⟩ := data hx
          obtain ⟨-, h4, h5⟩ := data hy
          have hp : ¬ Promise tr (.moveAssign d s f) ↔ y.base.nothrowMoveAssign = false := by
            simp [Promise, h5]
          refine ⟨(usable_assign h).mpr ⟨x, y, hx, hy, hk⟩, ?_⟩
          simp only [ownFails, CTrace.work, hp, h2, h4]
          split at hs
          · cases hs
          · rename_i ww' t r ha
            split at hs
            · cases hs
            · rename_i hn
              cases hs
              exact (assigned_iff (fails := f) hr).mp ⟨ww', t, r, ha, by simpa using hn, rfl⟩
        · cases hs
      · cases hs
    · rintro ⟨hu, hl⟩
      obtain ⟨x, y, hx, hy, hk⟩ := (usable_assign h).mp hu
      obtain ⟨-, h2, -⟩ := data hx
      obtain ⟨-, h4, h5⟩ := data hy
      have hp : ¬ Promise tr (.moveAssign d s f) ↔ y.base.nothrowMoveAssign = false := by
        simp [Promise, h5]
      simp only [ownFails, CTrace.work, hp, h2, h4] at hl
      obtain ⟨ww', b, r, ha, hn, rfl⟩ := (assigned_iff hr).mpr hl
      exact ⟨_, by simp only [CWorld.step, hx, hy, hk, and_self, if_true, ha, hn, Bool.false_eq_true, if_false]; rfl⟩
  | drop c =>
    cases hx : cw.obj c with
    | none =>
      have hn : ¬ tr.exists c := by rw [exists_obj h, hx]; simp
      constructor
      · rintro ⟨cw', hs⟩; simp [CWorld.step, hx] at hs
      · intro hl
        cases hl with
        | single h1 => simp at h1
        | made h1 => simp [Makes] at h1
        | unmade h1 => simp [Makes] at h1
        | assigned h1 => simp [Assigns] at h1
        | unassigned h1 => simp [Assigns] at h1
        | dropped h1 => exact absurd h1 hn
        | droppedThrows h1 => exact absurd h1 hn
    | some x =>
      obtain ⟨h1, h2, h3⟩ := data hx
      have hp : ¬ Promise tr (.drop c) ↔ x.base.nothrowDtor = false := by
        simp [Promise, h3]
      have hw : tr.work (.drop c) = x.parts.reverse.map .drop := by simp [CTrace.work, h2]
      constructor
      · rintro ⟨cw', hs⟩
        simp only [CWorld.step, hx] at hs
        split at hs
        · cases hs
        · rename_i ww' t r hd
          cases hs
          obtain ⟨g1, g2, ⟨rfl, g3⟩ | ⟨rfl, g3, b1, st, b2, rfl, g4, g5, g6⟩⟩ := (dropParts_iff hr).mp ⟨_, hd⟩
          · exact .dropped h1 (by rw [g2, hw]) g3 g1
          · exact .droppedThrows h1 (hp.mpr g3) (by rw [g2, hw]) g4 g5 g6 g1
      · intro hl
        cases hl with
        | single h1 => simp at h1
        | made h1 => simp [Makes] at h1
        | unmade h1 => simp [Makes] at h1
        | assigned h1 => simp [Assigns] at h1
        | unassigned h1 => simp [Assigns] at h1
        | dropped _ g2 g3 g1 =>
          obtain ⟨ww', hd⟩ := (dropParts_iff (nothrow := x.base.nothrowDtor) hr).mpr ⟨g1, by rw [g2, hw], .inl ⟨rfl, g3⟩⟩
          exact ⟨_, by simp only [CWorld.step, hx, hd]; rfl⟩
        | droppedThrows _ g0 g2 g4 g5 g6 g1 =>
          obtain ⟨ww', hd⟩ := (dropParts_iff (nothrow := x.base.nothrowDtor) hr).mpr
            ⟨g1, by rw [g2, hw], .inr ⟨rfl, hp.mp g0, _, _, _, rfl, g4, g5, g6⟩⟩
          exact ⟨_, by simp only [CWorld.step, hx, hd]; rfl⟩
  | expect c i min max ss ps =>
    constructor
    · rintro ⟨cw', hs⟩
      simp only [CWorld.step] at hs
      split at hs
      · cases hs
      · rename_i x hx
        obtain ⟨h1, h2, h3⟩ := data hx
        split at hs
        · cases hs
        · rename_i o ho
          split at hs
          · cases hs
          · rename_i ww' l hl
            cases hs
            exact .single (.inr ⟨c, i, min, max, ss, ps, rfl⟩) h1 (by simp [CTrace.work, h2, ho]) ((one_iff hr _ _).mpr ⟨_, hl⟩)
    · intro hl
      cases hl with
      | single _ hu hw hf =>
        obtain ⟨x, hx⟩ := (exists_obj h c).mp hu
        obtain ⟨h1, h2, h3⟩ := data hx
        obtain ⟨ww', hs⟩ := (one_iff hr _ _).mp hf
        cases ho : x.parts[i]? with
        | none => simp [CTrace.work, h2, ho] at hw
        | some o =>
          simp [CTrace.work, h2, ho] at hw
          subst hw
          exact ⟨_, by simp only [CWorld.step, hx, ho, hs]; rfl⟩
      | made h1 => simp [Makes] at h1
      | unmade h1 => simp [Makes] at h1
      | assigned h1 => simp [Assigns] at h1
      | unassigned h1 => simp [Assigns] at h1

end Mimic.Combined
