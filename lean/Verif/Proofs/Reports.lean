import Verif.Model.Reports
import Verif.Spec.Reports
import Verif.Proofs.Printing
import Verif.Proofs.Bridge
import Verif.Proofs.Handle

/-!
# Lemmas about the texts of reports
-/

set_option autoImplicit false

namespace Mimic

variable {α : Type}

/-! ### Numbers of matches -/

theorem verbalizeValue_eq (n : Nat) : verbalizeValue n = howOften n := by
  match n with
  | 0 => rfl
  | 1 => rfl
  | 2 => rfl
  | n + 3 =>
    have h0 : ¬ (n + 3 = 0) := by omega
    have h1 : ¬ (n + 3 = 1) := by omega
    have h2 : ¬ (n + 3 = 2) := by omega
    simp only [verbalizeValue, h0, h1, h2, if_false, howOften]

theorem printTimesState_eq {n min max : Nat} (h : min ≤ max) : printTimesState n min max = timesText n min max := by
  unfold printTimesState timesText
  rw [verbalizeValue_eq]
  by_cases h1 : n = max
  · simp [h1]
  · by_cases h2 : n < min
    · have h3 : ¬ min ≤ n := by omega
      simp only [h1, h2, h3, if_false, if_true]
      congr 2
      unfold verbalizeInterval
      by_cases h4 : min = max
      · have : ¬ min < max := by omega
        simp only [h4, if_true, verbalizeValue_eq]
        simp
      · have : min < max := by omega
        simp only [this, h4, if_false, if_true]
    · have h3 : min ≤ n := by omega
      simp only [h1, h2, h3, if_false, if_true]

theorem decimal_head {n : Nat} : ∃ c r, decimal n = c :: r ∧ c.isDigit = true := by
  cases h : decimal n with
  | nil => exact absurd h decimal_ne_nil
  | cons c r => exact ⟨c, r, rfl, decimal_isDigit (n := n) c (by simp [h])⟩

theorem cut_space {m n : Nat} {r s : Text} (h : decimal m ++ (' ' :: r) = decimal n ++ (' ' :: s)) : m = n ∧ r = s := by
  obtain ⟨h1, h2⟩ := cut_decimal (m := m) (n := n) (r := ' ' :: r) (s := ' ' :: s)
    (by intro c hc; simp at hc; subst hc; exact space_not_hex) (by intro c hc; simp at hc; subst hc; exact space_not_hex) h
  simp at h2
  exact ⟨h1, h2⟩

theorem howOften_cut {m n : Nat} {r s : Text} (h : howOften m ++ r = howOften n ++ s) : m = n ∧ r = s := by
  have key : ∀ k, (k = 0 ∧ howOften k = lit "never") ∨ (k = 1 ∧ howOften k = lit "once") ∨ (k = 2 ∧ howOften k = lit "twice") ∨
      (3 ≤ k ∧ howOften k = decimal k ++ lit " times") := by
    intro k
    match k with
    | 0 => simp [howOften]
    | 1 => simp [howOften]
    | 2 => simp [howOften]
    | k + 3 => right; right; right; exact ⟨by omega, rfl⟩
  have hd : ∀ {k : Nat} {c : Char} {x y : Text}, decimal k ++ x = c :: y → c.isDigit = true := by
    intro k c x y h
    obtain ⟨c', t, h1, h2⟩ := decimal_head (n := k)
    rw [h1] at h
    simp at h
    rw [← h.1]; exact h2
  rcases key m with ⟨rfl, h1⟩ | ⟨rfl, h1⟩ | ⟨rfl, h1⟩ | ⟨h0, h1⟩ <;> rcases key n with ⟨rfl, h2⟩ | ⟨rfl, h2⟩ | ⟨rfl, h2⟩ | ⟨h0', h2⟩ <;>
    simp only [h1, h2] at h
  all_goals first
    | exact ⟨rfl, List.append_cancel_left h⟩
    | (exfalso; simp [lit] at h; done)
    | (exfalso; rw [List.append_assoc] at h; have := hd h; revert this; decide)
    | (exfalso; rw [List.append_assoc] at h; have := hd h.symm; revert this; decide)
    | skip
  rw [List.append_assoc, List.append_assoc] at h
  obtain ⟨h3, h4⟩ := cut_space (r := lit "times" ++ r) (s := lit "times" ++ s) h
  exact ⟨h3, List.append_cancel_left h4⟩

/-! ### Numbers of a type -/

theorem toSize_id {i : Int} (h0 : 0 ≤ i) (h1 : i ≤ intMax) : toSize i = i.toNat := by
  unfold toSize
  have : intMax = 2147483647 := rfl
  rw [Int.emod_eq_of_lt h0 (by omega)]

/-! ### Lists in texts -/

theorem filter_lengths {β : Type} (p : β → Bool) (l : List β) :
    (l.filter p).length + (l.filter (fun x => !p x)).length = l.length := by
  induction l with
  | nil => rfl
  | cons x l ih => cases h : p x <;> simp [h] <;> omega

theorem distribute_eq (rs : List (Bool × Option String)) : ∀ m u, distribute rs m u =
    (m ++ (rs.filter (·.1)).filterMap (fun r => r.2.map (·.toList)),
     u ++ (rs.filter (fun r => !r.1)).filterMap (fun r => r.2.map (·.toList))) := by
  induction rs with
  | nil => intro m u; simp [distribute]
  | cons r rs ih =>
    intro m u
    obtain ⟨b, d⟩ := r
    cases b <;> cases d <;> simp [distribute, ih]

theorem printDescriptions_eq (ds : List Text) : printDescriptions ds = ds.flatMap (fun d => lit "\t" ++ d ++ lit ",\n") := by
  induction ds with
  | nil => rfl
  | cons d ds ih => simp [printDescriptions, ih]

theorem titled_eq (title : Text) (ds : List Text) :
    (if ds.isEmpty then [] else title ++ printDescriptions ds) = titled title ds := by
  cases ds with
  | nil => rfl
  | cons d ds => simp [titled, printDescriptions_eq]

theorem printArgs_eq (args : List (Text × Text)) : ∀ i, printArgs i args =
    (args.zipIdx i).flatMap (fun p =>
       lit "\targ[" ++ decimal p.2 ++ lit "]: {\n\t\ttype: " ++ p.1.1 ++ lit ",\n\t\tvalue: " ++ p.1.2 ++ lit "\n\t},\n") := by
  induction args with
  | nil => intro i; rfl
  | cons a args ih =>
    intro i
    obtain ⟨ty, v⟩ := a
    simp [printArgs, ih, lit]

theorem callReportText_eq (c : CallText) :
    callReportText c = callText c.loc c.constness c.category c.returnType c.args := by
  unfold callReportText callText
  cases h : c.args with
  | nil => simp [lit]
  | cons a args => simp [printArgs_eq, lit]

theorem printMatchReports_eq (loc : Nat → Text) (rs : List MatchReport) :
    printMatchReports loc rs = (rs.map (matchReportText loc)).flatMap (· ++ lit "\n") := by
  induction rs with
  | nil => rfl
  | cons r rs ih => simp [printMatchReports, ih]

/-! ### The state of an expectation -/

theorem View.turn_iff {tr : Trace α} {S : Spec.State α} (h : View tr S) {e : Nat} {d : Decl α} (s : Nat) :
    okIn (S.attached s) (viewExp tr e d) = true ↔ tr.turn e s := by
  unfold okIn Trace.turn
  rw [List.all_eq_true]
  constructor
  · intro h1
    constructor
    · intro e' hlt hat htf
      obtain ⟨x, hx, rfl⟩ := (h.mem_attached e' s).mp hat
      have h2 := h1 x hx
      obtain ⟨d', hd', hxd⟩ := h.get (List.mem_filter.mp hx).1
      rw [tooFew_iff hd', ← hxd] at htf
      simp only [Spec.Exp.unfulfilled, decide_eq_true_eq] at htf
      simp only [Bool.and_eq_true, Bool.or_eq_true, decide_eq_true_eq, Bool.not_eq_true'] at h2
      rcases h2.1 with h3 | h3
      · simp [viewExp] at h3; omega
      · omega
    · intro e' hlt hat
      obtain ⟨x, hx, rfl⟩ := (h.mem_attached e' s).mp hat
      have h2 := h1 x hx
      obtain ⟨d', hd', hxd⟩ := h.get (List.mem_filter.mp hx).1
      simp only [Bool.and_eq_true, Bool.or_eq_true, decide_eq_true_eq, Bool.not_eq_true', beq_iff_eq] at h2
      rcases h2.2 with h3 | h3
      · simp [viewExp] at h3; omega
      · rw [hxd] at h3; exact h3
  · intro h1 x hx
    have hat := (h.mem_attached x.id s).mpr ⟨x, hx, rfl⟩
    obtain ⟨d', hd', hxd⟩ := h.get (List.mem_filter.mp hx).1
    have hide : (viewExp tr e d).id = e := rfl
    have hg1 := h1.1 x.id
    have hg2 := h1.2 x.id
    have htf := tooFew_iff hd'
    rw [← hxd] at htf
    have hcount : x.count = tr.matched x.id := by rw [hxd]; rfl
    simp only [Spec.Exp.unfulfilled, decide_eq_true_eq] at htf
    simp only [Bool.and_eq_true, Bool.or_eq_true, decide_eq_true_eq, Bool.not_eq_true', beq_iff_eq, hide,
      decide_eq_false_iff_not]
    constructor
    · by_cases hlt : x.id < e
      · right
        have := hg1 hlt hat
        rw [htf] at this
        omega
      · exact Or.inl hlt
    · by_cases hlt : e < x.id
      · right; rw [hcount]; exact hg2 hlt hat
      · exact Or.inl hlt

/-- The state of a living expectation and the text about it. -/
theorem state_text {tr : Trace α} {w : World α} (h : Reach tr w) {e : Nat} {x : Exp α} (hx : w.exps[e]? = some x)
    (ha : x.alive = true) :
    ∃ st, x.control.state w.seqs = .ok st ∧ tr.stateText e (controlStateText st) ∧ (st.isApplicable = true ↔ tr.applicable e) := by
  have hi := h.view.1
  have hv := h.view.2
  obtain ⟨d, hd, hxd⟩ := hv.get (abs_mem hx)
  have hid : (absExp e x).id = e := rfl
  rw [hid] at hd hxd
  have hok := hi.ok _ (abs_mem hx)
  have hnd := hi.nodup _ (abs_mem hx)
  have hcount := toNat_count hi hx
  have hcl := toNat_count_lt hi hx
  have hseqs : (absExp e x).seqs = x.control.entries.map (·.1) := rfl
  have hlen : x.control.entries.length = (absExp e x).seqs.length := by rw [hseqs]; simp
  have hmin : x.control.min = d.min := by
    have : (absExp e x).min = d.min := by rw [hxd]; rfl
    exact this
  have hmax : x.control.max = d.max := by
    have : (absExp e x).max = d.max := by rw [hxd]; rfl
    exact this
  have hds : (absExp e x).seqs = d.seqs := by rw [hxd]; rfl
  have hm : (absExp e x).count = tr.matched e := by rw [hxd]; rfl
  rw [hm] at hcount
  have hnn := hok.min_nonneg
  have hmm := hok.min_le_max
  have hml := hok.max_le
  have hcm := hok.count_le
  have hmin' : (absExp e x).min = d.min := hmin
  have hmax' : (absExp e x).max = d.max := hmax
  rw [hm, hmax'] at hcm
  rw [hmin'] at hnn
  rw [hmin', hmax'] at hmm
  rw [hmax'] at hml
  rw [hm, hmax', hmax] at hcl
  have hturn : ∀ s, okIn ((abs w).attached s) (absExp e x) = true ↔ tr.turn e s := by
    intro s
    rw [hxd]
    exact hv.turn_iff s
  have htimes : printTimesState (toSize x.control.count) (toSize x.control.min) (toSize x.control.max) =
      timesText (tr.matched e) d.min.toNat d.max.toNat := by
    rw [← hcount, hmin, hmax, toSize_id (by omega) (by omega), toSize_id (by omega) (by omega), toSize_id (by omega) (by omega),
      printTimesState_eq (by omega)]
    simp
  have happl := hv.applicable_iff hd
  have hout1 : ((absExp e x).seqs.filter (fun s => !okIn ((abs w).attached s) (absExp e x))).Nodup := hnd.filter _
  have hout2 : ∀ s, s ∈ (absExp e x).seqs.filter (fun s => !okIn ((abs w).attached s) (absExp e x)) ↔ s ∈ d.seqs ∧ ¬ tr.turn e s := by
    intro s
    rw [List.mem_filter, hds, ← hturn s]
    simp
  rw [hds] at hout1 hout2 hnd
  by_cases hc : x.control.count = x.control.max
  · refine ⟨.saturated x.control.min x.control.max x.control.count (x.control.entries.map (·.1)), ?_, ?_, ?_⟩
    · simp [Control.state, hc, derefTags_ok hi hx ha _ (fun _ h => h), bind, Except.bind, pure, Except.pure]
    · refine ⟨d, _, hd, hnn, hmm, hnd, hout1, hout2, ?_⟩
      have hc' : (tr.matched e : Int) = d.max := by omega
      simp only [controlStateText, htimes, hc', if_true, ← hseqs, hds]
      congr 1
      cases d.seqs <;> simp
    · rw [← happl, ← hxd, applicable_iff]
      have : ¬ (((absExp e x).count : Int) < (absExp e x).max) := by rw [hm, hmax']; omega
      simp [ControlState.isApplicable, this]
  · have hlt : ((absExp e x).count : Int) < (absExp e x).max := by rw [hm, hmax']; exact hcl.mpr (by omega)
    have hne : ¬ ((tr.matched e : Int) = d.max) := by rw [hm, hmax'] at hlt; omega
    have hcr := collectRatings_ok hi hx ha hlt x.control.entries (fun _ h => h)
    rw [← hseqs] at hcr
    rw [hds] at hcr
    by_cases hemp : d.seqs.filter (fun s => !okIn ((abs w).attached s) (absExp e x)) = []
    · have hall : d.seqs.filter (fun s => okIn ((abs w).attached s) (absExp e x)) = d.seqs := by
        rw [List.filter_eq_self]
        rw [List.filter_eq_nil_iff] at hemp
        intro s hs
        simpa using hemp s hs
      refine ⟨.applicable x.control.min x.control.max x.control.count (d.seqs.map (ratingOf w e)), ?_,
        ⟨d, _, hd, hnn, hmm, hnd, hout1, hout2, ?_⟩, ?_⟩
      · rw [hemp, hall] at hcr
        simp [Control.state, hc, hcr, bind, Except.bind, pure, Except.pure]
      · simp only [controlStateText, htimes, hne, if_false, hemp, if_true, List.length_map]
        congr 1
        cases d.seqs <;> simp
      · rw [← happl, ← hxd, applicable_iff]
        simp only [ControlState.isApplicable, true_iff, Bool.and_eq_true, decide_eq_true_eq, hlt, true_and, hds]
        rw [List.all_eq_true]
        rw [List.filter_eq_self] at hall
        exact hall
    · refine ⟨.inapplicable x.control.min x.control.max x.control.count
        ((d.seqs.filter (fun s => okIn ((abs w).attached s) (absExp e x))).map (ratingOf w e))
        (d.seqs.filter (fun s => !okIn ((abs w).attached s) (absExp e x))), ?_,
        ⟨d, _, hd, hnn, hmm, hnd, hout1, hout2, ?_⟩, ?_⟩
      · have hne' : (d.seqs.filter (fun s => !okIn ((abs w).attached s) (absExp e x))).isEmpty = false := by
          rw [Bool.eq_false_iff]
          intro hh
          exact hemp (List.isEmpty_iff.mp hh)
        simp only [Control.state, hc, if_false, hcr, bind, Except.bind, pure, Except.pure, hne']
        rfl
      · simp only [controlStateText, htimes, hne, if_false, hemp, List.length_map, List.append_assoc]
        congr 4
        congr 2
        have := filter_lengths (l := d.seqs) (fun s => okIn ((abs w).attached s) (absExp e x))
        omega
      · rw [← happl, ← hxd, applicable_iff]
        simp only [ControlState.isApplicable, Bool.false_eq_true, false_iff, Bool.and_eq_true, decide_eq_true_eq, hlt, true_and, hds]
        intro hall
        apply hemp
        rw [List.filter_eq_nil_iff]
        intro s hs
        simp [List.all_eq_true.mp hall s hs]

/-! ### Match reports -/

/-- Where the reports of the matching loop come from. -/
structure ScanOf (w : World α) (a : α) (es : List Nat) (r : Scan) : Prop where
  full : ∀ rep ∈ r.full, rep.exp ∈ es ∧ ∃ x, w.deref rep.exp = .ok x ∧ x.matchReport rep.exp w.seqs a = .ok (some rep) ∧ evaluateMatchReport rep = .full
  inapplicable : ∀ rep ∈ r.inapplicable, rep.exp ∈ es ∧ ∃ x, w.deref rep.exp = .ok x ∧ x.matchReport rep.exp w.seqs a = .ok (some rep) ∧
    evaluateMatchReport rep = .inapplicable
  none : ∀ rep ∈ r.none, rep.exp ∈ es ∧ ∃ x, w.deref rep.exp = .ok x ∧ x.matchReport rep.exp w.seqs a = .ok (some rep) ∧ evaluateMatchReport rep = .none
  thrown : ∀ e ∈ r.thrown, e ∈ es ∧ ∃ x, w.deref e = .ok x

theorem matchReport_exp {e : Nat} {x : Exp α} {h : Seqs} {a : α} {rep : MatchReport} (hr : x.matchReport e h a = .ok (some rep)) :
    rep.exp = e := by
  simp only [Exp.matchReport, bind, Except.bind, pure, Except.pure] at hr
  split at hr
  · simp at hr
  · split at hr
    · simp at hr
    · simp at hr; rw [← hr]

theorem scan_of {w : World α} {a : α} (es : List Nat) : ∀ {r : Scan}, scan w a es = .ok r → ScanOf w a es r := by
  induction es with
  | nil =>
    intro r h
    simp only [scan, Except.ok.injEq] at h
    subst h
    constructor <;> simp
  | cons e es ih =>
    intro r h
    simp only [scan, bind, Except.bind, pure, Except.pure] at h
    split at h
    · simp at h
    · rename_i x hx
      split at h
      · simp at h
      · rename_i rep hrep
        split at h
        · simp at h
        · rename_i r0 hr0
          have h0 := ih hr0
          have w1 : ∀ rep ∈ r0.full, rep.exp ∈ e :: es ∧ ∃ x, w.deref rep.exp = .ok x ∧
              x.matchReport rep.exp w.seqs a = .ok (some rep) ∧ evaluateMatchReport rep = .full :=
            fun rep hr => ⟨List.mem_cons_of_mem _ (h0.full rep hr).1, (h0.full rep hr).2⟩
          have w2 : ∀ rep ∈ r0.inapplicable, rep.exp ∈ e :: es ∧ ∃ x, w.deref rep.exp = .ok x ∧
              x.matchReport rep.exp w.seqs a = .ok (some rep) ∧ evaluateMatchReport rep = .inapplicable :=
            fun rep hr => ⟨List.mem_cons_of_mem _ (h0.inapplicable rep hr).1, (h0.inapplicable rep hr).2⟩
          have w3 : ∀ rep ∈ r0.none, rep.exp ∈ e :: es ∧ ∃ x, w.deref rep.exp = .ok x ∧
              x.matchReport rep.exp w.seqs a = .ok (some rep) ∧ evaluateMatchReport rep = .none :=
            fun rep hr => ⟨List.mem_cons_of_mem _ (h0.none rep hr).1, (h0.none rep hr).2⟩
          have w4 : ∀ e' ∈ r0.thrown, e' ∈ e :: es ∧ ∃ x, w.deref e' = .ok x :=
            fun e' he => ⟨List.mem_cons_of_mem _ (h0.thrown e' he).1, (h0.thrown e' he).2⟩
          cases rep with
          | none =>
            simp only [Except.ok.injEq] at h
            subst h
            refine ⟨w1, w2, w3, ?_⟩
            intro e' he'
            rcases List.mem_cons.mp he' with rfl | he'
            · exact ⟨by simp, x, hx⟩
            · exact w4 e' he'
          | some rep =>
            have hexp := matchReport_exp hrep
            simp only at h
            cases hev : evaluateMatchReport rep <;> rw [hev] at h <;> simp only [Except.ok.injEq] at h <;> subst h
            · refine ⟨w1, w2, ?_, w4⟩
              intro q hq
              rcases List.mem_cons.mp hq with rfl | hq
              · exact ⟨by simp [hexp], x, by rw [hexp]; exact hx, by rw [hexp]; exact hrep, hev⟩
              · exact w3 q hq
            · refine ⟨w1, ?_, w3, w4⟩
              intro q hq
              rcases List.mem_cons.mp hq with rfl | hq
              · exact ⟨by simp [hexp], x, by rw [hexp]; exact hx, by rw [hexp]; exact hrep, hev⟩
              · exact w2 q hq
            · refine ⟨?_, w2, w3, w4⟩
              intro q hq
              rcases List.mem_cons.mp hq with rfl | hq
              · exact ⟨by simp [hexp], x, by rw [hexp]; exact hx, by rw [hexp]; exact hrep, hev⟩
              · exact w1 q hq

theorem pickLoop_mem {b r : MatchReport} {rs : List MatchReport} : pickLoop b rs = .ok r → r ∈ b :: rs := by
  induction rs generalizing b with
  | nil => intro h; simp only [pickLoop, Except.ok.injEq] at h; simp [h]
  | cons q rs ih =>
    intro h
    simp only [pickLoop, bind, Except.bind] at h
    split at h
    · simp at h
    · split at h
      · simp at h
      · split at h
        · have := ih h
          simp only [List.mem_cons] at this ⊢
          rcases this with h1 | h1
          · exact Or.inl h1
          · exact Or.inr (Or.inr h1)
        · have := ih h
          simp only [List.mem_cons] at this ⊢
          exact Or.inr this

theorem pickBest_mem {r : MatchReport} {rs : List MatchReport} (h : pickBestMatch rs = .ok r) : r ∈ rs := by
  cases rs with
  | nil => simp [pickBestMatch] at h
  | cons b rs => exact pickLoop_mem h

theorem deref_inv {w : World α} {e : Nat} {x : Exp α} (h : w.deref e = .ok x) : w.exps[e]? = some x ∧ x.alive = true := by
  unfold World.deref at h
  split at h
  · rename_i y hy
    split at h
    · rename_i ha
      simp only [Except.ok.injEq] at h
      subst h
      exact ⟨hy, ha⟩
    · simp at h
  · simp at h

/-- What is known about the members of a storage. -/
theorem member {tr : Trace α} {w : World α} (h : Reach tr w) {m : Nat} {es : List Nat} (hm : w.colls[m]? = some es) {e : Nat}
    (he : e ∈ es) {x : Exp α} (hx : w.deref e = .ok x) :
    w.exps[e]? = some x ∧ x.alive = true ∧ ∃ d, tr.decl e = some d ∧ d.mock = m ∧ d.policies = x.policies ∧ tr.live e := by
  obtain ⟨h1, h2⟩ := deref_inv hx
  refine ⟨h1, h2, ?_⟩
  obtain ⟨d, hd, hxd⟩ := h.view.2.get (abs_mem h1)
  have hid : (absExp e x).id = e := rfl
  rw [hid] at hd hxd
  rw [h.view.1.colls m es hm] at he
  obtain ⟨y, hy, hye⟩ := List.mem_map.mp he
  rw [List.mem_filter] at hy
  have hyx : y = absExp e x := sorted_mem_id (abs_sorted w) hy.1 (abs_mem h1) (by rw [hye]; rfl)
  have h3 := hy.2
  rw [hyx, hxd] at h3
  simp [viewExp] at h3
  refine ⟨d, hd, h3.2, ?_, ⟨d, hd⟩, h3.1⟩
  have : (absExp e x).policies = d.policies := by rw [hxd]; rfl
  exact this.symm

theorem passed_eq (a : α) (ps : List (Policy α)) (hn : ∀ p ∈ ps, p.accepts a ≠ none) :
    ((ps.map (fun p => ((p.accepts a).getD false, p.description))).filter (·.1)).filterMap (fun r => r.2.map (·.toList)) =
      (ps.filter (fun p => p.accepts a == some true)).filterMap (fun p => p.description.map (·.toList)) := by
  induction ps with
  | nil => rfl
  | cons p ps ih =>
    have ih' := ih (fun q hq => hn q (by simp [hq]))
    have hp := hn p (by simp)
    cases hpa : p.accepts a with
    | none => exact absurd hpa hp
    | some b => cases b <;> simp [hpa, ih', List.filterMap_cons]

theorem failed_eq (a : α) (ps : List (Policy α)) (hn : ∀ p ∈ ps, p.accepts a ≠ none) :
    ((ps.map (fun p => ((p.accepts a).getD false, p.description))).filter (fun r => !r.1)).filterMap (fun r => r.2.map (·.toList)) =
      (ps.filter (fun p => p.accepts a == some false)).filterMap (fun p => p.description.map (·.toList)) := by
  induction ps with
  | nil => rfl
  | cons p ps ih =>
    have ih' := ih (fun q hq => hn q (by simp [hq]))
    have hp := hn p (by simp)
    cases hpa : p.accepts a with
    | none => exact absurd hpa hp
    | some b => cases b <;> simp [hpa, ih', List.filterMap_cons]

theorem matchReportText_eq (loc : Nat → Text) (r : MatchReport) :
    matchReportText loc r = matchHeader r ++ lit "from: " ++ loc r.exp ++ lit "\n" ++
      titled (lit "failed:\n") ((r.results.filter (fun r => !r.1)).filterMap (fun r => r.2.map (·.toList))) ++
      titled (lit "passed:\n") ((r.results.filter (·.1)).filterMap (fun r => r.2.map (·.toList))) ++ lit "}\n" := by
  unfold matchReportText
  rw [distribute_eq]
  simp only [List.nil_append, titled_eq]

/-- The text about one expectation in reports about a call. -/
theorem match_text {tr : Trace α} {w : World α} (h : Reach tr w) (loc : Nat → Text) {m : Nat} {es : List Nat}
    (hm : w.colls[m]? = some es) (a : α) {rep : MatchReport} (he : rep.exp ∈ es) {x : Exp α} (hx : w.deref rep.exp = .ok x)
    (hr : x.matchReport rep.exp w.seqs a = .ok (some rep)) : tr.matchText loc m a rep.exp (matchReportText loc rep) := by
  obtain ⟨h1, h2, d, hd, hdm, hdp, hlive⟩ := member h hm he hx
  obtain ⟨st, hst, htext, happ⟩ := state_text h h1 h2
  simp only [Exp.matchReport, hst, bind, Except.bind, pure, Except.pure, evalPolicies_eq] at hr
  by_cases hany : x.policies.any (fun p => p.accepts a == none) = true
  · rw [if_pos hany] at hr
    simp at hr
  · rw [if_neg hany] at hr
    simp only [Except.ok.injEq, Option.some.injEq] at hr
    have hcontrol : rep.control = st := by rw [← hr]
    have hresults : rep.results = x.policies.map (fun p => ((p.accepts a).getD false, p.description)) := by rw [← hr]
    have hn : ∀ p ∈ x.policies, p.accepts a ≠ none := by
      intro p hp hc
      apply hany
      rw [List.any_eq_true]
      exact ⟨p, hp, by simp [hc]⟩
    have hall : rep.results.all (·.1) = true ↔ tr.accepts m a rep.exp := by
      rw [hresults, List.all_map, List.all_eq_true]
      constructor
      · intro hh
        refine ⟨hlive, d, hd, hdm, ?_⟩
        rw [hdp]
        intro p hp
        have h3 := hh p hp
        have h4 := hn p hp
        cases hpa : p.accepts a with
        | none => exact absurd hpa h4
        | some b => simp [hpa] at h3; rw [h3]
      · rintro ⟨_, d', hd', _, hh⟩ p hp
        rw [hd] at hd'
        simp at hd'
        rw [← hd', hdp] at hh
        simp [hh p hp]
    refine ⟨d, controlStateText st, matchHeader rep, hd, htext, ?_, ?_⟩
    · unfold matchHeader evaluateMatchReport
      rw [hcontrol]
      by_cases hacc : tr.accepts m a rep.exp
      · by_cases ha : tr.applicable rep.exp
        · left
          refine ⟨⟨hacc, ha⟩, ?_⟩
          simp [hall.mpr hacc, happ.mpr ha]
        · right; left
          refine ⟨hacc, ha, ?_⟩
          have : st.isApplicable = false := by rw [Bool.eq_false_iff]; exact fun hc => ha (happ.mp hc)
          simp [hall.mpr hacc, this]
      · right; right
        refine ⟨hacc, ?_⟩
        have : rep.results.all (·.1) = false := by rw [Bool.eq_false_iff]; exact fun hc => hacc (hall.mp hc)
        simp [this]
    · rw [matchReportText_eq, hresults, passed_eq a _ hn, failed_eq a _ hn, Decl.failed, Decl.passed, hdp]

/-- The text about an expectation by itself. -/
theorem report_text {tr : Trace α} {w : World α} (h : Reach tr w) (loc : Nat → Text) {e : Nat} {x : Exp α}
    (hx : w.exps[e]? = some x) (ha : x.alive = true) :
    ∃ r, x.report loc e w.seqs = .ok r ∧ tr.expectationText loc e (expectationReportText r) := by
  obtain ⟨d, hd, hxd⟩ := h.view.2.get (abs_mem hx)
  have hid : (absExp e x).id = e := rfl
  rw [hid] at hd hxd
  have hdp : x.policies = d.policies := by
    have : (absExp e x).policies = d.policies := by rw [hxd]; rfl
    exact this
  obtain ⟨st, hst, htext, _⟩ := state_text h hx ha
  refine ⟨⟨some (loc e), none, some (controlStateText st), x.policies.map (fun p => p.description.map (·.toList))⟩, ?_,
    d, controlStateText st, hd, htext, ?_⟩
  · simp only [Exp.report, hst, bind, Except.bind, pure, Except.pure]
  · simp only [expectationReportText, hdp, List.append_nil, List.filterMap_map]
    have key : ∀ ps : List (Policy α), (if (ps.map (fun p => p.description.map (·.toList))).any (·.isSome) = true then
        lit "expects:\n" ++ printDescriptions (ps.filterMap (id ∘ fun p => p.description.map (·.toList))) else []) =
        titled (lit "expects:\n") (ps.filterMap (fun p => p.description.map (·.toList))) := by
      intro ps
      have h1 : (ps.map (fun p => p.description.map (·.toList))).any (·.isSome) =
          !(ps.filterMap (fun p => p.description.map (·.toList))).isEmpty := by
        induction ps with
        | nil => rfl
        | cons p ps ih =>
          cases hp : p.description with
          | none => simp [hp] at ih ⊢; exact ih
          | some s => simp [hp]
      rw [h1]
      have h2 : (id ∘ fun p : Policy α => p.description.map (·.toList)) = fun p => p.description.map (·.toList) := rfl
      rw [h2]
      cases ps.filterMap (fun p => p.description.map (·.toList)) with
      | nil => rfl
      | cons t ts => simp [titled, printDescriptions_eq]
    rw [key]
    simp

theorem each_map {β γ : Type} {R : β → γ → Prop} {δ : Type} (f : δ → β) (g : δ → γ) (l : List δ) (h : ∀ x ∈ l, R (f x) (g x)) :
    Each R (l.map f) (l.map g) := by
  induction l with
  | nil => trivial
  | cons x l ih => exact ⟨h x (by simp), ih (fun y hy => h y (by simp [hy]))⟩

theorem each_append {β γ : Type} {R : β → γ → Prop} {xs xs' : List β} {ys ys' : List γ} (h1 : Each R xs ys) (h2 : Each R xs' ys') :
    Each R (xs ++ xs') (ys ++ ys') := by
  induction xs generalizing ys with
  | nil => cases ys with
    | nil => exact h2
    | cons y ys => exact absurd h1 (by simp [Each])
  | cons x xs ih => cases ys with
    | nil => exact absurd h1 (by simp [Each])
    | cons y ys => exact ⟨h1.1, ih h1.2⟩

theorem unhandled_texts {tr : Trace α} {w : World α} (h : Reach tr w) (loc : Nat → Text) (what : Nat → Option Text) {c : CallDetails}
    {c' : CallText} (hc : c.report = .ok c') (m : Nat) (a : α) (es : List Nat) (hes : ∀ e ∈ es, ∃ x, w.deref e = .ok x) :
    ∃ ts, w.unhandledTexts loc what c es = .ok ts ∧
      Each (tr.tells loc what (callReportText c') m a) (es.map Event.unhandled) ts := by
  induction es with
  | nil => exact ⟨[], rfl, trivial⟩
  | cons e es ih =>
    obtain ⟨ts, h1, h2⟩ := ih (fun e' he' => hes e' (by simp [he']))
    obtain ⟨x, hx⟩ := hes e (by simp)
    obtain ⟨hx1, hx2⟩ := deref_inv hx
    obtain ⟨r, hr, hr2⟩ := report_text h loc hx1 hx2
    refine ⟨stringifyUnhandled c' r (what e) :: ts, ?_, ?_, h2⟩
    · simp [World.unhandledTexts, hc, hx, hr, h1, bind, Except.bind, pure, Except.pure]
    · refine ⟨_, hr2, ?_⟩
      unfold stringifyUnhandled
      cases what e <;> simp [lit]

end Mimic
