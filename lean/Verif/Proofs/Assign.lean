import Verif.Spec.Assign
import Verif.Props.Selection
import Verif.Props.Safety
import Verif.Props.Limits
import Verif.Props.Outcome
import Verif.Proofs.Bridge

/-!
# Lemmas about distributing calls among expectations
-/

set_option autoImplicit false

namespace Mimic.Assign

variable {α : Type}

/-- What a resolved call changes. -/
theorem call_frame {tr : Trace α} {m : Nat} {a : α} {us : List Nat} {x : Nat} :
    let tr₁ : Trace α := tr ++ [(Op.call m a, us.map Event.unhandled ++ [.fullMatch x])]
    (∀ e, tr₁.decl e = tr.decl e) ∧ (∀ e, tr₁.live e ↔ tr.live e) ∧ (∀ m' b e, tr₁.accepts m' b e ↔ tr.accepts m' b e) ∧
      (∀ e, tr₁.matched e = tr.matched e + if e = x then 1 else 0) ∧
      (∀ k, Event.mockCreated k ∈ tr₁.events ↔ Event.mockCreated k ∈ tr.events) := by
  intro tr₁
  have h1 : ∀ e, tr₁.decl e = tr.decl e := fun e => decl_snoc_none rfl
  have h2 : ∀ e, tr₁.live e ↔ tr.live e := by
    intro e
    unfold Trace.live
    rw [h1, events_snoc]
    simp
  refine ⟨h1, h2, ?_, ?_, ?_⟩
  · intro m' b e
    unfold Trace.accepts
    rw [h1, h2]
  · intro e
    rw [matched_snoc, List.count_append]
    have : (us.map Event.unhandled).count (Event.fullMatch e) = 0 := List.count_eq_zero.mpr (by simp)
    rw [this]
    by_cases hx : e = x
    · subst hx; simp
    · have : (Event.fullMatch x == Event.fullMatch e) = false := by
        simp; exact fun h => hx h.symm
      simp [hx, List.count_cons, this]
  · intro k
    rw [events_snoc]
    simp

theorem uses_cons (c : Call α) (e' : Nat) (ps : List (Call α × Nat)) (e : Nat) :
    uses ((c, e') :: ps) e = uses ps e + if e = e' then 1 else 0 := by
  unfold uses
  rw [List.map_cons, List.count_cons]
  by_cases h : e = e'
  · simp [h]
  · have : (e' == e) = false := by simpa using fun h' => h h'.symm
    simp [h, this]

theorem uses_append (ps qs : List (Call α × Nat)) (e : Nat) : uses (ps ++ qs) e = uses ps e + uses qs e := by
  simp [uses, List.count_append]

/-- The youngest candidate resolves the call. -/
theorem resolve {tr : Trace α} {w : World α} (h : Reach tr w) {m : Nat} {a : α} (hm : Event.mockCreated m ∈ tr.events)
    (hfree : ∀ e d, tr.live e → tr.decl e = some d → d.mock = m → d.seqs = []) {e' : Nat} (he : tr.accepts m a e') {d : Decl α}
    (hd : tr.decl e' = some d) (hlt : (tr.matched e' : Int) < d.max) :
    ∃ (x : Nat) (us : List Nat) (w' : World α), e' ≤ x ∧ tr.accepts m a x ∧
      (∃ dx, tr.decl x = some dx ∧ (tr.matched x : Int) < dx.max) ∧
      Reach (tr ++ [(Op.call m a, us.map Event.unhandled ++ [.fullMatch x])]) w' := by
  have hunattached : ∀ e, tr.accepts m a e → ∀ s, ¬ tr.attached e s := by
    rintro e ⟨hl, d, hd, hmk, -⟩ s ⟨d2, hd2, hs⟩
    rw [hd] at hd2
    cases hd2
    rw [hfree e d hl hd hmk] at hs
    cases hs
  have hcand : tr.candidate m a e' := ⟨he, ⟨d, hd, hlt⟩, fun s hs => absurd hs (hunattached e' he s)⟩
  obtain ⟨w', ev, hs⟩ := (C17_progress h (.call m a)).1 hm (by simp [Trace.overflows])
  rcases C08_selection h hs with ⟨hn, -⟩ | ⟨x, older, e, hy, -, hev⟩
  · exact absurd hcand (hn e')
  · have hxc : tr.candidate m a x := (hy.2 x).mp (List.mem_cons_self ..)
    have hyoung : ∀ z, tr.candidate m a z → z ≤ x := by
      intro z hz
      rcases List.mem_cons.mp ((hy.2 z).mpr hz) with h1 | h1
      · omega
      · have := (List.pairwise_cons.mp hy.1).1 z h1
        omega
    have hfull := C06_youngest_wins h hs hxc hyoung (hunattached x hxc.1)
    obtain ⟨us, last, hev', -, hcase⟩ := C10_outcome h hs
    have hlast : last = .fullMatch x := by
      rcases hcase with ⟨z, -, hz⟩ | ⟨hn, -⟩ | ⟨hn, -⟩
      · rw [hev', hz] at hfull
        simp at hfull
        rw [hz, hfull]
      · exact absurd hcand (hn e')
      · exact absurd he (hn e')
    rw [hlast] at hev'
    rw [hev'] at hs
    obtain ⟨dx, hdx, hltx⟩ := hxc.2.1
    exact ⟨x, us, w', hyoung e' hcand, hxc.1, ⟨dx, hdx, hltx⟩, h.step hs⟩

/-- Conditions that do not change while calls are resolved. -/
theorem keep {tr tr₁ : Trace α} (hd : ∀ e, tr₁.decl e = tr.decl e) (hl : ∀ e, tr₁.live e ↔ tr.live e)
    (ha : ∀ m b e, tr₁.accepts m b e ↔ tr.accepts m b e) (hm : ∀ k, Event.mockCreated k ∈ tr₁.events ↔ Event.mockCreated k ∈ tr.events) :
    (SpecialLast tr → SpecialLast tr₁) ∧ (∀ cs, Free tr cs → Free tr₁ cs) ∧ (∀ e e', Overlap tr₁ e e' ↔ Overlap tr e e') := by
  have ho : ∀ e e', Overlap tr₁ e e' ↔ Overlap tr e e' := by
    intro e e'
    unfold Overlap
    simp only [ha]
  refine ⟨?_, ?_, ho⟩
  · intro h e' e hlt hov m a hac
    rw [ha] at hac ⊢
    exact h e' e hlt ((ho e e').mp hov) m a hac
  · intro cs h c hc
    obtain ⟨h1, h2⟩ := h c hc
    refine ⟨(hm _).mpr h1, fun e d h3 h4 h5 => h2 e d ((hl e).mp h3) (by rw [← hd]; exact h4) h5⟩

/-- Whoever distributes the calls, the library resolves them, too; and if the special expectations are used up by that distribution, then
the library uses each expectation as often. -/
theorem greedy {ps : List (Call α × Nat)} {tr : Trace α} {w : World α} (h : Reach tr w) {cs : List (Call α)} (hf : Free tr cs)
    (hsp : SpecialLast tr) (hds : Distributes tr cs ps) :
    ∃ tr', Resolved tr cs tr' ∧
      ((∀ e' e d, e' < e → Overlap tr e e' → tr.decl e = some d → ((tr.matched e + uses ps e : Nat) : Int) = d.max) →
        ∀ e, Trace.matched (tr ++ tr') e = tr.matched e + uses ps e) := by
  generalize hn : ps.length = n
  induction n generalizing ps tr w cs with
  | zero =>
    cases List.eq_nil_of_length_eq_zero hn
    have : cs = [] := by simpa using hds.calls.symm
    subst this
    exact ⟨[], ⟨⟨w, by simpa using h⟩, rfl, by simp⟩, fun _ e => by simp [uses]⟩
  | succ n ih =>
    cases ps with
    | nil => simp at hn
    | cons p ps =>
      obtain ⟨⟨m, a⟩, e'⟩ := p
      simp only [List.length_cons, Nat.add_right_cancel_iff] at hn
      have hcs : cs = (m, a) :: ps.map (·.1) := by rw [← hds.calls]; rfl
      subst hcs
      have hacc : tr.accepts m a e' := hds.accepted ((m, a), e') (by simp)
      obtain ⟨hl', d', hd', hmk', -⟩ := hacc
      have hacc : tr.accepts m a e' := hds.accepted ((m, a), e') (by simp)
      obtain ⟨hm, hfr⟩ := hf (m, a) (by simp)
      have hlim' := hds.limit e' d' hl' hd'
      rw [uses_cons, if_pos rfl] at hlim'
      obtain ⟨x, us, w', hle, hax, ⟨dx, hdx, hltx⟩, hr⟩ := resolve h hm hfr hacc hd' (by omega)
      obtain ⟨f1, f2, f3, f4, f5⟩ := call_frame (tr := tr) (m := m) (a := a) (us := us) (x := x)
      generalize htr : (tr ++ [(Op.call m a, us.map Event.unhandled ++ [.fullMatch x])] : Trace α) = tr₁ at hr f1 f2 f3 f4 f5
      obtain ⟨k1, k2, k3⟩ := keep f1 f2 f3 f5
      have hfree : Free tr₁ (ps.map (·.1)) := k2 _ (fun c hc => hf c (List.mem_cons_of_mem _ hc))
      -- from a distribution of the other calls to the result
      have finish : ∀ qs : List (Call α × Nat), qs.length = n → Distributes tr₁ (ps.map (·.1)) qs →
          ((∀ o e d, o < e → Overlap tr e o → tr.decl e = some d →
              ((tr.matched e + uses (((m, a), e') :: ps) e : Nat) : Int) = d.max) →
            ∀ e, tr₁.matched e + uses qs e = tr.matched e + uses (((m, a), e') :: ps) e) →
          ∃ tr', Resolved tr ((m, a) :: ps.map (·.1)) tr' ∧
            ((∀ o e d, o < e → Overlap tr e o → tr.decl e = some d →
                ((tr.matched e + uses (((m, a), e') :: ps) e : Nat) : Int) = d.max) →
              ∀ e, Trace.matched (tr ++ tr') e = tr.matched e + uses (((m, a), e') :: ps) e) := by
        intro qs hlen hq hcount
        obtain ⟨tr', ⟨⟨w2, r1⟩, r2, r3⟩, r4⟩ := ih hr hfree (k1 hsp) hq hlen
        have happ : tr ++ ((Op.call m a, us.map Event.unhandled ++ [.fullMatch x]) :: tr') = tr₁ ++ tr' := by
          rw [← htr]; simp
        refine ⟨(Op.call m a, us.map Event.unhandled ++ [.fullMatch x]) :: tr', ⟨⟨w2, by rw [happ]; exact r1⟩, ?_, ?_⟩, ?_⟩
        · simpa using r2
        · intro st hst
          rcases List.mem_cons.mp hst with h1 | h1
          · rw [h1]; exact ⟨x, by simp⟩
          · exact r3 st h1
        · intro ht e
          rw [happ]
          have hc := hcount ht
          rw [r4 ?_ e, hc e]
          intro e₁ e₂ d h1 h2 h3
          rw [k3] at h2
          rw [f1] at h3
          rw [hc e₂]
          exact ht e₁ e₂ d h1 h2 h3
      by_cases hxe : x = e'
      · subst hxe
        refine finish ps hn ⟨rfl, ?_, ?_⟩ ?_
        · intro p hp
          rw [f3]
          exact hds.accepted p (List.mem_cons_of_mem _ hp)
        · intro e d hl hd
          rw [f2] at hl
          rw [f1] at hd
          have := hds.limit e d hl hd
          rw [uses_cons] at this
          rw [f4]
          by_cases hx : e = x
          · rw [if_pos hx] at this ⊢; omega
          · rw [if_neg hx] at this ⊢; omega
        · intro _ e
          rw [f4, uses_cons]
          omega
      · have hlt : e' < x := by omega
        have hov : Overlap tr x e' := ⟨m, a, hax, hacc⟩
        by_cases hroom : ((tr.matched x + uses ps x : Nat) : Int) < dx.max
        · refine finish ps hn ⟨rfl, ?_, ?_⟩ ?_
          · intro p hp
            rw [f3]
            exact hds.accepted p (List.mem_cons_of_mem _ hp)
          · intro e d hl hd
            rw [f2] at hl
            rw [f1] at hd
            have := hds.limit e d hl hd
            rw [uses_cons] at this
            rw [f4]
            by_cases hx : e = x
            · subst hx
              rw [hdx] at hd
              cases hd
              rw [if_pos rfl]; omega
            · rw [if_neg hx]
              by_cases hx' : e = e'
              · rw [if_pos hx'] at this; omega
              · rw [if_neg hx'] at this; omega
          · intro ht
            have := ht e' x dx hlt hov hdx
            rw [uses_cons, if_neg hxe] at this
            omega
        · have hmem : ∃ c₂, (c₂, x) ∈ ps := by
            have hpos : 0 < uses ps x := by omega
            unfold uses at hpos
            obtain ⟨q, hq1, hq2⟩ := List.mem_map.mp (List.count_pos_iff.mp hpos)
            exact ⟨q.1, by rw [← hq2]; exact hq1⟩
          obtain ⟨c₂, hc₂⟩ := hmem
          obtain ⟨l, r, hlr⟩ := List.append_of_mem hc₂
          have hac₂ : tr.accepts c₂.1 c₂.2 x := hds.accepted (c₂, x) (List.mem_cons_of_mem _ hc₂)
          have hcount : ∀ e, uses (l ++ (c₂, e') :: r) e + (if e = x then 1 else 0) = uses ps e + if e = e' then 1 else 0 := by
            intro e
            rw [hlr, uses_append, uses_append, uses_cons, uses_cons]
            omega
          refine finish (l ++ (c₂, e') :: r) (by rw [← hn, hlr]; simp) ⟨by rw [hlr]; simp, ?_, ?_⟩ ?_
          · intro p hp
            rw [f3]
            rcases List.mem_append.mp hp with h1 | h1
            · exact hds.accepted p (by rw [hlr]; simp [h1])
            · rcases List.mem_cons.mp h1 with h2 | h2
              · rw [h2]
                exact hsp e' x hlt hov _ _ hac₂
              · exact hds.accepted p (by rw [hlr]; simp [h2])
          · intro e d hl hd
            rw [f2] at hl
            rw [f1] at hd
            have h1 := hds.limit e d hl hd
            have h2 := hcount e
            rw [uses_cons] at h1
            rw [f4]
            omega
          · intro _ e
            have h2 := hcount e
            rw [f4, uses_cons]
            omega

/-- What the library does is a distribution. -/
theorem own {cs : List (Call α)} {tr tr' : Trace α} (h : Resolved tr cs tr') :
    ∃ ps, Distributes tr cs ps ∧ ∀ e, Trace.matched (tr ++ tr') e = tr.matched e + uses ps e := by
  induction cs generalizing tr tr' with
  | nil =>
    have : tr' = [] := by simpa using h.2.1
    subst this
    obtain ⟨⟨w, hw⟩, -, -⟩ := h
    rw [List.append_nil] at hw
    refine ⟨[], ⟨rfl, by simp, fun e d hl hd => ?_⟩, fun e => by simp [uses]⟩
    have := C02_upper_limit hw hd
    simpa [uses] using this
  | cons c cs ih =>
    obtain ⟨⟨w, hw⟩, hops, hall⟩ := h
    cases tr' with
    | nil => simp at hops
    | cons st tr' =>
      obtain ⟨o, ev⟩ := st
      simp only [List.map_cons, List.cons.injEq] at hops
      obtain ⟨rfl, hops⟩ := hops
      obtain ⟨w₀, h0⟩ := Reach.prefix (pre := tr) (post := (Op.call c.1 c.2, ev) :: tr') hw
      have happ : tr ++ (Op.call c.1 c.2, ev) :: tr' = (tr ++ [(Op.call c.1 c.2, ev)]) ++ tr' := by simp
      rw [happ] at hw
      obtain ⟨w₁, h1⟩ := Reach.prefix hw
      obtain ⟨w₂, h2, hs⟩ := Reach.snoc_inv h1
      obtain ⟨us, last, hev, -, hcase⟩ := C10_outcome h2 hs
      obtain ⟨e, he⟩ := hall _ (List.mem_cons_self ..)
      simp only at hev he
      have : ∃ x, tr.candidate c.1 c.2 x ∧ ev = us.map Event.unhandled ++ [.fullMatch x] := by
        rcases hcase with ⟨x, hx, hl⟩ | ⟨-, -, es, hl, -⟩ | ⟨-, es, hl, -⟩
        · exact ⟨x, hx, by rw [hev, hl]⟩
        · rw [hev, hl] at he; simp at he
        · rw [hev, hl] at he; simp at he
      obtain ⟨x, hx, rfl⟩ := this
      obtain ⟨f1, f2, f3, f4, f5⟩ := call_frame (tr := tr) (m := c.1) (a := c.2) (us := us) (x := x)
      obtain ⟨ps, hd, hc⟩ := ih ⟨⟨w, hw⟩, hops, fun st hst => hall st (List.mem_cons_of_mem _ hst)⟩
      refine ⟨(c, x) :: ps, ⟨by simp [hd.calls], ?_, ?_⟩, ?_⟩
      · intro p hp
        rcases List.mem_cons.mp hp with h3 | h3
        · rw [h3]; exact hx.1
        · exact (f3 _ _ _).mp (hd.accepted p h3)
      · intro e d hl hdl
        have := hd.limit e d ((f2 e).mpr hl) (by rw [f1]; exact hdl)
        rw [f4] at this
        rw [uses_cons]
        omega
      · intro e
        rw [happ, hc e, f4, uses_cons]
        omega

/-- The calls that are resolved can be counted. -/
def isFull : Event → Bool
  | .fullMatch _ => true
  | _ => false

theorem resolved_total {cs : List (Call α)} {tr tr' : Trace α} (h : Resolved tr cs tr') :
    cs.length ≤ (Trace.events (tr ++ tr')).countP isFull := by
  obtain ⟨-, hops, hall⟩ := h
  have hl : cs.length = tr'.length := by simpa using (congrArg List.length hops).symm
  have key : ∀ l : Trace α, (∀ st ∈ l, ∃ e, Event.fullMatch e ∈ st.2) → l.length ≤ l.events.countP isFull := by
    intro l
    induction l with
    | nil => intro _; simp
    | cons st l ih =>
      intro hl
      obtain ⟨e, he⟩ := hl st (List.mem_cons_self ..)
      have h1 : 0 < st.2.countP isFull := List.countP_pos_iff.mpr ⟨_, he, rfl⟩
      have h2 := ih (fun s hs => hl s (List.mem_cons_of_mem _ hs))
      have h3 : Trace.events (st :: l) = st.2 ++ Trace.events l := by simp [Trace.events]
      rw [h3, List.countP_append]
      simp only [List.length_cons]
      omega
  have h1 := key tr' hall
  have h2 : Trace.events (tr ++ tr') = tr.events ++ tr'.events := by simp [Trace.events]
  rw [h2, List.countP_append]
  omega

end Mimic.Assign
