import Verif.Proofs.Concurrent

/-!
# Helper lemmas about schedules: the possible moves, and what every schedule satisfies
-/

set_option autoImplicit false

namespace Mimic

variable {α : Type}

theorem kevents_snoc (tr : KTrace α) (x : KEntry α) : KTrace.events (tr ++ [x]) = tr.events ++ x.log.ev := by
  simp [KTrace.events]

theorem kdecl_snoc (tr : KTrace α) (x : KEntry α) (e : Nat) : KTrace.decl (tr ++ [x]) e = (tr.decl e).or (KTrace.decl [x] e) := by
  simp only [KTrace.decl, List.findSome?_append]

theorem kflight_snoc (tr : KTrace α) (x : KEntry α) (t : Nat) : KTrace.flight (tr ++ [x]) t = flightStep t (tr.flight t) x := by
  simp [KTrace.flight]

theorem kholder_snoc (tr : KTrace α) (x : KEntry α) (k : Nat) : KTrace.holder (tr ++ [x]) k = holderStep k (tr.holder k) x := by
  simp [KTrace.holder]

theorem kcounted_snoc (tr : KTrace α) (x : KEntry α) (e : Nat) :
    KTrace.counted (tr ++ [x]) e = tr.counted e + KTrace.counted [x] e := by
  simp [KTrace.counted, List.countP_append]

theorem kresolved_snoc (tr : KTrace α) (x : KEntry α) (e : Nat) :
    KTrace.resolved (tr ++ [x]) e = tr.resolved e + x.log.ev.count (.fullMatch e) := by
  simp [KTrace.resolved, kevents_snoc, List.count_append]

/-- One more call counted. -/
def countUp (x : Exp α) : Exp α := { x with control := { x.control with count := x.control.count + 1 } }

/-- The possible moves of a thread. -/
inductive KMove (asserts : Bool) (kw : KWorld α) (t : Nat) : KAct α → KWorld α → KLog → Prop where
  | rejected {c : Nat} {mn mx : Int} {ps : List (Policy α)} : kw.threads[t]? = some .idle →
    KMove asserts kw t (.expect c mn mx ps) kw { ev := [.rejected] }
  | create {c : Nat} {mn mx : Int} {ps : List (Policy α)} {es : List Nat} : kw.threads[t]? = some .idle →
    kw.w.colls[c]? = some es → 0 ≤ mn → mn ≤ mx → mx ≤ intMax →
    KMove asserts kw t (.expect c mn mx ps)
      { kw with
        w := { seqs := kw.w.seqs, exps := kw.w.exps ++ [plainExp c mn mx ps],
               colls := kw.w.colls.set c (es ++ [kw.w.exps.length]) } }
      { ev := [.created kw.w.exps.length], writes := [.storage c, .exp kw.w.exps.length],
        acquires := some (.storage c), releases := some (.storage c) }
  | hit {c e : Nat} {a : α} {es rest : List Nat} : kw.threads[t]? = some .idle → kw.w.colls[c]? = some es →
    fulls kw.w a es = e :: rest →
    KMove asserts kw t (.scan c a) (kw.at t (.matched c e))
      { ev := (es.reverse.filter (fun e => lookE kw.w a e == some .thrown)).map Event.unhandled,
        reads := .storage c :: es.map .exp, acquires := some (.storage c), releases := some (.storage c), chosen := some e }
  | inapplicable {c : Nat} {a : α} {es : List Nat} : kw.threads[t]? = some .idle → kw.w.colls[c]? = some es →
    fulls kw.w a es = [] → es.reverse.filter (fun e => lookE kw.w a e == some .inapplicable) ≠ [] →
    KMove asserts kw t (.scan c a) kw
      { ev := (es.reverse.filter (fun e => lookE kw.w a e == some .thrown)).map Event.unhandled ++
          [.inapplicable (es.reverse.filter (fun e => lookE kw.w a e == some .inapplicable))],
        reads := .storage c :: es.map .exp, acquires := some (.storage c), releases := some (.storage c) }
  | noMatch {c : Nat} {a : α} {es : List Nat} : kw.threads[t]? = some .idle → kw.w.colls[c]? = some es →
    fulls kw.w a es = [] → es.reverse.filter (fun e => lookE kw.w a e == some .inapplicable) = [] →
    KMove asserts kw t (.scan c a) kw
      { ev := (es.reverse.filter (fun e => lookE kw.w a e == some .thrown)).map Event.unhandled ++
          [.noMatch (es.reverse.filter (fun e => lookE kw.w a e == some .no))],
        reads := .storage c :: es.map .exp, acquires := some (.storage c), releases := some (.storage c) }
  | report {c e : Nat} : kw.threads[t]? = some (.matched c e) →
    KMove asserts kw t .report (kw.at t (.reported c e)) { ev := [.fullMatch e] }
  | consume {c e : Nat} {x : Exp α} : kw.threads[t]? = some (.reported c e) → kw.w.exps[e]? = some x → x.alive = true →
    x.control.count + 1 ≤ intMax → (asserts = true → x.control.count < x.control.max) →
    KMove asserts kw t .consume
      ({ kw with w := { kw.w with exps := kw.w.exps.set e (countUp x) } }.at t .idle)
      { reads := [.exp e], writes := [.exp e] }
  | remove {e : Nat} {x : Exp α} {es : List Nat} : kw.threads[t]? = some .idle → Local.removed e ∉ kw.threads →
    kw.w.exps[e]? = some x → x.alive = true → kw.w.colls[x.coll]? = some es → e ∈ es →
    KMove asserts kw t (.remove e)
      ({ kw with w := { kw.w with colls := kw.w.colls.set x.coll (es.erase e) } }.at t (.removed e))
      { ev := .destroyed e :: (if x.isSatisfied then [] else [.unfulfilled e]), reads := [.exp e],
        writes := [.storage x.coll], acquires := some (.storage x.coll), releases := some (.storage x.coll) }
  | release {e : Nat} : kw.threads[t]? = some (.removed e) →
    KMove asserts kw t .release
      ({ kw with w := { kw.w with exps := kw.w.exps.modify e (fun x => { x with alive := false }) } }.at t .idle)
      { writes := [.exp e] }
  | query {e : Nat} {x : Exp α} : kw.threads[t]? = some .idle → Local.removed e ∉ kw.threads →
    kw.w.exps[e]? = some x → x.alive = true →
    KMove asserts kw t (.query e) kw { reads := [.exp e], answer := some x.isSatisfied }
  | lock {k : Nat} : t < kw.threads.length → (∀ h ∈ kw.held, h.1 ≠ k) →
    KMove asserts kw t (.lock k) { kw with held := (k, t) :: kw.held } { acquires := some (.client k) }
  | unlock {k : Nat} : (k, t) ∈ kw.held →
    KMove asserts kw t (.unlock k) { kw with held := kw.held.erase (k, t) } { releases := some (.client k) }

/-- What the steps rely on. -/
structure KOk (kw : KWorld α) : Prop where
  plain : ∀ (e : Nat) (x : Exp α), kw.w.exps[e]? = some x → x.control.entries = []
  nonneg : ∀ (e : Nat) (x : Exp α), kw.w.exps[e]? = some x → 0 ≤ x.control.count
  stored : ∀ (c : Nat) (es : List Nat), kw.w.colls[c]? = some es → ∀ e ∈ es, ∃ x, kw.w.exps[e]? = some x ∧ x.alive = true

theorem consume_plain {w : World α} {e : Nat} {x : Exp α} (asserts : Bool) (hx : w.exps[e]? = some x) (hen : x.control.entries = [])
    (hnn : 0 ≤ x.control.count) :
    w.consumeIn asserts e =
      if x.alive then
        if asserts = true ∧ ¬ x.control.count < x.control.max then .error (.ub "ControlPolicy::consume: assert(is_applicable())")
        else if x.control.count + 1 ≤ intMax then
          .ok { w with exps := w.exps.set e (countUp x) }
        else .error (.ub "signed int overflow")
      else .error (.ub "use of a destroyed expectation") := by
  have hup : ∀ c : Control, c.entries = [] → c.updateSequenceStates w.seqs = .ok w.seqs := by
    intro c hc
    simp only [Control.updateSequenceStates, hc, forEntries]
    split
    · rfl
    · split <;> rfl
  have hto : toInt (x.control.count + 1) =
      if x.control.count + 1 ≤ intMax then .ok (x.control.count + 1) else .error (.ub "signed int overflow") := by
    simp only [toInt]
    have : intMin ≤ x.control.count + 1 := by simp only [intMin]; omega
    simp only [this, true_and]
  cases hal : x.alive with
  | false =>
    cases asserts <;> simp [World.consumeIn, World.consume, World.count, World.deref, hx, hal, bind, Except.bind]
  | true =>
    cases asserts with
    | false =>
      simp only [World.consumeIn, World.count, World.deref, hx, hal, bind, Except.bind, hto, Bool.false_eq_true, if_false,
        if_true, false_and]
      split <;> rename_i h
      · split at h <;> simp_all
      · split at h <;> simp_all [pure, Except.pure, countUp]
    | true =>
      simp only [World.consumeIn, World.consume, World.deref, hx, hal, bind, Except.bind, if_true, Control.consume,
        Control.isApplicable, hen, allConsumable, forEntries, hto, check, true_and]
      by_cases hlt : x.control.count < x.control.max
      · simp only [hlt, if_true, not_true, if_false]
        by_cases hi : x.control.count + 1 ≤ intMax
        · simp only [hi, if_true]
          rw [hup _ (by simp)]
          simp [pure, Except.pure, countUp, hen, hal]
        · simp [hi]
      · simp [hlt]

theorem kmove {asserts : Bool} {kw kw' : KWorld α} {t : Nat} {act : KAct α} {log : KLog} (hok : KOk kw)
    (h : kw.step asserts t act = .ok (kw', log)) : KMove asserts kw t act kw' log := by
  cases act with
  | expect c mn mx ps =>
    simp only [KWorld.step] at h
    split at h
    · rename_i hidle
      simp only [bind, Except.bind, pure, Except.pure] at h
      split at h
      · simp at h
      · rename_i r hr
        obtain ⟨w', ev⟩ := r
        rcases expect_plain hr with ⟨rfl, rfl⟩ | ⟨es, h1, rfl, h2, h3, h4, rfl⟩
        · simp only [if_true, Except.ok.injEq, Prod.mk.injEq] at h
          obtain ⟨rfl, rfl⟩ := h
          exact .rejected hidle
        · simp only [List.cons.injEq, reduceCtorEq, false_and, if_false, Except.ok.injEq, Prod.mk.injEq] at h
          obtain ⟨rfl, rfl⟩ := h
          exact .create hidle h1 h2 h3 h4
    · simp at h
  | scan c a =>
    by_cases hidle : kw.threads[t]? = some .idle
    · cases hc : kw.w.colls[c]? with
      | none => simp [KWorld.step, hidle, hc] at h
      | some es =>
        rw [scan_step hidle hc (by
          intro e he
          obtain ⟨x, h1, h2⟩ := hok.stored c es hc e he
          exact ⟨x, h1, h2, hok.plain e x h1⟩)] at h
        simp only at h
        split at h
        · rename_i e rest hf
          simp only [Except.ok.injEq, Prod.mk.injEq] at h
          obtain ⟨rfl, rfl⟩ := h
          exact .hit hidle hc hf
        · rename_i hf
          split at h
          · rename_i hi
            simp only [Except.ok.injEq, Prod.mk.injEq] at h
            obtain ⟨rfl, rfl⟩ := h
            refine .inapplicable hidle hc hf ?_
            intro h0
            rw [h0] at hi
            simp at hi
          · rename_i hi
            simp only [Except.ok.injEq, Prod.mk.injEq] at h
            obtain ⟨rfl, rfl⟩ := h
            refine .noMatch hidle hc hf ?_
            simpa using hi
    · simp [KWorld.step, hidle] at h
  | report =>
    simp only [KWorld.step] at h
    split at h
    · rename_i c e hm
      simp only [Except.ok.injEq, Prod.mk.injEq] at h
      obtain ⟨rfl, rfl⟩ := h
      exact .report hm
    · simp at h
  | consume =>
    simp only [KWorld.step] at h
    split at h
    · rename_i c e hm
      cases hx : kw.w.exps[e]? with
      | none =>
        cases asserts <;>
          simp [World.consumeIn, World.consume, World.count, World.deref, hx, bind, Except.bind] at h
      | some x =>
        simp only [bind, Except.bind, pure, Except.pure] at h
        rw [consume_plain asserts hx (hok.plain e x hx) (hok.nonneg e x hx)] at h
        by_cases h1 : x.alive = true
        · by_cases h2 : asserts = true ∧ ¬ x.control.count < x.control.max
          · simp [h1, h2] at h
          · by_cases h3 : x.control.count + 1 ≤ intMax
            · simp only [h1, if_true, h2, if_false, h3, Except.ok.injEq, Prod.mk.injEq] at h
              obtain ⟨rfl, rfl⟩ := h
              exact .consume hm hx h1 h3 (fun ha => Classical.byContradiction (fun hn => h2 ⟨ha, hn⟩))
            · simp only [h1, if_true, h2, if_false, h3] at h
              simp at h
        · simp [h1] at h
    · simp at h
  | remove e =>
    simp only [KWorld.step] at h
    split at h
    · rename_i hidle
      split at h
      · simp at h
      · rename_i hr
        split at h
        · simp at h
        · rename_i x hx
          split at h
          · simp at h
          · rename_i hal
            split at h
            · simp at h
            · rename_i es hes
              simp only [check, bind, Except.bind, pure, Except.pure] at h
              by_cases hc : e ∈ es
              · simp only [List.contains_iff_mem, hc, if_true, Except.ok.injEq, Prod.mk.injEq] at h
                obtain ⟨rfl, rfl⟩ := h
                exact .remove hidle (by simpa using hr) hx (by simpa using hal) hes hc
              · simp [hc] at h
    · simp at h
  | release =>
    simp only [KWorld.step] at h
    split at h
    · rename_i e hm
      simp only [Except.ok.injEq, Prod.mk.injEq] at h
      obtain ⟨rfl, rfl⟩ := h
      exact .release hm
    · simp at h
  | query e =>
    simp only [KWorld.step] at h
    split at h
    · rename_i hidle
      split at h
      · simp at h
      · rename_i hr
        split at h
        · simp at h
        · rename_i x hx
          split at h
          · rename_i hal
            simp only [Except.ok.injEq, Prod.mk.injEq] at h
            obtain ⟨rfl, rfl⟩ := h
            exact .query hidle (by simpa using hr) hx hal
          · simp at h
    · simp at h
  | lock k =>
    simp only [KWorld.step] at h
    split at h
    · rename_i hh
      simp only [Except.ok.injEq, Prod.mk.injEq] at h
      obtain ⟨rfl, rfl⟩ := h
      exact .lock hh.1 hh.2
    · simp at h
  | unlock k =>
    simp only [KWorld.step] at h
    split at h
    · rename_i hh
      simp only [Except.ok.injEq, Prod.mk.injEq] at h
      obtain ⟨rfl, rfl⟩ := h
      exact .unlock hh
    · simp at h

/-! ### The invariant -/

/-- The call that a thread is in. -/
def Local.call : Local → Option (Nat × Nat)
  | .matched c e => some (c, e)
  | .reported c e => some (c, e)
  | _ => none

/-- Whether the thread has reported a call that is not counted yet. -/
def Local.reports (e : Nat) : Local → Bool
  | .reported _ e' => e' == e
  | _ => false

def declOf (x : Exp α) : Decl α :=
  { mock := x.coll, min := x.control.min, max := x.control.max, seqs := [], policies := x.policies }

/-- What matters of a schedule. -/
structure KSum (α : Type) where
  flight : Nat → Option (Nat × Nat)
  decl : Nat → Option (Decl α)
  counted : Nat → Nat
  resolved : Nat → Nat
  gone : Nat → Prop
  holder : Nat → Option Nat

def KTrace.sum (tr : KTrace α) : KSum α :=
  { flight := tr.flight, decl := tr.decl, counted := tr.counted, resolved := tr.resolved,
    gone := fun e => Event.destroyed e ∈ tr.events, holder := tr.holder }

/-- What one move changes. -/
def KSum.move (s : KSum α) (t : Nat) (act : KAct α) (log : KLog) : KSum α :=
  match act with
  | .expect c mn mx ps =>
    match log.ev with
    | [.created e] =>
      { s with decl := fun e' => (s.decl e').or (if e' = e then some { mock := c, min := mn, max := mx, seqs := [], policies := ps } else none) }
    | _ => s
  | .scan c _ => { s with flight := fun t' => if t' = t then log.chosen.map (fun e => (c, e)) else s.flight t' }
  | .report =>
    match log.ev with
    | [.fullMatch e] => { s with resolved := fun e' => s.resolved e' + (if e' = e then 1 else 0) }
    | _ => s
  | .consume =>
    match log.writes with
    | [.exp e] =>
      { s with flight := fun t' => if t' = t then none else s.flight t',
               counted := fun e' => s.counted e' + (if e' = e then 1 else 0) }
    | _ => s
  | .remove e => { s with gone := fun e' => e' = e ∨ s.gone e' }
  | .lock k => { s with holder := fun k' => if k' = k then some t else s.holder k' }
  | .unlock k => { s with holder := fun k' => if k' = k then none else s.holder k' }
  | _ => s

structure KInv (n m : Nat) (s : KSum α) (kw : KWorld α) : Prop where
  len : kw.threads.length = n
  colls_len : kw.w.colls.length = m
  no_seqs : kw.w.seqs = []
  flight : ∀ (t : Nat) (l : Local), kw.threads[t]? = some l → s.flight t = l.call
  flight_none : ∀ t, n ≤ t → s.flight t = none
  decl : ∀ e, s.decl e = (kw.w.exps[e]?).map declOf
  plain : ∀ (e : Nat) (x : Exp α), kw.w.exps[e]? = some x → x.control.entries = []
  limits : ∀ (e : Nat) (x : Exp α), kw.w.exps[e]? = some x →
    0 ≤ x.control.min ∧ x.control.min ≤ x.control.max ∧ x.control.max ≤ intMax
  count : ∀ (e : Nat) (x : Exp α), kw.w.exps[e]? = some x → x.control.count = s.counted e
  coll_lt : ∀ (e : Nat) (x : Exp α), kw.w.exps[e]? = some x → x.coll < m
  fresh : ∀ e, kw.w.exps.length ≤ e → s.counted e = 0 ∧ s.resolved e = 0 ∧ ¬ s.gone e
  gone : ∀ (e : Nat) (x : Exp α), kw.w.exps[e]? = some x →
    (s.gone e ↔ x.alive = false ∨ Local.removed e ∈ kw.threads)
  removing : ∀ e, Local.removed e ∈ kw.threads → ∃ x, kw.w.exps[e]? = some x ∧ x.alive = true
  once : ∀ (t t' e : Nat), kw.threads[t]? = some (.removed e) → kw.threads[t']? = some (.removed e) → t = t'
  sorted : ∀ (c : Nat) (es : List Nat), kw.w.colls[c]? = some es → es.Pairwise (· < ·)
  stored : ∀ (c : Nat) (es : List Nat), kw.w.colls[c]? = some es → ∀ e, e ∈ es ↔
    (∃ x, kw.w.exps[e]? = some x ∧ x.coll = c) ∧ ¬ s.gone e
  pending : ∀ (t : Nat) (l : Local) (c e : Nat), kw.threads[t]? = some l → l.call = some (c, e) →
    ∃ x, kw.w.exps[e]? = some x ∧ x.coll = c
  resolved : ∀ e, s.resolved e = s.counted e + kw.threads.countP (Local.reports e)
  held : ∀ k t, (k, t) ∈ kw.held ↔ s.holder k = some t
  held_nodup : kw.held.Nodup
  held_lt : ∀ k t, (k, t) ∈ kw.held → t < n

theorem KInv.ok {n m : Nat} {s : KSum α} {kw : KWorld α} (h : KInv n m s kw) : KOk kw where
  plain := h.plain
  nonneg := by
    intro e x hx
    rw [h.count e x hx]
    omega
  stored := by
    intro c es hc e he
    obtain ⟨⟨x, hx, _⟩, hd⟩ := (h.stored c es hc e).mp he
    refine ⟨x, hx, ?_⟩
    cases hal : x.alive with
    | true => rfl
    | false => exact absurd ((h.gone e x hx).mpr (Or.inl hal)) hd

theorem KInv.init (n m : Nat) : KInv (α := α) n m (KTrace.sum []) (KWorld.init n m) where
  len := by simp [KWorld.init]
  colls_len := by simp [KWorld.init]
  no_seqs := rfl
  flight := by
    intro t l h
    simp only [KWorld.init, List.getElem?_replicate] at h
    split at h
    · simp only [Option.some.injEq] at h
      subst h
      rfl
    · simp at h
  flight_none := by intro t _; rfl
  decl := by intro e; simp [KWorld.init, KTrace.decl, KTrace.sum]
  plain := by intro e x h; simp [KWorld.init] at h
  limits := by intro e x h; simp [KWorld.init] at h
  count := by intro e x h; simp [KWorld.init] at h
  coll_lt := by intro e x h; simp [KWorld.init] at h
  fresh := by intro e _; simp [KTrace.counted, KTrace.resolved, KTrace.events, KTrace.sum]
  gone := by intro e x h; simp [KWorld.init] at h
  removing := by intro e h; simp [KWorld.init] at h
  once := by
    intro t t' e h
    simp only [KWorld.init, List.getElem?_replicate] at h
    split at h <;> simp at h
  sorted := by
    intro c es h
    simp only [KWorld.init, List.getElem?_replicate] at h
    split at h
    · simp only [Option.some.injEq] at h; subst h; simp
    · simp at h
  stored := by
    intro c es h e
    simp only [KWorld.init, List.getElem?_replicate] at h
    split at h
    · simp only [Option.some.injEq] at h; subst h; simp [KWorld.init, KTrace.sum, KTrace.events]
    · simp at h
  pending := by
    intro t l c e h hl
    simp only [KWorld.init, List.getElem?_replicate] at h
    split at h
    · simp only [Option.some.injEq] at h; subst h; simp [Local.call] at hl
    · simp at h
  resolved := by
    intro e
    simp [KTrace.sum, KTrace.resolved, KTrace.counted, KTrace.events, KWorld.init, Local.reports, List.countP_replicate]
  held := by intro k t; simp [KWorld.init, KTrace.holder, KTrace.sum]
  held_nodup := by simp [KWorld.init]
  held_lt := by intro k t h; simp [KWorld.init] at h

theorem countP_set {l : List Local} {t : Nat} {a b : Local} (h : l[t]? = some a) (p : Local → Bool) :
    (l.set t b).countP p + (if p a then 1 else 0) = l.countP p + (if p b then 1 else 0) := by
  induction l generalizing t with
  | nil => simp at h
  | cons c l ih =>
    cases t with
    | zero =>
      simp only [List.getElem?_cons_zero, Option.some.injEq] at h
      subst h
      simp only [List.set_cons_zero, List.countP_cons]
      omega
    | succ t =>
      simp only [List.getElem?_cons_succ] at h
      have := ih h
      simp only [List.set_cons_succ, List.countP_cons]
      omega

theorem ksum_move {asserts : Bool} {tr : KTrace α} {kw kw' : KWorld α} {t : Nat} {act : KAct α} {log : KLog}
    (h : KMove asserts kw t act kw' log) : KTrace.sum (tr ++ [⟨t, act, log⟩]) = tr.sum.move t act log := by
  have e1 : KTrace.flight (tr ++ [⟨t, act, log⟩]) = (tr.sum.move t act log).flight := by
    funext t'
    rw [kflight_snoc]
    cases h <;> simp only [KSum.move, KTrace.sum, flightStep] <;> grind
  have e2 : KTrace.decl (tr ++ [⟨t, act, log⟩]) = (tr.sum.move t act log).decl := by
    funext e
    rw [kdecl_snoc]
    cases h <;> simp [KSum.move, KTrace.sum, KTrace.decl] <;> grind
  have e3 : KTrace.counted (tr ++ [⟨t, act, log⟩]) = (tr.sum.move t act log).counted := by
    funext e
    rw [kcounted_snoc]
    cases h <;> simp [KSum.move, KTrace.sum, KTrace.counted] <;> grind
  have e4 : KTrace.resolved (tr ++ [⟨t, act, log⟩]) = (tr.sum.move t act log).resolved := by
    funext e
    rw [kresolved_snoc]
    cases h with
    | remove hidle hr hx hal hc he =>
      simp only [KSum.move, KTrace.sum]
      split <;> simp
    | hit hidle hc hf => simp [KSum.move, KTrace.sum, List.count_eq_zero]
    | inapplicable hidle hc hf => simp [KSum.move, KTrace.sum, List.count_eq_zero]
    | noMatch hidle hc hf => simp [KSum.move, KTrace.sum, List.count_eq_zero]
    | report hl =>
      simp only [KSum.move, KTrace.sum, List.count_cons, List.count_nil, beq_iff_eq, Event.fullMatch.injEq]
      grind
    | _ => simp [KSum.move, KTrace.sum]
  have e5 : (fun e => Event.destroyed e ∈ KTrace.events (tr ++ [⟨t, act, log⟩])) = (tr.sum.move t act log).gone := by
    funext e
    rw [kevents_snoc]
    cases h <;> simp [KSum.move, KTrace.sum] <;> grind
  have e6 : KTrace.holder (tr ++ [⟨t, act, log⟩]) = (tr.sum.move t act log).holder := by
    funext k
    rw [kholder_snoc]
    cases h <;> simp [KSum.move, KTrace.sum, holderStep] <;> grind
  have : KTrace.sum (tr ++ [⟨t, act, log⟩]) = ⟨KTrace.flight (tr ++ [⟨t, act, log⟩]), KTrace.decl (tr ++ [⟨t, act, log⟩]),
      KTrace.counted (tr ++ [⟨t, act, log⟩]), KTrace.resolved (tr ++ [⟨t, act, log⟩]),
      fun e => Event.destroyed e ∈ KTrace.events (tr ++ [⟨t, act, log⟩]), KTrace.holder (tr ++ [⟨t, act, log⟩])⟩ := rfl
  rw [this, e1, e2, e3, e4, e5, e6]

theorem KInv.create {n m : Nat} {s : KSum α} {kw : KWorld α} (hi : KInv n m s kw) {c : Nat} {mn mx : Int}
    {ps : List (Policy α)} {es : List Nat} (hc : kw.w.colls[c]? = some es) (h0 : 0 ≤ mn) (h1 : mn ≤ mx) (h2 : mx ≤ intMax) :
    KInv n m
      { s with decl := fun e' => (s.decl e').or (if e' = kw.w.exps.length then some { mock := c, min := mn, max := mx, seqs := [], policies := ps } else none) }
      { kw with
        w := { seqs := kw.w.seqs, exps := kw.w.exps ++ [plainExp c mn mx ps],
               colls := kw.w.colls.set c (es ++ [kw.w.exps.length]) } } where
  len := hi.len
  colls_len := by simpa using hi.colls_len
  no_seqs := hi.no_seqs
  flight := hi.flight
  flight_none := hi.flight_none
  decl := by
    have := hi.decl
    grind [declOf, plainExp]
  plain := by have := hi.plain; grind [plainExp]
  limits := by have := hi.limits; grind [plainExp]
  count := by have := hi.count; have := hi.fresh kw.w.exps.length (Nat.le_refl _); grind [plainExp]
  coll_lt := by have := hi.coll_lt; have := hi.colls_len; grind [plainExp]
  fresh := by have := hi.fresh; grind
  gone := by have := hi.gone; have := hi.removing; have := hi.fresh kw.w.exps.length (Nat.le_refl _); grind [plainExp]
  removing := by have := hi.removing; grind
  once := hi.once
  sorted := by
    have := hi.sorted
    have := hi.stored
    intro c' es' h
    simp only [List.getElem?_set] at h
    split at h
    · split at h
      · simp only [Option.some.injEq] at h
        subst h
        rw [List.pairwise_append]
        refine ⟨hi.sorted c es hc, by simp, ?_⟩
        intro a ha b hb
        obtain ⟨⟨x, hx, _⟩, _⟩ := (hi.stored c es hc a).mp ha
        simp only [List.mem_cons, List.not_mem_nil, or_false] at hb
        subst hb
        exact (List.getElem?_eq_some_iff.mp hx).1
      · simp at h
    · exact hi.sorted c' es' h
  stored := by
    have := hi.stored
    have := hi.fresh kw.w.exps.length (Nat.le_refl _)
    intro c' es' h e
    simp only [List.getElem?_set] at h
    have hlen : c < kw.w.colls.length := (List.getElem?_eq_some_iff.mp hc).1
    split at h
    · simp only [Option.some.injEq] at h
      subst h
      rename_i hcc
      subst hcc
      rw [List.mem_append, hi.stored c es hc e]
      rcases Nat.lt_trichotomy e kw.w.exps.length with hlt | heq | hgt
      · have : e ≠ kw.w.exps.length := by omega
        rw [List.getElem?_append_left hlt]
        grind
      · subst heq
        have : (kw.w.exps ++ [plainExp c mn mx ps])[kw.w.exps.length]? = some (plainExp c mn mx ps) := by simp
        have h3 : (plainExp c mn mx ps).coll = c := rfl
        grind
      · grind
    · rw [hi.stored c' es' h e]
      grind [plainExp]
  pending := by have := hi.pending; grind
  resolved := hi.resolved
  held := hi.held
  held_nodup := hi.held_nodup
  held_lt := hi.held_lt

theorem fulls_mem {w : World α} {a : α} {es rest : List Nat} {e : Nat} (h : fulls w a es = e :: rest) : e ∈ es := by
  have : e ∈ fulls w a es := by rw [h]; simp
  simp only [fulls, List.mem_filter, List.mem_reverse] at this
  exact this.1

theorem mem_set_ne {l : List Local} {t : Nat} {a x b : Local} (h : l[t]? = some x) (hb : b ≠ a) (hx : b ≠ x) :
    b ∈ l.set t a ↔ b ∈ l := by
  constructor
  · intro hm
    rcases List.mem_or_eq_of_mem_set hm with h' | h'
    · exact h'
    · exact absurd h' hb
  · intro hm
    obtain ⟨i, hi⟩ := List.mem_iff_getElem?.mp hm
    refine List.mem_iff_getElem?.mpr ⟨i, ?_⟩
    rw [List.getElem?_set]
    split
    · rename_i he
      subst he
      rw [h] at hi
      simp only [Option.some.injEq] at hi
      exact absurd hi.symm hx
    · exact hi

theorem KInv.hit {n m : Nat} {s : KSum α} {kw : KWorld α} (hi : KInv n m s kw) {t c e : Nat} {es : List Nat}
    (hl : kw.threads[t]? = some .idle) (hc : kw.w.colls[c]? = some es) (he : e ∈ es) :
    KInv n m { s with flight := fun t' => if t' = t then some (c, e) else s.flight t' } (kw.at t (.matched c e)) where
  len := by simpa [KWorld.at] using hi.len
  colls_len := hi.colls_len
  no_seqs := hi.no_seqs
  flight := by have := hi.flight; grind [KWorld.at, Local.call]
  flight_none := by have := hi.flight_none; have := hi.len; grind
  decl := hi.decl
  plain := hi.plain
  limits := hi.limits
  count := hi.count
  coll_lt := hi.coll_lt
  fresh := hi.fresh
  gone := by
    intro e' x hx
    simp only [KWorld.at]
    rw [mem_set_ne hl (by simp) (by simp)]
    exact hi.gone e' x hx
  removing := by
    intro e'
    simp only [KWorld.at]
    rw [mem_set_ne hl (by simp) (by simp)]
    exact hi.removing e'
  once := by have := hi.once; grind [KWorld.at]
  sorted := hi.sorted
  stored := hi.stored
  pending := by
    have := hi.pending
    have := (hi.stored c es hc e).mp he
    grind [KWorld.at, Local.call]
  resolved := by
    intro e'
    simp only [KWorld.at]
    have := countP_set (p := Local.reports e') hl (b := .matched c e)
    simp only [Local.reports] at this
    have := hi.resolved e'
    grind
  held := hi.held
  held_nodup := hi.held_nodup
  held_lt := hi.held_lt

theorem KInv.reportStep {n m : Nat} {s : KSum α} {kw : KWorld α} (hi : KInv n m s kw) {t c e : Nat}
    (hl : kw.threads[t]? = some (.matched c e)) :
    KInv n m { s with resolved := fun e' => s.resolved e' + (if e' = e then 1 else 0) } (kw.at t (.reported c e)) where
  len := by simpa [KWorld.at] using hi.len
  colls_len := hi.colls_len
  no_seqs := hi.no_seqs
  flight := by have := hi.flight; grind [KWorld.at, Local.call]
  flight_none := by have := hi.flight_none; have := hi.len; grind
  decl := hi.decl
  plain := hi.plain
  limits := hi.limits
  count := hi.count
  coll_lt := hi.coll_lt
  fresh := by
    have := hi.fresh
    have := hi.pending t _ c e hl rfl
    grind [KWorld.at]
  gone := by
    intro e' x hx
    simp only [KWorld.at]
    rw [mem_set_ne hl (by simp) (by simp)]
    exact hi.gone e' x hx
  removing := by
    intro e'
    simp only [KWorld.at]
    rw [mem_set_ne hl (by simp) (by simp)]
    exact hi.removing e'
  once := by have := hi.once; grind [KWorld.at]
  sorted := hi.sorted
  stored := hi.stored
  pending := by
    have := hi.pending
    grind [KWorld.at, Local.call]
  resolved := by
    intro e'
    simp only [KWorld.at]
    have := countP_set (p := Local.reports e') hl (b := .reported c e)
    simp only [Local.reports] at this
    have := hi.resolved e'
    grind
  held := hi.held
  held_nodup := hi.held_nodup
  held_lt := hi.held_lt

theorem KInv.consumeStep {n m : Nat} {s : KSum α} {kw : KWorld α} (hi : KInv n m s kw) {t c e : Nat} {x : Exp α}
    (hl : kw.threads[t]? = some (.reported c e)) (hx : kw.w.exps[e]? = some x) :
    KInv n m
      { s with flight := fun t' => if t' = t then none else s.flight t',
               counted := fun e' => s.counted e' + (if e' = e then 1 else 0) }
      ({ kw with w := { kw.w with exps := kw.w.exps.set e (countUp x) } }.at t .idle) where
  len := by simpa [KWorld.at] using hi.len
  colls_len := hi.colls_len
  no_seqs := hi.no_seqs
  flight := by have := hi.flight; grind [KWorld.at, Local.call]
  flight_none := by have := hi.flight_none; have := hi.len; grind
  decl := by have := hi.decl; grind [KWorld.at, countUp, declOf]
  plain := by have := hi.plain; grind [KWorld.at, countUp]
  limits := by have := hi.limits; grind [KWorld.at, countUp]
  count := by have := hi.count; grind [KWorld.at, countUp]
  coll_lt := by have := hi.coll_lt; grind [KWorld.at, countUp]
  fresh := by
    have := hi.fresh
    grind [KWorld.at]
  gone := by
    intro e' x' hx'
    simp only [KWorld.at] at hx' ⊢
    rw [mem_set_ne hl (by simp) (by simp)]
    have := hi.gone
    grind [countUp]
  removing := by
    intro e'
    simp only [KWorld.at]
    rw [mem_set_ne hl (by simp) (by simp)]
    have := hi.removing e'
    grind [countUp]
  once := by have := hi.once; grind [KWorld.at]
  sorted := hi.sorted
  stored := by
    intro c' es' h e'
    rw [hi.stored c' es' h e']
    grind [KWorld.at, countUp]
  pending := by
    have := hi.pending
    intro t' l' c' e' h1 h2
    have : ∃ x, kw.w.exps[e']? = some x ∧ x.coll = c' := by grind [KWorld.at, Local.call]
    grind [KWorld.at, countUp]
  resolved := by
    intro e'
    simp only [KWorld.at]
    have := countP_set (p := Local.reports e') hl (b := .idle)
    simp only [Local.reports] at this
    have := hi.resolved e'
    grind
  held := hi.held
  held_nodup := hi.held_nodup
  held_lt := hi.held_lt

theorem KInv.removeStep {n m : Nat} {s : KSum α} {kw : KWorld α} (hi : KInv n m s kw) {t e : Nat} {x : Exp α} {es : List Nat}
    (hl : kw.threads[t]? = some .idle) (hr : Local.removed e ∉ kw.threads) (hx : kw.w.exps[e]? = some x) (hal : x.alive = true)
    (hc : kw.w.colls[x.coll]? = some es) :
    KInv n m { s with gone := fun e' => e' = e ∨ s.gone e' }
      ({ kw with w := { kw.w with colls := kw.w.colls.set x.coll (es.erase e) } }.at t (.removed e)) where
  len := by simpa [KWorld.at] using hi.len
  colls_len := by simpa [KWorld.at] using hi.colls_len
  no_seqs := hi.no_seqs
  flight := by have := hi.flight; grind [KWorld.at, Local.call]
  flight_none := hi.flight_none
  decl := hi.decl
  plain := hi.plain
  limits := hi.limits
  count := hi.count
  coll_lt := hi.coll_lt
  fresh := by
    have := hi.fresh
    grind [KWorld.at]
  gone := by
    intro e' x' hx'
    simp only [KWorld.at] at hx' ⊢
    by_cases hee : e' = e
    · subst hee
      have : Local.removed e' ∈ kw.threads.set t (.removed e') :=
        List.mem_iff_getElem?.mpr ⟨t, by grind⟩
      grind
    · rw [mem_set_ne hl (by simpa using hee) (by simp)]
      have := hi.gone e' x' hx'
      grind
  removing := by
    intro e'
    simp only [KWorld.at]
    by_cases hee : e' = e
    · subst hee
      intro _
      exact ⟨x, hx, hal⟩
    · rw [mem_set_ne hl (by simpa using hee) (by simp)]
      exact hi.removing e'
  once := by
    have := hi.once
    have : ∀ t' : Nat, kw.threads[t']? ≠ some (Local.removed e) := by
      intro t' h
      exact hr (List.mem_iff_getElem?.mpr ⟨t', h⟩)
    grind [KWorld.at]
  sorted := by
    intro c' es' h
    simp only [KWorld.at, List.getElem?_set] at h
    have := hi.sorted
    split at h
    · split at h
      · simp only [Option.some.injEq] at h
        subst h
        exact (hi.sorted _ es hc).sublist List.erase_sublist
      · simp at h
    · exact hi.sorted c' es' h
  stored := by
    intro c' es' h e'
    simp only [KWorld.at, List.getElem?_set] at h ⊢
    have hlen := (List.getElem?_eq_some_iff.mp hc).1
    split at h
    · simp only [Option.some.injEq] at h
      subst h
      rename_i hcc
      subst hcc
      have hnd : es.Nodup := (hi.sorted _ es hc).imp (fun h => by omega)
      rw [hnd.mem_erase_iff, hi.stored _ es hc e']
      grind
    · rw [hi.stored c' es' h e']
      grind
  pending := by
    have := hi.pending
    grind [KWorld.at, Local.call]
  resolved := by
    intro e'
    simp only [KWorld.at]
    have := countP_set (p := Local.reports e') hl (b := .removed e)
    simp only [Local.reports] at this
    have := hi.resolved e'
    grind
  held := hi.held
  held_nodup := hi.held_nodup
  held_lt := hi.held_lt

theorem KInv.releaseStep {n m : Nat} {s : KSum α} {kw : KWorld α} (hi : KInv n m s kw) {t e : Nat}
    (hl : kw.threads[t]? = some (.removed e)) :
    KInv n m s
      ({ kw with w := { kw.w with exps := kw.w.exps.modify e (fun x => { x with alive := false }) } }.at t .idle) where
  len := by simpa [KWorld.at] using hi.len
  colls_len := hi.colls_len
  no_seqs := hi.no_seqs
  flight := by have := hi.flight; grind [KWorld.at, Local.call]
  flight_none := hi.flight_none
  decl := by have := hi.decl; grind [KWorld.at, declOf]
  plain := by have := hi.plain; grind [KWorld.at]
  limits := by have := hi.limits; grind [KWorld.at]
  count := by have := hi.count; grind [KWorld.at]
  coll_lt := by have := hi.coll_lt; grind [KWorld.at]
  fresh := by
    have := hi.fresh
    grind [KWorld.at]
  gone := by
    intro e' x' hx'
    simp only [KWorld.at] at hx' ⊢
    by_cases hee : e' = e
    · subst hee
      have hin : Local.removed e' ∈ kw.threads := List.mem_iff_getElem?.mpr ⟨t, hl⟩
      have := hi.gone
      grind
    · rw [mem_set_ne hl (by simp) (by simpa using hee)]
      have := hi.gone e'
      grind
  removing := by
    intro e'
    simp only [KWorld.at]
    by_cases hee : e' = e
    · subst hee
      intro hm
      obtain ⟨t', ht'⟩ := List.mem_iff_getElem?.mp hm
      have := hi.once t t' e' hl
      grind
    · rw [mem_set_ne hl (by simp) (by simpa using hee)]
      have := hi.removing e'
      grind
  once := by
    have := hi.once
    grind [KWorld.at]
  sorted := hi.sorted
  stored := by
    intro c' es' h e'
    rw [hi.stored c' es' h e']
    grind [KWorld.at]
  pending := by
    have := hi.pending
    intro t' l' c' e' h1 h2
    have : ∃ x, kw.w.exps[e']? = some x ∧ x.coll = c' := by grind [KWorld.at, Local.call]
    grind [KWorld.at]
  resolved := by
    intro e'
    simp only [KWorld.at]
    have := countP_set (p := Local.reports e') hl (b := .idle)
    simp only [Local.reports] at this
    have := hi.resolved e'
    grind
  held := hi.held
  held_nodup := hi.held_nodup
  held_lt := hi.held_lt

theorem KInv.idle {n m : Nat} {s : KSum α} {kw : KWorld α} (hi : KInv n m s kw) {t : Nat} (hl : kw.threads[t]? = some .idle) :
    { s with flight := fun t' => if t' = t then none else s.flight t' } = s := by
  have : (fun t' => if t' = t then none else s.flight t') = s.flight := by
    funext t'
    split
    · rename_i h
      subst h
      exact (hi.flight _ _ hl).symm
    · rfl
  rw [this]

theorem KInv.step {asserts : Bool} {n m : Nat} {s : KSum α} {kw kw' : KWorld α} {t : Nat} {act : KAct α} {log : KLog}
    (hi : KInv n m s kw) (h : KMove asserts kw t act kw' log) : KInv n m (s.move t act log) kw' := by
  cases h with
  | rejected hl => exact hi
  | create hl hc h0 h1 h2 => exact hi.create hc h0 h1 h2
  | hit hl hc hf => exact hi.hit hl hc (fulls_mem hf)
  | inapplicable hl hc hf hn =>
    simp only [KSum.move, Option.map_none]
    rw [hi.idle hl]
    exact hi
  | noMatch hl hc hf hn =>
    simp only [KSum.move, Option.map_none]
    rw [hi.idle hl]
    exact hi
  | report hl => exact hi.reportStep hl
  | consume hl hx hal ho ha => exact hi.consumeStep hl hx
  | remove hl hr hx hal hc he => exact hi.removeStep hl hr hx hal hc
  | release hl => exact hi.releaseStep hl
  | query hl hr hx hal => exact hi
  | lock ht hk =>
    rename_i k
    exact { hi with
      held := by
        have := hi.held
        intro k' t'
        simp only [KSum.move]
        have := hi.held k' t'
        grind
      held_nodup := by
        rw [List.nodup_cons]
        exact ⟨fun hm => hk _ hm rfl, hi.held_nodup⟩
      held_lt := by
        have := hi.held_lt
        have := hi.len
        grind }
  | unlock hk =>
    rename_i k
    exact { hi with
      held := by
        intro k' t'
        simp only [KSum.move]
        rw [hi.held_nodup.mem_erase_iff]
        have := hi.held k' t'
        have := hi.held k t
        grind
      held_nodup := hi.held_nodup.sublist List.erase_sublist
      held_lt := fun k' t' h => hi.held_lt k' t' (List.mem_of_mem_erase h) }

theorem KReach.inv {asserts : Bool} {n m : Nat} {tr : KTrace α} {kw : KWorld α} (h : KReach asserts n m tr kw) :
    KInv n m tr.sum kw := by
  induction h with
  | init => exact KInv.init n m
  | step _ hs ih =>
    have hm := kmove ih.ok hs
    rw [ksum_move hm]
    exact ih.step hm

end Mimic
