import Verif.Spec.Install

set_option autoImplicit false

namespace Mimic.Install

theorem inForce_snoc (log : List Ev) (e : Ev) :
    inForce (log ++ [e]) = match e with
      | .set k => some k
      | _ => inForce log := by
  unfold inForce
  rw [List.foldl_append]
  cases e <;> rfl

theorem sound_nil : Sound [] := by
  intro before e after h
  simp at h

theorem sound_snoc {log : List Ev} {e : Ev} : Sound (log ++ [e]) ↔ Sound log ∧ Fine log e := by
  constructor
  · intro h
    refine ⟨fun b x a hx => h b x (a ++ [e]) (by rw [hx]; simp), h log e [] rfl⟩
  · rintro ⟨h1, h2⟩ b x a hx
    rcases List.eq_nil_or_concat a with rfl | ⟨a', y, rfl⟩
    · have := List.append_inj' hx rfl
      obtain ⟨rfl, h⟩ := this
      cases h
      exact h2
    · have hx' : log ++ [e] = (b ++ x :: a') ++ [y] := by rw [hx]; simp
      have := List.append_inj' hx' rfl
      exact h1 b x a' this.1

/-- What is true between any two things that happen. `loose` is the reporter that was made but is not yet in force. -/
structure Inv (s : State) (loose : Option Nat) : Prop where
  sound : Sound s.log
  made : ∀ k, .made k ∈ s.log ↔ k < s.reporters.length
  force : ∀ k, s.slot = .holds k → inForce s.log = some k ∧ k < s.reporters.length ∧ .dying k ∉ s.log
  fresh : s.slot = .fresh → inForce s.log = none
  alive : ∀ k, k < s.reporters.length → .dying k ∈ s.log ∨ s.slot = .holds k ∨ loose = some k
  loose : ∀ k, loose = some k → .dying k ∉ s.log ∧ k < s.reporters.length ∧ s.slot ≠ .holds k
  dead : ∀ k, .dying k ∈ s.log → k < s.reporters.length

theorem Inv.init : Inv State.init none := by
  constructor <;> simp [State.init, sound_nil, inForce]

/-- Events that do not matter. -/
def Idle (e : Ev) : Prop := match e with
  | .failed => True
  | .exit => True
  | .ends _ => True
  | _ => False

theorem Inv.idle {s : State} {l : Option Nat} (h : Inv s l) {e : Ev} (he : Idle e) : Inv (s.say e) l := by
  cases e <;> simp only [Idle] at he <;>
  · obtain ⟨h1, h2, h3, h4, h5, h6, h7⟩ := h
    constructor <;> simp only [State.say] <;> try (simp only [inForce_snoc, List.mem_append, List.mem_singleton]; grind)
    exact sound_snoc.mpr ⟨h1, trivial⟩

theorem Inv.get {s s' : State} {k : Nat} {l : Option Nat} (h : Inv s l) (hg : s.get = some (k, s')) : Inv s' l ∧ s'.slot = .holds k := by
  unfold State.get at hg
  obtain ⟨h1, h2, h3, h4, h5, h6, h7⟩ := h
  cases hs : s.slot with
  | fresh =>
    rw [hs] at hg
    simp only [Option.some.injEq, Prod.mk.injEq] at hg
    obtain ⟨rfl, rfl⟩ := hg
    refine ⟨?_, rfl⟩
    constructor <;> simp only [State.say]
    · refine sound_snoc.mpr ⟨sound_snoc.mpr ⟨h1, ?_⟩, ?_⟩
      · show Ev.made _ ∉ _
        rw [h2]
        omega
      · show Ev.made _ ∈ _ ∧ Ev.dying _ ∉ _
        refine ⟨by simp, ?_⟩
        simp only [List.mem_append, List.mem_singleton, reduceCtorEq, or_false]
        intro hd
        have := h7 _ hd
        omega
    · simp only [List.mem_append, List.mem_singleton, List.length_append, List.length_singleton]
      grind
    · simp only [inForce_snoc, List.mem_append, List.mem_singleton, List.length_append, List.length_singleton]
      grind
    · simp
    · simp only [List.mem_append, List.mem_singleton, List.length_append, List.length_singleton]
      grind
    · simp only [List.mem_append, List.mem_singleton, List.length_append, List.length_singleton]
      grind
    · simp only [List.mem_append, List.mem_singleton, List.length_append, List.length_singleton]
      grind
  | holds j =>
    rw [hs] at hg
    simp only [Option.some.injEq, Prod.mk.injEq] at hg
    obtain ⟨rfl, rfl⟩ := hg
    exact ⟨⟨h1, h2, h3, h4, h5, h6, h7⟩, hs⟩
  | gone => rw [hs] at hg; cases hg

theorem Inv.report {s s' : State} {b : Bool} {l : Option Nat} (h : Inv s l) (hr : s.report = some (b, s')) : Inv s' l ∧ s'.slot ≠ .gone := by
  unfold State.report at hr
  cases hg : s.get with
  | none => rw [hg] at hr; cases hr
  | some p =>
    obtain ⟨k, s1⟩ := p
    rw [hg] at hr
    simp only [Option.some.injEq, Prod.mk.injEq] at hr
    obtain ⟨rfl, rfl⟩ := hr
    obtain ⟨hi, hs⟩ := h.get hg
    obtain ⟨h1, h2, h3, h4, h5, h6, h7⟩ := hi
    refine ⟨?_, by simp [State.say, hs]⟩
    constructor <;> simp only [State.say] <;> try (simp only [inForce_snoc, List.mem_append, List.mem_singleton]; grind)
    exact sound_snoc.mpr ⟨h1, (h3 k hs).1, (h3 k hs).2.2⟩

theorem Inv.acts {l : Option Nat} (as : List Act) : ∀ {s : State}, Inv s l → Inv (s.acts as).2.2 l := by
  induction as with
  | nil => intro s h; exact h
  | cons a as ih =>
    intro s h
    unfold State.acts
    cases hr : s.report with
    | none => exact h
    | some p =>
      obtain ⟨b, s'⟩ := p
      have := (h.report hr).1
      dsimp only
      split
      · exact this
      · exact ih this

theorem dtor_state (s : State) (as : List Act) : (s.dtor as).2 = (s.acts as).2.2 := by
  unfold State.dtor
  split <;> simp_all

theorem Inv.dtor {l : Option Nat} (as : List Act) {s : State} (h : Inv s l) : Inv (s.dtor as).2 l := by
  rw [dtor_state]
  exact h.acts as

theorem Inv.make {s : State} (h : Inv s none) (c : Cls) :
    Inv (({ s with reporters := s.reporters ++ [c] } : State).say (.made s.reporters.length)) (some s.reporters.length) := by
  obtain ⟨h1, h2, h3, h4, h5, h6, h7⟩ := h
  constructor <;> simp only [State.say]
  · refine sound_snoc.mpr ⟨h1, ?_⟩
    show Ev.made _ ∉ _
    rw [h2]
    omega
  all_goals simp only [inForce_snoc, List.mem_append, List.mem_singleton, List.length_append, List.length_singleton]
  all_goals grind

theorem Inv.replace {s : State} {k old : Nat} (h : Inv s (some k)) (hs : s.slot = .holds old) :
    Inv ((({ s with slot := .holds k } : State).say (.set k)).say (.dying old)) none := by
  obtain ⟨h1, h2, h3, h4, h5, h6, h7⟩ := h
  have hk := h6 k rfl
  have ho := h3 old hs
  have hne : k ≠ old := by
    rintro rfl
    exact hk.2.2 hs
  constructor <;> simp only [State.say]
  · refine sound_snoc.mpr ⟨sound_snoc.mpr ⟨h1, (h2 k).mpr hk.2.1, hk.1⟩, ?_⟩
    refine ⟨?_, ?_, .inr ?_⟩
    · simp [h2, ho.2.1]
    · simp [ho.2.2]
    · rw [inForce_snoc]
      simpa using hne
  all_goals simp only [inForce_snoc, List.mem_append, List.mem_singleton]
  all_goals grind

theorem Inv.install {s : State} (h : Inv s none) (c : Cls) : ∃ l, Inv (s.install c).2 l ∧ ((s.install c).1 = none → l = none) := by
  unfold State.install
  have ha := h.acts c.ctor
  generalize s.acts c.ctor = r at *
  obtain ⟨x, b, s'⟩ := r
  cases x with
  | some x => exact ⟨none, ha, fun _ => rfl⟩
  | none =>
    cases b with
    | true => exact ⟨none, ha.idle trivial, fun _ => rfl⟩
    | false =>
      dsimp only
      split
      · exact ⟨none, ha.idle trivial, fun _ => rfl⟩
      · have hm := ha.make c
        generalize hg : (({ s' with reporters := s'.reporters ++ [c] } : State).say (.made s'.reporters.length)).get = g
        cases g with
        | none => exact ⟨_, hm, fun h => by cases h⟩
        | some p =>
          obtain ⟨old, s2⟩ := p
          obtain ⟨hi, hs⟩ := hm.get hg
          have hr := hi.replace hs
          dsimp only
          cases s2.reporters[old]? with
          | none => exact ⟨none, hr, fun _ => rfl⟩
          | some o => exact ⟨none, hr.dtor o.dtor, fun _ => rfl⟩

theorem Inv.static {s : State} {l : Option Nat} (h : Inv s l) (ss : List Static) (n : Nat) : Inv { s with statics := ss, objects := n } l :=
  ⟨h.1, h.2, h.3, h.4, h.5, h.6, h.7⟩

theorem Inv.step {s : State} (h : Inv s none) (op : Op) : ∃ l, Inv (s.step op).2 l ∧ ((s.step op).1 = none → l = none) := by
  cases op with
  | static d => exact ⟨none, h.static _ _, fun _ => rfl⟩
  | report =>
    unfold State.step
    cases hr : s.report with
    | none => exact ⟨none, h, fun _ => rfl⟩
    | some p =>
      obtain ⟨b, s'⟩ := p
      exact ⟨none, (h.report hr).1, fun _ => rfl⟩
  | install c => exact h.install c

theorem Inv.run (ops : List Op) : ∀ {s : State}, Inv s none → ∃ l, Inv (s.run ops).2 l ∧ ((s.run ops).1 = none → l = none) := by
  induction ops with
  | nil => intro s h; exact ⟨none, h, fun _ => rfl⟩
  | cons op ops ih =>
    intro s h
    unfold State.run
    obtain ⟨l, hl, hn⟩ := h.step op
    generalize s.step op = r at *
    obtain ⟨x, s'⟩ := r
    cases x with
    | some x => exact ⟨l, hl, fun h => by cases h⟩
    | none =>
      cases hn rfl
      exact ih hl

/-- At the end of the program. -/
theorem Inv.close {s : State} (h : Inv s none) (he : .exit ∈ s.log) : Inv s.close.2 none := by
  unfold State.close
  cases hs : s.slot with
  | fresh => exact h
  | gone => exact h
  | holds k =>
    obtain ⟨h1, h2, h3, h4, h5, h6, h7⟩ := h
    have hk := h3 k hs
    have hi : Inv (({ s with slot := .gone } : State).say (.dying k)) none := by
      constructor <;> simp only [State.say]
      · exact sound_snoc.mpr ⟨h1, (h2 k).mpr hk.2.1, hk.2.2, .inl he⟩
      all_goals simp only [inForce_snoc, List.mem_append, List.mem_singleton]
      all_goals grind
    dsimp only
    cases s.reporters[k]? with
    | none => exact hi
    | some c => exact hi.dtor c.dtor

/-! ## What is in the log stays -/

/-- The log grows. -/
def Grows (s s' : State) : Prop := ∃ evs, s'.log = s.log ++ evs

theorem Grows.refl (s : State) : Grows s s := ⟨[], by simp⟩

theorem Grows.trans {a b c : State} (h1 : Grows a b) (h2 : Grows b c) : Grows a c := by
  obtain ⟨x, hx⟩ := h1
  obtain ⟨y, hy⟩ := h2
  exact ⟨x ++ y, by rw [hy, hx, List.append_assoc]⟩

theorem Grows.say (s : State) (e : Ev) : Grows s (s.say e) := ⟨[e], rfl⟩

theorem Grows.mem {s s' : State} (h : Grows s s') {e : Ev} (he : e ∈ s.log) : e ∈ s'.log := by
  obtain ⟨x, hx⟩ := h
  rw [hx]
  exact List.mem_append_left _ he

theorem grows_get {s s' : State} {k : Nat} (hg : s.get = some (k, s')) : Grows s s' := by
  unfold State.get at hg
  cases hs : s.slot with
  | fresh =>
    rw [hs] at hg
    simp only [Option.some.injEq, Prod.mk.injEq] at hg
    obtain ⟨rfl, rfl⟩ := hg
    exact ⟨[.made s.reporters.length, .set s.reporters.length], by simp [State.say]⟩
  | holds j =>
    rw [hs] at hg
    simp only [Option.some.injEq, Prod.mk.injEq] at hg
    obtain ⟨rfl, rfl⟩ := hg
    exact .refl _
  | gone => rw [hs] at hg; cases hg

theorem grows_report {s s' : State} {b : Bool} (hr : s.report = some (b, s')) : Grows s s' := by
  unfold State.report at hr
  cases hg : s.get with
  | none => rw [hg] at hr; cases hr
  | some p =>
    obtain ⟨k, s1⟩ := p
    rw [hg] at hr
    simp only [Option.some.injEq, Prod.mk.injEq] at hr
    obtain ⟨rfl, rfl⟩ := hr
    exact (grows_get hg).trans (.say _ _)

theorem grows_acts (as : List Act) : ∀ (s : State), Grows s (s.acts as).2.2 := by
  induction as with
  | nil => intro s; exact .refl _
  | cons a as ih =>
    intro s
    unfold State.acts
    cases hr : s.report with
    | none => exact .refl _
    | some p =>
      obtain ⟨b, s'⟩ := p
      have := grows_report hr
      dsimp only
      split
      · exact this
      · exact this.trans (ih s')

theorem grows_dtor (s : State) (as : List Act) : Grows s (s.dtor as).2 := by
  rw [dtor_state]
  exact grows_acts as s

theorem grows_close (s : State) : Grows s s.close.2 := by
  unfold State.close
  cases hs : s.slot with
  | fresh => exact .refl _
  | gone => exact .refl _
  | holds k =>
    have hg : Grows s (({ s with slot := .gone } : State).say (.dying k)) := ⟨[.dying k], rfl⟩
    dsimp only
    cases s.reporters[k]? with
    | none => exact hg
    | some c => exact hg.trans (grows_dtor _ _)

theorem closeNew_cases (b : Slot) (s : State) : s.closeNew b = s.close ∨ s.closeNew b = (none, s) := by
  unfold State.closeNew
  split
  · exact .inl rfl
  · exact .inr rfl

theorem Inv.unwind (ss : List Static) : ∀ {s : State}, Inv s none → .exit ∈ s.log → Inv (s.unwind ss).2 none := by
  induction ss with
  | nil => intro s h _; exact h
  | cons x ss ih =>
    intro s h he
    cases x with
    | slot =>
      unfold State.unwind
      have hc := h.close he
      have hg := (grows_close s).mem he
      generalize s.close = r at *
      obtain ⟨x, s'⟩ := r
      cases x with
      | some x => exact hc
      | none => exact ih hc hg
    | object i d =>
      unfold State.unwind
      have hd := (h.idle (e := .ends i) trivial).dtor d
      have hg := ((Grows.say s (.ends i)).trans (grows_dtor _ d)).mem he
      generalize (s.say (.ends i)).dtor d = r at *
      obtain ⟨x, s'⟩ := r
      cases x with
      | some x => exact hd
      | none =>
        dsimp only at *
        have hc := hd.close hg
        have hg' := (grows_close s').mem hg
        rcases closeNew_cases s.slot s' with h' | h' <;> rw [h']
        · generalize s'.close = r at *
          obtain ⟨x, s''⟩ := r
          cases x with
          | some x => exact hc
          | none => exact ih hc hg'
        · exact ih hd hg

/-! ## Reports -/

/-- Everything but the log is the same. -/
structure Same (s s' : State) : Prop where
  reporters : s'.reporters = s.reporters
  slot : s'.slot = s.slot
  statics : s'.statics = s.statics
  objects : s'.objects = s.objects

theorem Same.refl (s : State) : Same s s := ⟨rfl, rfl, rfl, rfl⟩

theorem Same.trans {a b c : State} (h1 : Same a b) (h2 : Same b c) : Same a c :=
  ⟨h2.1.trans h1.1, h2.2.trans h1.2, h2.3.trans h1.3, h2.4.trans h1.4⟩

theorem Same.say (s : State) (e : Ev) : Same s (s.say e) := ⟨rfl, rfl, rfl, rfl⟩

/-- What was reported. -/
def gets (k : Nat) (n : Nat) : List Ev := List.replicate n (.gets k)

theorem report_holds {s : State} {k : Nat} (h : s.slot = .holds k) : s.report = some (s.throwing k, s.say (.gets k)) := by
  simp [State.report, State.get, h]

theorem throwing_same {s s' : State} (h : Same s s') (k : Nat) : s'.throwing k = s.throwing k := by
  simp only [State.throwing, h.reporters]

theorem acts_holds {k : Nat} (as : List Act) : ∀ {s : State}, s.slot = .holds k →
    ∃ s', s.acts as = (none, s.throwing k && as.any (fun a => !a.caught), s') ∧ Same s s' ∧ ∃ n, s'.log = s.log ++ gets k n := by
  induction as with
  | nil => intro s h; exact ⟨s, by simp [State.acts], .refl s, 0, by simp [gets]⟩
  | cons a as ih =>
    intro s h
    unfold State.acts
    rw [report_holds h]
    dsimp only
    by_cases hx : (s.throwing k && !a.caught) = true
    · rw [if_pos hx]
      simp only [Bool.and_eq_true] at hx
      exact ⟨s.say (.gets k), by simp [hx.1, hx.2], .say _ _, 1, by simp [gets, State.say]⟩
    · rw [if_neg hx]
      obtain ⟨s', h1, h2, n, h3⟩ := ih (s := s.say (.gets k)) h
      refine ⟨s', ?_, (Same.say s _).trans h2, n + 1, ?_⟩
      · rw [h1, throwing_same (Same.say s _)]
        simp only [Bool.and_eq_true, not_and, Bool.not_eq_true] at hx
        cases ht : s.throwing k
        · simp
        · simp [hx ht]
      · rw [h3]
        simp [State.say, gets, List.replicate_succ]

theorem acts_gone {s : State} (h : s.slot = .gone) (a : Act) (as : List Act) : s.acts (a :: as) = (some .undefined, false, s) := by
  simp [State.acts, State.report, State.get, h]

/-- The state after the first use. -/
def State.opened (s : State) : State :=
  (({ s with reporters := s.reporters ++ [defaultCls], slot := .holds s.reporters.length, statics := .slot :: s.statics } : State).say
    (.made s.reporters.length)).say (.set s.reporters.length)

theorem get_fresh {s : State} (h : s.slot = .fresh) : s.get = some (s.reporters.length, s.opened) := by
  simp [State.get, h, State.opened]

theorem acts_fresh {s : State} (h : s.slot = .fresh) (a : Act) (as : List Act) : s.acts (a :: as) = s.opened.acts (a :: as) := by
  conv => lhs; unfold State.acts
  conv => rhs; unfold State.acts
  have h1 : s.report = s.opened.report := by
    rw [report_holds (s := s.opened) (k := s.reporters.length) rfl]
    simp [State.report, get_fresh h]
  rw [h1]
  rw [report_holds (s := s.opened) (k := s.reporters.length) rfl]

/-! ## A program up to its end -/

def Static.dtors : Static → List (List Act)
  | .object _ d => if d.isEmpty then [] else [d]
  | .slot => []

/-- The destructors that report, the latest first. -/
def dtors (l : List Static) : List (List Act) := l.flatMap Static.dtors

/-- There are only objects of the client. -/
def Objects (l : List Static) : Prop := .slot ∉ l

/-- Some destructor lets exceptions of the reporter escape. -/
def Loud (l : List (List Act)) : Prop := ∃ d ∈ l, ∃ a ∈ d, a.caught = false

/-- How the objects lie. -/
def Lay (ops : List Op) (l : List Static) : Prop :=
  dtors l = (reporting ops).reverse ∧
  if used ops = true then ∃ a b, l = a ++ .slot :: b ∧ Objects a ∧ Objects b ∧ (dtors b = [] ↔ ¬Early ops) ∧ (Loud (dtors a) ↔ Careless ops)
  else Objects l

/-- What is true after the given operations. -/
structure At (ops : List Op) (s : State) : Prop where
  inv : Inv s none
  fresh : s.slot = .fresh → used ops = false ∧ current ops = defaultCls
  holds : ∀ k, s.slot = .holds k → used ops = true ∧ s.reporters[k]? = some (current ops)
  gone : s.slot ≠ .gone
  lay : Lay ops s.statics

theorem current_snoc (ops : List Op) (op : Op) :
    current (ops ++ [op]) = match op with
      | .install c => if accepted (current ops) c then c else current ops
      | _ => current ops := by
  unfold current
  rw [List.foldl_append]
  cases op <;> rfl

theorem current_dtor (ops : List Op) : (∀ c, .install c ∈ ops → c.dtor = []) → (current ops).dtor = [] := by
  have : ∀ (ops : List Op) (cur : Cls), cur.dtor = [] → (∀ c, .install c ∈ ops → c.dtor = []) →
      (ops.foldl (fun cur op => match op with
        | .install c => if accepted cur c then c else cur
        | _ => cur) cur).dtor = [] := by
    intro ops
    induction ops with
    | nil => exact fun _ h _ => h
    | cons op ops ih =>
      intro cur hc h
      refine ih _ ?_ (fun c hm => h c (by simp [hm]))
      cases op with
      | install c =>
        dsimp only
        split
        · exact h c (by simp)
        · exact hc
      | _ => exact hc
  exact this ops defaultCls rfl

theorem used_snoc (ops : List Op) (op : Op) : used (ops ++ [op]) = (used ops || usedBy op) := by
  simp [used]

theorem reporting_append (a b : List Op) : reporting (a ++ b) = reporting a ++ reporting b := by
  induction a with
  | nil => rfl
  | cons op a ih =>
    cases op with
    | static d =>
      simp only [List.cons_append, reporting, ih]
      split <;> rfl
    | report => simpa [reporting] using ih
    | install c => simpa [reporting] using ih

theorem early_snoc (ops : List Op) (op : Op) :
    Early (ops ++ [op]) ↔ Early ops ∨ ∃ d, op = .static d ∧ d ≠ [] ∧ used ops = false := by
  constructor
  · rintro ⟨pre, d, post, h, hd, hu⟩
    rcases List.eq_nil_or_concat post with rfl | ⟨post', y, rfl⟩
    · have h2 := List.append_inj' h rfl
      rw [← h2.1] at hu
      exact .inr ⟨d, by simpa using h2.2, hd, hu⟩
    · have h' : ops ++ [op] = (pre ++ .static d :: post') ++ [y] := by rw [h]; simp
      have := List.append_inj' h' rfl
      exact .inl ⟨pre, d, post', this.1, hd, hu⟩
  · rintro (⟨pre, d, post, h, hd, hu⟩ | ⟨d, rfl, hd, hu⟩)
    · exact ⟨pre, d, post ++ [op], by rw [h]; simp, hd, hu⟩
    · exact ⟨ops, d, [], rfl, hd, hu⟩

theorem careless_snoc (ops : List Op) (op : Op) :
    Careless (ops ++ [op]) ↔ Careless ops ∨ ∃ d, op = .static d ∧ used ops = true ∧ ∃ a ∈ d, a.caught = false := by
  constructor
  · rintro ⟨pre, d, post, h, hu, hd⟩
    rcases List.eq_nil_or_concat post with rfl | ⟨post', y, rfl⟩
    · have h2 := List.append_inj' h rfl
      rw [← h2.1] at hu
      exact .inr ⟨d, by simpa using h2.2, hu, hd⟩
    · have h' : ops ++ [op] = (pre ++ .static d :: post') ++ [y] := by rw [h]; simp
      have := List.append_inj' h' rfl
      exact .inl ⟨pre, d, post', this.1, hu, hd⟩
  · rintro (⟨pre, d, post, h, hu, hd⟩ | ⟨d, rfl, hu, hd⟩)
    · exact ⟨pre, d, post ++ [op], by rw [h]; simp, hu, hd⟩
    · exact ⟨ops, d, [], rfl, hu, hd⟩

theorem not_careless {ops : List Op} (hu : used ops = false) : ¬Careless ops := by
  rintro ⟨pre, d, post, rfl, h, _⟩
  rw [used, List.any_append, Bool.or_eq_false_iff] at hu
  rw [used, hu.1] at h
  cases h

theorem loud_object (i : Nat) (d : List Act) (l : List Static) :
    Loud (dtors (.object i d :: l)) ↔ Loud (dtors l) ∨ ∃ a ∈ d, a.caught = false := by
  unfold Loud dtors
  cases d <;> simp [Static.dtors, or_comm]

theorem dtors_append (a b : List Static) : dtors (a ++ b) = dtors a ++ dtors b := by simp [dtors]

theorem dtors_early {ops : List Op} (hu : used ops = false) : reporting ops = [] ↔ ¬Early ops := by
  constructor
  · rintro h ⟨pre, d, post, rfl, hd, _⟩
    rw [reporting_append] at h
    have := (List.append_eq_nil_iff.mp h).2
    unfold reporting at this
    cases d with
    | nil => exact hd rfl
    | cons a as => simp at this
  · intro h
    have : ∀ (post pre : List Op), used (pre ++ post) = false → ¬Early (pre ++ post) → reporting post = [] := by
      intro post
      induction post with
      | nil => intro _ _ _; rfl
      | cons op post ih =>
        intro pre hu hn
        have hih := ih (pre ++ [op]) (by simpa using hu) (by simpa using hn)
        cases op with
        | static d =>
          unfold reporting
          cases d with
          | nil => simpa using hih
          | cons a as =>
            exact absurd ⟨pre, a :: as, post, rfl, by simp, by simp [used] at hu ⊢; exact hu.1⟩ hn
        | report => simpa [reporting] using hih
        | install c => simpa [reporting] using hih
    exact this ops [] (by simpa using hu) (by simpa using h)

theorem Lay.static {ops : List Op} {l : List Static} (h : Lay ops l) (i : Nat) (d : List Act) :
    Lay (ops ++ [.static d]) (.object i d :: l) := by
  obtain ⟨h1, h2⟩ := h
  refine ⟨?_, ?_⟩
  · rw [reporting_append, List.reverse_append, ← h1]
    cases d <;> simp [dtors, Static.dtors, reporting]
  · rw [used_snoc]
    simp only [usedBy, Bool.or_false]
    split
    · rename_i hu
      rw [if_pos hu] at h2
      obtain ⟨a, b, rfl, ha, hb, he, hc⟩ := h2
      refine ⟨.object i d :: a, b, rfl, by simpa [Objects] using ha, hb, ?_, ?_⟩
      · rw [he, early_snoc]
        simp [hu]
      · rw [loud_object, hc, careless_snoc]
        simp [hu]
    · rename_i hu
      rw [if_neg hu] at h2
      simpa [Objects] using h2

/-- Operations other than initialisations, when the reporter was used before. -/
theorem Lay.later {ops : List Op} {l : List Static} (h : Lay ops l) {op : Op} (hop : ∀ d, op ≠ .static d)
    (hu : used ops = true ∨ usedBy op = false) : Lay (ops ++ [op]) l := by
  obtain ⟨h1, h2⟩ := h
  have hr : reporting [op] = [] := by
    cases op with
    | static d => exact absurd rfl (hop d)
    | _ => rfl
  refine ⟨by rw [reporting_append, hr, List.append_nil]; exact h1, ?_⟩
  rw [used_snoc]
  have he : Early (ops ++ [op]) ↔ Early ops := by
    rw [early_snoc]
    exact ⟨fun h => h.elim id (fun ⟨d, h, _⟩ => absurd h (hop d)), .inl⟩
  have hc : Careless (ops ++ [op]) ↔ Careless ops := by
    rw [careless_snoc]
    exact ⟨fun h => h.elim id (fun ⟨d, h, _⟩ => absurd h (hop d)), .inl⟩
  rw [he, hc]
  rcases hu with hu | hu
  · simp only [hu, Bool.true_or, if_true] at h2 ⊢
    exact h2
  · simpa only [hu, Bool.or_false] using h2

/-- The first use. -/
theorem Lay.first {ops : List Op} {l : List Static} (h : Lay ops l) {op : Op} (hop : ∀ d, op ≠ .static d) (hu : used ops = false)
    (hn : usedBy op = true) : Lay (ops ++ [op]) (.slot :: l) := by
  obtain ⟨h1, h2⟩ := h
  have hr : reporting [op] = [] := by
    cases op with
    | static d => exact absurd rfl (hop d)
    | _ => rfl
  refine ⟨by rw [reporting_append, hr, List.append_nil, ← h1]; rfl, ?_⟩
  rw [used_snoc, if_pos (by simp [hn])]
  refine ⟨[], l, rfl, by simp [Objects], by simpa [hu] using h2, ?_, ?_⟩
  · rw [h1, List.reverse_eq_nil_iff, dtors_early hu, early_snoc]
    exact ⟨fun h => fun h' => h'.elim h (fun ⟨d, h, _⟩ => absurd h (hop d)), fun h h' => h (.inl h')⟩
  · rw [careless_snoc]
    exact ⟨fun ⟨_, h, _⟩ => (by cases h), fun h => h.elim (fun h => absurd h (not_careless hu)) (fun ⟨d, h, _⟩ => absurd h (hop d))⟩

/-- The statics after a use of the reporter. -/
def State.usedStatics (s : State) : List Static :=
  match s.slot with
  | .fresh => .slot :: s.statics
  | _ => s.statics

theorem opened_reporter (s : State) : s.opened.reporters[s.reporters.length]? = some defaultCls := by
  simp [State.opened, State.say]

theorem throwing_of {s : State} {k : Nat} {c : Cls} (h : s.reporters[k]? = some c) : s.throwing k = c.throws := by
  simp [State.throwing, h]

theorem ctor_spec {ops : List Op} {s : State} (h : At ops s) (as : List Act) :
    ∃ s', s.acts as = (none, (current ops).throws && as.any (fun a => !a.caught), s') ∧
      (as = [] ∧ s' = s ∨ as ≠ [] ∧ (∃ k, s'.slot = .holds k ∧ s'.reporters[k]? = some (current ops)) ∧ s'.statics = s.usedStatics) := by
  cases as with
  | nil => exact ⟨s, by simp [State.acts], .inl ⟨rfl, rfl⟩⟩
  | cons a as =>
    cases hs : s.slot with
    | gone => exact absurd hs h.gone
    | fresh =>
      obtain ⟨s', h1, h2, _⟩ := acts_holds (k := s.reporters.length) (a :: as) (s := s.opened) rfl
      refine ⟨s', ?_, .inr ⟨by simp, ⟨s.reporters.length, h2.slot, ?_⟩, ?_⟩⟩
      · rw [acts_fresh hs, h1, throwing_of (opened_reporter s), (h.fresh hs).2]
      · rw [h2.reporters, opened_reporter, (h.fresh hs).2]
      · rw [h2.statics]
        simp [State.usedStatics, hs, State.opened, State.say]
    | holds k =>
      obtain ⟨s', h1, h2, _⟩ := acts_holds (a :: as) hs
      refine ⟨s', ?_, .inr ⟨by simp, ⟨k, by rw [h2.slot, hs], ?_⟩, ?_⟩⟩
      · rw [h1, throwing_of (h.holds k hs).2]
      · rw [h2.reporters, (h.holds k hs).2]
      · rw [h2.statics]
        simp [State.usedStatics, hs]

theorem Lay.uses {ops : List Op} {s : State} (h : At ops s) {op : Op} (hop : ∀ d, op ≠ .static d) (hu : usedBy op = true) :
    Lay (ops ++ [op]) s.usedStatics := by
  unfold State.usedStatics
  cases hs : s.slot with
  | gone => exact absurd hs h.gone
  | fresh => exact h.lay.first hop (h.fresh hs).1 hu
  | holds k => exact h.lay.later hop (.inl (h.holds k hs).1)

theorem At.init : At [] State.init :=
  ⟨.init, fun _ => ⟨rfl, rfl⟩, fun k h => (by cases h), fun h => (by cases h), rfl, by simp [used, Objects, State.init]⟩

theorem not_accepted {cur c : Cls} : accepted cur c = false ↔ c.ctorThrows = true ∨ (cur.throws && c.ctor.any (fun a => !a.caught)) = true := by
  unfold accepted
  have : c.ctor.any (fun a => !a.caught) = !c.ctor.all (·.caught) := by
    rw [List.all_eq_not_any_not]; simp
  rw [this]
  cases c.ctorThrows <;> cases cur.throws <;> cases c.ctor.all (·.caught) <;> decide

theorem dying_get {s s' : State} {k j : Nat} (hg : s.get = some (k, s')) : .dying j ∈ s'.log ↔ .dying j ∈ s.log := by
  unfold State.get at hg
  cases hs : s.slot with
  | fresh =>
    rw [hs] at hg
    simp only [Option.some.injEq, Prod.mk.injEq] at hg
    obtain ⟨rfl, rfl⟩ := hg
    simp [State.say]
  | holds i =>
    rw [hs] at hg
    simp only [Option.some.injEq, Prod.mk.injEq] at hg
    obtain ⟨rfl, rfl⟩ := hg
    exact Iff.rfl
  | gone => rw [hs] at hg; cases hg

theorem dying_report {s s' : State} {b : Bool} {j : Nat} (hr : s.report = some (b, s')) : .dying j ∈ s'.log ↔ .dying j ∈ s.log := by
  unfold State.report at hr
  cases hg : s.get with
  | none => rw [hg] at hr; cases hr
  | some p =>
    obtain ⟨k, s1⟩ := p
    rw [hg] at hr
    simp only [Option.some.injEq, Prod.mk.injEq] at hr
    obtain ⟨rfl, rfl⟩ := hr
    rw [← dying_get hg]
    simp [State.say]

theorem dying_acts (as : List Act) {j : Nat} : ∀ (s : State), .dying j ∈ (s.acts as).2.2.log ↔ .dying j ∈ s.log := by
  induction as with
  | nil => intro s; exact Iff.rfl
  | cons a as ih =>
    intro s
    unfold State.acts
    cases hr : s.report with
    | none => exact Iff.rfl
    | some p =>
      obtain ⟨b, s'⟩ := p
      have := dying_report (j := j) hr
      dsimp only
      split
      · exact this
      · exact (ih s').trans this

/-- A state with the statics in order. -/
theorem At.of_fail {ops : List Op} {s s' : State} (h : At ops s) {c : Cls} (hc : accepted (current ops) c = false) (hi : Inv s' none)
    (hs : c.ctor = [] ∧ s' = s ∨ c.ctor ≠ [] ∧ (∃ k, s'.slot = .holds k ∧ s'.reporters[k]? = some (current ops)) ∧ s'.statics = s.usedStatics) :
    At (ops ++ [.install c]) (s'.say .failed) := by
  have hcur : current (ops ++ [.install c]) = current ops := by rw [current_snoc]; simp [hc]
  have hop : ∀ d, Op.install c ≠ .static d := fun d h => by cases h
  rcases hs with ⟨h1, rfl⟩ | ⟨h1, ⟨k, h2, h3⟩, h4⟩
  · have ht : c.ctorThrows = true := by
      rcases not_accepted.mp hc with h | h
      · exact h
      · simp [h1] at h
    have hu : usedBy (.install c) = false := by simp [usedBy, h1, ht]
    refine ⟨hi.idle trivial, fun hs => ?_, fun k hs => ?_, h.gone, h.lay.later hop (.inr hu)⟩
    · rw [used_snoc, hu, hcur, Bool.or_false]
      exact h.fresh hs
    · rw [used_snoc, hu, hcur, Bool.or_false]
      exact h.holds k hs
  · have hu : usedBy (.install c) = true := by
      simp only [usedBy, Bool.or_eq_true]
      exact .inl (by simpa using h1)
    refine ⟨hi.idle trivial, fun hs => ?_, fun j hs => ?_, fun hs => ?_, ?_⟩
    · simp [State.say, h2] at hs
    · simp only [State.say, h2, Slot.holds.injEq] at hs
      subst hs
      rw [used_snoc, hu, hcur, Bool.or_true]
      exact ⟨rfl, h3⟩
    · simp [State.say, h2] at hs
    · show Lay _ s'.statics
      rw [h4]
      exact Lay.uses h hop hu

theorem install_refused {ops : List Op} {s : State} (h : At ops s) {c : Cls} (hc : accepted (current ops) c = false) :
    ∃ s', s.install c = (none, s') ∧ At (ops ++ [.install c]) s' ∧ ∀ k, .dying k ∈ s'.log ↔ .dying k ∈ s.log := by
  obtain ⟨s', h1, h2⟩ := ctor_spec h c.ctor
  have hi := h.inv.acts c.ctor
  rw [h1] at hi
  refine ⟨s'.say .failed, ?_, h.of_fail hc hi h2, ?_⟩
  · unfold State.install
    rw [h1]
    rcases not_accepted.mp hc with hx | hx
    · cases (current ops).throws && c.ctor.any (fun a => !a.caught) <;> simp [hx]
    · rw [hx]
  · intro k
    have := dying_acts c.ctor (j := k) s
    rw [h1] at this
    rw [← this]
    simp [State.say]

theorem install_accepted {ops : List Op} {s : State} (h : At ops s) {c : Cls} (hc : accepted (current ops) c = true) :
    ∃ s', s.install c = (if c.throws && (current ops).dtor.any (fun a => !a.caught) then some .terminated else none, s') ∧
      ((c.throws && (current ops).dtor.any (fun a => !a.caught)) = false → At (ops ++ [.install c]) s') := by
  have hna : ¬(c.ctorThrows = true ∨ (current ops).throws && c.ctor.any (fun a => !a.caught)) := by
    rw [← not_accepted, hc]
    simp
  simp only [not_or, Bool.not_eq_true] at hna
  obtain ⟨s', h1, h2⟩ := ctor_spec h c.ctor
  rw [hna.2] at h1
  have hop : ∀ d, Op.install c ≠ .static d := fun d h => by cases h
  have hu : usedBy (.install c) = true := by simp [usedBy, hna.1]
  have hcur : current (ops ++ [.install c]) = c := by rw [current_snoc]; simp [hc]
  /- the state before the assignment -/
  have hslot : ∃ old s2, (({ s' with reporters := s'.reporters ++ [c] } : State).say (.made s'.reporters.length)).get = some (old, s2) ∧
      s2.reporters[s'.reporters.length]? = some c ∧ s2.reporters[old]? = some (current ops) ∧ s2.statics = s.usedStatics := by
    rcases h2 with ⟨_, rfl⟩ | ⟨_, ⟨k, h3, h4⟩, h5⟩
    · cases hs : s'.slot with
      | gone => exact absurd hs h.gone
      | fresh =>
        refine ⟨_, _, get_fresh (by simpa [State.say] using hs), ?_, ?_, ?_⟩
        · simp [State.opened, State.say]
        · rw [opened_reporter, (h.fresh hs).2]
        · simp [State.opened, State.say, State.usedStatics, hs]
      | holds k =>
        refine ⟨k, ({ s' with reporters := s'.reporters ++ [c] } : State).say (.made s'.reporters.length), by simp [State.get, State.say, hs], ?_, ?_, ?_⟩
        · simp [State.say]
        · have := (h.holds k hs).2
          have hlt := (List.getElem?_eq_some_iff.mp this).1
          show (s'.reporters ++ [c])[k]? = _
          rw [List.getElem?_append_left hlt, this]
        · simp [State.usedStatics, State.say, hs]
    · refine ⟨k, ({ s' with reporters := s'.reporters ++ [c] } : State).say (.made s'.reporters.length), by simp [State.get, State.say, h3], ?_, ?_, ?_⟩
      · simp [State.say]
      · have hlt := (List.getElem?_eq_some_iff.mp h4).1
        show (s'.reporters ++ [c])[k]? = _
        rw [List.getElem?_append_left hlt, h4]
      · simpa [State.say] using h5
  obtain ⟨old, s2, hg, hr1, hr2, hst⟩ := hslot
  obtain ⟨s3, h3, h4, _⟩ := acts_holds (k := s'.reporters.length) (current ops).dtor
    (s := (({ s2 with slot := .holds s'.reporters.length } : State).say (.set s'.reporters.length)).say (.dying old)) rfl
  rw [throwing_of (c := c) (by simpa [State.say] using hr1)] at h3
  have heq : s.install c = (if c.throws && (current ops).dtor.any (fun a => !a.caught) then some .terminated else none, s3) := by
    unfold State.install
    rw [h1]
    dsimp only
    rw [if_neg (by simp [hna.1]), hg]
    dsimp only
    rw [hr2]
    dsimp only
    unfold State.dtor
    rw [h3]
    cases c.throws && (current ops).dtor.any (fun a => !a.caught) <;> rfl
  refine ⟨s3, heq, fun hx => ?_⟩
  obtain ⟨l, hl, hn⟩ := h.inv.install c
  rw [heq, hx] at hl hn
  cases hn rfl
  have hslot3 : s3.slot = .holds s'.reporters.length := h4.slot
  refine ⟨hl, fun hs => ?_, fun j hs => ?_, fun hs => ?_, ?_⟩
  · rw [hslot3] at hs; cases hs
  · rw [hslot3, Slot.holds.injEq] at hs
    subst hs
    rw [used_snoc, hu, hcur, Bool.or_true, h4.reporters]
    exact ⟨rfl, by simpa [State.say] using hr1⟩
  · rw [hslot3] at hs; cases hs
  · rw [h4.statics]
    show Lay _ s2.statics
    rw [hst]
    exact Lay.uses h hop hu

/-- Who gets a report. -/
theorem report_spec {ops : List Op} {s : State} (h : At ops s) :
    ∃ k b s', s.report = some (b, s') ∧ At (ops ++ [.report]) s' ∧ s'.reporters[k]? = some (current ops) ∧ s'.slot = .holds k ∧
      (s'.log = s.log ++ [.gets k] ∨ used ops = false ∧ s'.log = s.log ++ [.made k, .set k, .gets k]) := by
  have hop : ∀ d, Op.report ≠ .static d := fun d h => by cases h
  have hcur : current (ops ++ [.report]) = current ops := by rw [current_snoc]
  cases hs : s.slot with
  | gone => exact absurd hs h.gone
  | fresh =>
    have hr : s.report = some (s.opened.throwing s.reporters.length, s.opened.say (.gets s.reporters.length)) := by
      simp [State.report, get_fresh hs]
    have hst : (s.opened.say (.gets s.reporters.length)).statics = s.usedStatics := by
      simp [State.opened, State.say, State.usedStatics, hs]
    refine ⟨s.reporters.length, _, _, hr, ⟨(h.inv.report hr).1, fun hs => ?_, fun j hj => ?_, fun hs => ?_, ?_⟩, ?_, rfl, .inr ⟨(h.fresh hs).1, ?_⟩⟩
    · cases hs
    · cases hj
      rw [used_snoc, hcur, (h.fresh hs).2]
      exact ⟨by simp [usedBy], opened_reporter s⟩
    · cases hs
    · rw [hst]
      exact Lay.uses h hop rfl
    · rw [(h.fresh hs).2]
      exact opened_reporter s
    · simp [State.opened, State.say]
  | holds k =>
    have hr := report_holds hs
    refine ⟨k, _, _, hr, ⟨(h.inv.report hr).1, fun hs' => ?_, fun j hj => ?_, fun hs' => ?_, ?_⟩, (h.holds k hs).2, hs, .inl rfl⟩
    · simp [State.say, hs] at hs'
    · simp only [State.say, hs, Slot.holds.injEq] at hj
      subst hj
      rw [used_snoc, hcur, (h.holds k hs).1]
      exact ⟨rfl, (h.holds k hs).2⟩
    · simp [State.say, hs] at hs'
    · exact h.lay.later hop (.inl (h.holds k hs).1)

theorem At.static {ops : List Op} {s : State} (h : At ops s) (d : List Act) :
    At (ops ++ [.static d]) { s with statics := .object s.objects d :: s.statics, objects := s.objects + 1 } := by
  have hcur : current (ops ++ [.static d]) = current ops := by rw [current_snoc]
  refine ⟨h.inv.static _ _, fun hs => ?_, fun k hs => ?_, h.gone, h.lay.static _ _⟩
  · rw [used_snoc, hcur]
    simpa [usedBy] using h.fresh hs
  · rw [used_snoc, hcur]
    simpa [usedBy] using h.holds k hs

/-- The reporter that is replaced is quiet. -/
def quiet (cur c : Cls) : Bool := !c.throws || cur.dtor.all (·.caught)

theorem quiet_eq (cur c : Cls) : (c.throws && cur.dtor.any (fun a => !a.caught)) = !quiet cur c := by
  have : cur.dtor.any (fun a => !a.caught) = !cur.dtor.all (·.caught) := by
    rw [List.all_eq_not_any_not]; simp
  rw [this]
  unfold quiet
  cases c.throws <;> cases cur.dtor.all (·.caught) <;> rfl

def quietOp (cur : Cls) : Op → Bool
  | .install c => !accepted cur c || quiet cur c
  | _ => true

theorem step_spec {ops : List Op} {s : State} (h : At ops s) (op : Op) :
    ∃ s', s.step op = (if quietOp (current ops) op then none else some .terminated, s') ∧
      (quietOp (current ops) op = true → At (ops ++ [op]) s') := by
  cases op with
  | static d => exact ⟨_, rfl, fun _ => h.static d⟩
  | report =>
    obtain ⟨k, b, s', h1, h2, _⟩ := report_spec h
    exact ⟨s', by simp [State.step, h1, quietOp], fun _ => h2⟩
  | install c =>
    have hq : quietOp (current ops) (.install c) = (!accepted (current ops) c || quiet (current ops) c) := rfl
    rw [hq]
    cases hc : accepted (current ops) c with
    | false =>
      obtain ⟨s', h1, h2, _⟩ := install_refused h hc
      exact ⟨s', by simpa [State.step] using h1, fun _ => h2⟩
    | true =>
      obtain ⟨s', h1, h2⟩ := install_accepted h hc
      rw [quiet_eq] at h1 h2
      refine ⟨s', ?_, fun hq => h2 (by simpa using hq)⟩
      show s.install c = _
      rw [h1]
      cases quiet (current ops) c <;> rfl

theorem quiet_cons_iff {pre : List Op} {op : Op} {ops : List Op} :
    (∀ p c q, op :: ops = p ++ .install c :: q → accepted (current (pre ++ p)) c = true → quiet (current (pre ++ p)) c = true) ↔
      quietOp (current pre) op = true ∧
        ∀ p c q, ops = p ++ .install c :: q → accepted (current (pre ++ [op] ++ p)) c = true → quiet (current (pre ++ [op] ++ p)) c = true := by
  constructor
  · intro h
    refine ⟨?_, fun p c q hp ha => ?_⟩
    · cases op with
      | install c =>
        have := h [] c ops rfl
        rw [List.append_nil] at this
        show (!accepted (current pre) c || quiet (current pre) c) = true
        cases hc : accepted (current pre) c
        · rfl
        · simpa using this hc
      | _ => rfl
    · have := h (op :: p) c q (by rw [hp]; rfl)
      simp only [List.append_assoc, List.singleton_append] at ha ⊢
      exact this ha
  · rintro ⟨h1, h2⟩ p c q hp ha
    cases p with
    | nil =>
      simp only [List.nil_append, List.cons.injEq] at hp
      obtain ⟨rfl, rfl⟩ := hp
      rw [List.append_nil] at ha ⊢
      replace h1 : (!accepted (current pre) c || quiet (current pre) c) = true := h1
      rw [ha] at h1
      simpa using h1
    | cons x p =>
      simp only [List.cons_append, List.cons.injEq] at hp
      obtain ⟨rfl, rfl⟩ := hp
      have := h2 p c q rfl
      simp only [List.append_assoc, List.singleton_append] at this
      exact this ha

theorem run_spec (ops : List Op) : ∀ {pre : List Op} {s : State}, At pre s →
    ((∀ p c q, ops = p ++ .install c :: q → accepted (current (pre ++ p)) c = true → quiet (current (pre ++ p)) c = true) →
      ∃ s', s.run ops = (none, s') ∧ At (pre ++ ops) s') ∧
    (¬(∀ p c q, ops = p ++ .install c :: q → accepted (current (pre ++ p)) c = true → quiet (current (pre ++ p)) c = true) →
      ∃ s', s.run ops = (some .terminated, s')) := by
  induction ops with
  | nil =>
    intro pre s h
    refine ⟨fun _ => ⟨s, rfl, by simpa using h⟩, fun hn => absurd ?_ hn⟩
    intro p c q hp
    simp at hp
  | cons op ops ih =>
    intro pre s h
    obtain ⟨s', h1, h2⟩ := step_spec h op
    rw [quiet_cons_iff]
    unfold State.run
    rw [h1]
    cases hq : quietOp (current pre) op with
    | false =>
      refine ⟨fun hx => by simp at hx, fun _ => ⟨s', by simp⟩⟩
    | true =>
      have := ih (h2 hq)
      simp only [true_and, if_true]
      rw [List.append_assoc, List.singleton_append] at this
      simpa only [List.append_assoc, List.singleton_append] using this

/-! ## The end of a program -/

theorem any_uncaught (d : List Act) : d.any (fun a => !a.caught) = true ↔ ∃ a ∈ d, a.caught = false := by simp

theorem dtor_holds {k : Nat} (as : List Act) {s : State} (h : s.slot = .holds k) :
    ∃ s', s.dtor as = (if s.throwing k && as.any (fun a => !a.caught) then some .terminated else none, s') ∧ Same s s' := by
  obtain ⟨s', h1, h2, _⟩ := acts_holds as h
  refine ⟨s', ?_, h2⟩
  unfold State.dtor
  rw [h1]
  cases s.throwing k && as.any (fun a => !a.caught) <;> rfl

theorem closeNew_holds {k : Nat} (s : State) : s.closeNew (.holds k) = (none, s) := by simp [State.closeNew]
theorem closeNew_gone (s : State) : s.closeNew .gone = (none, s) := by simp [State.closeNew]

theorem unwind_object (s : State) (i : Nat) (d : List Act) (rest : List Static) :
    s.unwind (.object i d :: rest) =
      match (s.say (.ends i)).dtor d with
      | (some x, s') => (some x, s')
      | (none, s') =>
        match s'.closeNew s.slot with
        | (some x, s'') => (some x, s'')
        | (none, s'') => s''.unwind rest := by
  rw [State.unwind]
  rfl

theorem unwind_late {k : Nat} (rest : List Static) (a : List Static) : ∀ {s : State}, Objects a → s.slot = .holds k →
    (s.throwing k = true ∧ Loud (dtors a) → (s.unwind (a ++ rest)).1 = some .terminated) ∧
    (¬(s.throwing k = true ∧ Loud (dtors a)) → ∃ s', s.unwind (a ++ rest) = s'.unwind rest ∧ Same s s') := by
  induction a with
  | nil =>
    intro s _ _
    refine ⟨fun ⟨_, _, h, _⟩ => (by cases h), fun _ => ⟨s, rfl, .refl s⟩⟩
  | cons x a ih =>
    intro s ho hs
    cases x with
    | slot => simp [Objects] at ho
    | object i d =>
      have ho' : Objects a := by simpa [Objects] using ho
      obtain ⟨s', h1, h2⟩ := dtor_holds d (s := s.say (.ends i)) hs
      have h3 : Same s s' := (Same.say s _).trans h2
      rw [throwing_same (Same.say s _)] at h1
      rw [loud_object, List.cons_append, unwind_object, h1]
      have hs' : s'.slot = .holds k := by rw [h3.slot, hs]
      obtain ⟨h4, h5⟩ := ih ho' hs'
      rw [throwing_same h3] at h4 h5
      cases ht : s.throwing k && d.any (fun a => !a.caught) with
      | true =>
        simp only [Bool.and_eq_true, any_uncaught] at ht
        exact ⟨fun _ => rfl, fun hn => absurd ⟨ht.1, .inr ht.2⟩ hn⟩
      | false =>
        simp only [Bool.false_eq_true, if_false, hs, closeNew_holds]
        have hnd : s.throwing k = true → ¬∃ a ∈ d, a.caught = false := by
          intro h hd
          rw [← any_uncaught] at hd
          rw [h, hd] at ht
          cases ht
        refine ⟨fun ⟨h, h'⟩ => h4 ⟨h, h'.resolve_right (hnd h)⟩, fun hn => ?_⟩
        obtain ⟨s'', h6, h7⟩ := h5 (fun ⟨h, h'⟩ => hn ⟨h, .inl h'⟩)
        exact ⟨s'', h6, h3.trans h7⟩

theorem unwind_gone (l : List Static) : ∀ {s : State}, Objects l → s.slot = .gone →
    (s.unwind l).1 = if dtors l = [] then none else some .undefined := by
  induction l with
  | nil => intro s _ _; rfl
  | cons x l ih =>
    intro s ho hs
    cases x with
    | slot => simp [Objects] at ho
    | object i d =>
      have ho' : Objects l := by simpa [Objects] using ho
      unfold State.unwind
      cases d with
      | nil =>
        have := ih (s := s.say (.ends i)) ho' hs
        simp only [State.dtor, State.acts, hs, closeNew_gone]
        rw [this]
        simp [dtors, Static.dtors]
      | cons a as =>
        simp only [State.dtor, acts_gone (s := s.say (.ends i)) hs]
        simp [dtors, Static.dtors]

theorem close_eq {s : State} {k : Nat} {c : Cls} (hs : s.slot = .holds k) (hc : s.reporters[k]? = some c) :
    s.close = (({ s with slot := .gone } : State).say (.dying k)).dtor c.dtor := by
  unfold State.close
  rw [hs]
  dsimp only
  rw [hc]

theorem dtor_gone {s : State} (hs : s.slot = .gone) (as : List Act) :
    s.dtor as = (if as = [] then none else some .undefined, s) := by
  cases as with
  | nil => simp [State.dtor, State.acts]
  | cons a as => simp [State.dtor, acts_gone hs]

theorem close_holds {s : State} {k : Nat} {c : Cls} (hs : s.slot = .holds k) (hc : s.reporters[k]? = some c) :
    s.close.2.slot = .gone ∧ s.close.1 = if c.dtor = [] then none else some .undefined := by
  rw [close_eq hs hc, dtor_gone rfl]
  exact ⟨rfl, rfl⟩

theorem At.idle {ops : List Op} {s : State} (h : At ops s) {e : Ev} (he : Idle e) : At ops (s.say e) :=
  ⟨h.inv.idle he, h.fresh, h.holds, h.gone, h.lay⟩

theorem unwind_used {ops : List Op} {s : State} (h : At ops s) (hu : used ops = true) :
    ((current ops).throws = true ∧ Careless ops → (s.unwind s.statics).1 = some .terminated) ∧
    (¬((current ops).throws = true ∧ Careless ops) → (current ops).dtor ≠ [] ∨ Early ops → (s.unwind s.statics).1 = some .undefined) ∧
    (¬((current ops).throws = true ∧ Careless ops) → ¬((current ops).dtor ≠ [] ∨ Early ops) → (s.unwind s.statics).1 = none) := by
  obtain ⟨k, hs⟩ : ∃ k, s.slot = .holds k := by
    cases hs : s.slot with
    | gone => exact absurd hs h.gone
    | fresh => rw [(h.fresh hs).1] at hu; cases hu
    | holds k => exact ⟨k, rfl⟩
  have hc := (h.holds k hs).2
  have hl := h.lay.2
  rw [if_pos hu] at hl
  obtain ⟨a, b, hab, ha, hb, he, hcl⟩ := hl
  rw [hab, ← hcl]
  obtain ⟨h1, h2⟩ := unwind_late (.slot :: b) a ha hs
  rw [throwing_of hc] at h1 h2
  refine ⟨h1, fun hn hd => ?_, fun hn hd => ?_⟩
  all_goals
    obtain ⟨s', h3, h4⟩ := h2 hn
    have hc' : s'.reporters[k]? = some (current ops) := by rw [h4.reporters, hc]
    obtain ⟨h5, h6⟩ := close_holds (s := s') (by rw [h4.slot, hs]) hc'
    rw [h3]
    unfold State.unwind
    have hp : s'.close = (if (current ops).dtor = [] then none else some .undefined, s'.close.2) := by rw [← h6]
    rw [hp]
  · by_cases hd' : (current ops).dtor = []
    · have := hd.resolve_left (fun h => h hd')
      rw [if_pos hd']
      dsimp only
      rw [unwind_gone b hb h5, if_neg (fun h => (he.mp h) this)]
    · rw [if_neg hd']
  · simp only [not_or, Decidable.not_not] at hd
    rw [if_pos hd.1]
    dsimp only
    rw [unwind_gone b hb h5, if_pos (he.mpr hd.2)]

theorem unwind_fresh (l : List Static) : ∀ {s : State}, Objects l → s.slot = .fresh →
    (s.unwind l).1 = match dtors l with
      | [] => none
      | d :: rest => if d.any (fun a => !a.caught) then some .terminated else if rest = [] then none else some .undefined := by
  induction l with
  | nil => intro s _ _; rfl
  | cons x l ih =>
    intro s ho hs
    cases x with
    | slot => simp [Objects] at ho
    | object i d =>
      have ho' : Objects l := by simpa [Objects] using ho
      cases d with
      | nil =>
        have := ih (s := s.say (.ends i)) ho' hs
        unfold State.unwind
        simp only [State.dtor, State.acts, hs, State.closeNew, if_true, State.close]
        have h2 : (s.say (.ends i)).slot = .fresh := hs
        rw [h2]
        dsimp only
        rw [this]
        rfl
      | cons a as =>
        have hd : dtors (.object i (a :: as) :: l) = (a :: as) :: dtors l := rfl
        rw [hd]
        obtain ⟨s', h1, h2, _⟩ := acts_holds (k := s.reporters.length) (a :: as) (s := (s.say (.ends i)).opened) rfl
        have h3 : (s.say (.ends i)).dtor (a :: as) = (if (a :: as).any (fun a => !a.caught) then some .terminated else none, s') := by
          unfold State.dtor
          rw [acts_fresh (s := s.say (.ends i)) hs, h1]
          rw [show (s.say (.ends i)).opened.throwing s.reporters.length = true from throwing_of (opened_reporter (s.say (.ends i)))]
          cases (a :: as).any (fun a => !a.caught) <;> rfl
        rw [unwind_object, h3]
        dsimp only
        generalize (a :: as).any (fun a => !a.caught) = x
        cases x with
        | true => rfl
        | false =>
          simp only [Bool.false_eq_true, if_false, hs, State.closeNew, if_true]
          have hc : s'.reporters[s.reporters.length]? = some defaultCls := by
            rw [h2.reporters]; exact opened_reporter (s.say (.ends i))
          obtain ⟨h5, h6⟩ := close_holds (s := s') h2.slot hc
          have hp : s'.close = (none, s'.close.2) := by rw [← show s'.close.1 = none from h6]
          rw [hp]
          dsimp only
          rw [unwind_gone l ho' h5]

theorem unwind_unused {ops : List Op} {s : State} (h : At ops s) (hu : used ops = false) :
    (s.unwind s.statics).1 = match (reporting ops).reverse with
      | [] => none
      | d :: rest => if d.any (fun a => !a.caught) then some .terminated else if rest = [] then none else some .undefined := by
  have hs : s.slot = .fresh := by
    cases hs : s.slot with
    | gone => exact absurd hs h.gone
    | fresh => rfl
    | holds k => rw [(h.holds k hs).1] at hu; cases hu
  have hl := h.lay.2
  rw [if_neg (by simp [hu])] at hl
  rw [unwind_fresh _ hl hs, h.lay.1]

theorem quiet_iff (ops : List Op) : Quiet ops ↔
    ∀ p c q, ops = p ++ .install c :: q → accepted (current ([] ++ p)) c = true → quiet (current ([] ++ p)) c = true := by
  unfold Quiet quiet
  simp only [List.nil_append]
  constructor
  · intro h p c q hp ha
    have := h p c q hp ha
    cases hc : c.throws
    · rfl
    · simpa using this hc
  · intro h p c q hp ha ht
    have := h p c q hp ha
    rw [ht] at this
    simpa using this

theorem run_quiet {ops : List Op} (h : Quiet ops) : ∃ s, State.init.run ops = (none, s) ∧ At ops s := by
  obtain ⟨s, h1, h2⟩ := (run_spec ops At.init).1 ((quiet_iff ops).mp h)
  exact ⟨s, h1, by simpa using h2⟩

theorem run_loud {ops : List Op} (h : ¬Quiet ops) : ∃ s, State.init.run ops = (some .terminated, s) :=
  (run_spec ops At.init).2 (fun h' => h ((quiet_iff ops).mpr h'))

theorem program_quiet {ops : List Op} {s : State} (h : State.init.run ops = (none, s)) :
    program ops = (((s.say .exit).unwind s.statics).1, ((s.say .exit).unwind s.statics).2.log) := by
  unfold program
  rw [h]

/-! ## Every reporter dies -/

theorem close_not_holds (s : State) (k : Nat) : s.close.2.slot ≠ .holds k := by
  cases hs : s.slot with
  | gone => simp [State.close, hs]
  | fresh => simp [State.close, hs]
  | holds j =>
    unfold State.close
    rw [hs]
    dsimp only
    cases hc : s.reporters[j]? with
    | none => simp [State.say]
    | some c =>
      dsimp only
      rw [dtor_gone rfl]
      simp [State.say]

theorem unwind_not_holds (l : List Static) : ∀ {s s' : State}, s.unwind l = (none, s') → (∀ k, s.slot = .holds k → .slot ∈ l) →
    ∀ k, s'.slot ≠ .holds k := by
  induction l with
  | nil =>
    intro s s' h hs k hk
    cases h
    cases hs k hk
  | cons x l ih =>
    intro s s' h hs
    cases x with
    | slot =>
      unfold State.unwind at h
      cases hc : s.close with
      | mk r s1 =>
        have h1 : ∀ k, s1.slot ≠ .holds k := by
          have := close_not_holds s
          rw [hc] at this
          exact this
        rw [hc] at h
        cases r with
        | some x => cases h
        | none => exact ih h (fun k hk => absurd hk (h1 k))
    | object i d =>
      rw [unwind_object] at h
      cases hd : (s.say (.ends i)).dtor d with
      | mk r s1 =>
        rw [hd] at h
        cases r with
        | some x => cases h
        | none =>
          dsimp only at h
          cases hk : s.slot with
          | holds j =>
            obtain ⟨s2, h3, h4⟩ := dtor_holds d (s := s.say (.ends i)) (k := j) hk
            rw [hd, Prod.mk.injEq] at h3
            rw [← h3.2] at h4
            rw [hk, closeNew_holds] at h
            exact ih h (fun k _ => by simpa using hs j hk)
          | gone =>
            have h3 := dtor_gone (s := s.say (.ends i)) hk d
            rw [hd, Prod.mk.injEq] at h3
            rw [hk, closeNew_gone] at h
            refine ih h (fun k hk' => ?_)
            rw [h3.2] at hk'
            simp [State.say, hk] at hk'
          | fresh =>
            rw [hk] at h
            simp only [State.closeNew, if_true] at h
            cases hc : s1.close with
            | mk r s2 =>
              have h1 : ∀ k, s2.slot ≠ .holds k := by
                have := close_not_holds s1
                rw [hc] at this
                exact this
              rw [hc] at h
              cases r with
              | some x => cases h
              | none => exact ih h (fun k hk => absurd hk (h1 k))

theorem At.slot_mem {ops : List Op} {s : State} (h : At ops s) {k : Nat} (hs : s.slot = .holds k) : .slot ∈ s.statics := by
  have hl := h.lay.2
  rw [if_pos (h.holds k hs).1] at hl
  obtain ⟨a, b, hab, _⟩ := hl
  rw [hab]
  simp

end Mimic.Install
