import Verif.Spec.Alike
import Verif.Proofs.Outcome

/-!
# Lemmas about histories that differ in their requirements only
-/

set_option autoImplicit false

namespace Mimic

variable {α β : Type}

/-- Both computations succeed with related results, or fail in the same way. -/
inductive MLike {A B : Type} (R : A → B → Prop) : M A → M B → Prop where
  | ok {a : A} {b : B} : R a b → MLike R (.ok a) (.ok b)
  | error (x : Stop) : MLike R (.error x) (.error x)

theorem MLike.bind {A B C D : Type} {R : A → B → Prop} {S : C → D → Prop} {m : M A} {m' : M B} {f : A → M C} {g : B → M D}
    (h : MLike R m m') (hf : ∀ a b, R a b → MLike S (f a) (g b)) : MLike S (m >>= f) (m' >>= g) := by
  cases h with
  | ok hr => exact hf _ _ hr
  | error x => exact .error x

theorem MLike.refl {A : Type} {R : A → A → Prop} (h : ∀ a, R a a) (m : M A) : MLike R m m := by
  cases m with
  | ok a => exact .ok (h a)
  | error x => exact .error x

/-- What is left of an expectation without its requirements. -/
structure Bones where
  coll : Nat
  control : Control
  alive : Bool
  content : Bool
deriving DecidableEq

def Exp.bones (x : Exp α) : Bones :=
  { coll := x.coll, control := x.control, alive := x.alive, content := Policy.content x.policies }

/-- The worlds are the same without the requirements. -/
structure World.Alike (w : World α) (v : World β) : Prop where
  seqs : w.seqs = v.seqs
  colls : w.colls = v.colls
  exps : w.exps.map Exp.bones = v.exps.map Exp.bones

theorem World.Alike.get {w : World α} {v : World β} (h : w.Alike v) (e : Nat) :
    (w.exps[e]?).map Exp.bones = (v.exps[e]?).map Exp.bones := by
  rw [← List.getElem?_map, ← List.getElem?_map, h.exps]

theorem World.Alike.length {w : World α} {v : World β} (h : w.Alike v) : w.exps.length = v.exps.length := by
  have := congrArg List.length h.exps
  simpa using this

theorem World.Alike.deref {w : World α} {v : World β} (h : w.Alike v) (e : Nat) :
    MLike (fun x y => w.exps[e]? = some x ∧ v.exps[e]? = some y ∧ x.bones = y.bones ∧ x.alive = true) (w.deref e) (v.deref e) := by
  have := h.get e
  unfold World.deref
  cases hx : w.exps[e]? with
  | none =>
    cases hy : v.exps[e]? with
    | none => exact .error _
    | some y => simp [hx, hy] at this
  | some x =>
    cases hy : v.exps[e]? with
    | none => simp [hx, hy] at this
    | some y =>
      simp only [hx, hy, Option.map_some, Option.some.injEq] at this
      have ha : x.alive = y.alive := congrArg Bones.alive this
      by_cases hxa : x.alive = true
      · have hya : y.alive = true := by rw [← ha, hxa]
        simp only [hxa, hya, if_true]
        exact .ok ⟨rfl, rfl, this, hxa⟩
      · have hya : ¬ y.alive = true := by rw [← ha]; exact hxa
        simp only [hxa, hya]
        exact .error _

theorem evalPolicies_says (a : α) (ps : List (Policy α)) : (evalPolicies a ps).map (fun rs => rs.all (·.1)) = Policy.says ps a := by
  induction ps with
  | nil => rfl
  | cons p ps ih =>
    unfold evalPolicies Policy.says
    unfold Policy.says at ih
    rw [List.any_cons, List.all_cons]
    rcases hp : p.accepts a with _ | b
    · simp
    · simp only
      cases hr : evalPolicies a ps with
      | none =>
        rw [hr] at ih
        simp only [Option.map_none] at ih
        split at ih
        · rename_i hany
          rw [hany]
          simp
        · simp at ih
      | some rs =>
        rw [hr] at ih
        simp only [Option.map_some] at ih
        split at ih
        · simp at ih
        · rename_i hany
          simp only [Option.some.injEq] at ih
          rw [Bool.not_eq_true] at hany
          rw [hany, ← ih]
          cases b <;> simp

theorem says_cons (p : Policy α) (ps : List (Policy α)) (a : α) {r : Option Bool} (hr : Policy.says ps a = r) :
    Policy.says (p :: ps) a = match p.accepts a with | none => none | some b => r.map (b && ·) := by
  subst hr
  rw [← evalPolicies_says, ← evalPolicies_says]
  simp only [evalPolicies]
  rcases p.accepts a with _ | b
  · rfl
  · simp only
    rcases evalPolicies a ps with _ | rs
    · rfl
    · simp

/-- What counts of a match report: whose it is, the control state and whether the requirements accept. -/
def MatchReport.Same (r r' : MatchReport) : Prop :=
  r.exp = r'.exp ∧ r.control = r'.control ∧ r.results.all (·.1) = r'.results.all (·.1)

theorem MatchReport.Same.evaluate {r r' : MatchReport} (h : r.Same r') : evaluateMatchReport r = evaluateMatchReport r' := by
  obtain ⟨_, h2, h3⟩ := h
  simp only [evaluateMatchReport, h2, h3]

def keys (rs : List MatchReport) : List (Nat × ControlState) := rs.map (fun r => (r.exp, r.control))

structure Scan.Same (r r' : Scan) : Prop where
  full : keys r.full = keys r'.full
  inapplicable : keys r.inapplicable = keys r'.inapplicable
  none : keys r.none = keys r'.none
  thrown : r.thrown = r'.thrown

/-- The requirements of the expectations in `es` say the same. -/
def World.Agree (w : World α) (v : World β) (a : α) (b : β) (es : List Nat) : Prop :=
  ∀ e ∈ es, ∀ x y, w.exps[e]? = some x → v.exps[e]? = some y → x.alive = true → Policy.says x.policies a = Policy.says y.policies b

theorem matchReport_like {x : Exp α} {y : Exp β} {h : Seqs} {a : α} {b : β} (e : Nat) (hc : x.control = y.control)
    (hs : Policy.says x.policies a = Policy.says y.policies b) :
    MLike (fun r r' => (r = none ∧ r' = none) ∨ ∃ q q', r = some q ∧ r' = some q' ∧ q.Same q') (x.matchReport e h a)
      (y.matchReport e h b) := by
  unfold Exp.matchReport
  rw [hc]
  refine MLike.bind (MLike.refl (R := fun s t => s = t) (fun _ => rfl) _) ?_
  rintro st _ rfl
  rw [← evalPolicies_says, ← evalPolicies_says] at hs
  cases h1 : evalPolicies a x.policies with
  | none =>
    cases h2 : evalPolicies b y.policies with
    | none => exact .ok (.inl ⟨rfl, rfl⟩)
    | some rs => simp [h1, h2] at hs
  | some rs =>
    cases h2 : evalPolicies b y.policies with
    | none => simp [h1, h2] at hs
    | some rs' =>
      simp only [h1, h2, Option.map_some, Option.some.injEq] at hs
      exact .ok (.inr ⟨_, _, rfl, rfl, rfl, rfl, hs⟩)

theorem scan_like {w : World α} {v : World β} (h : w.Alike v) {a : α} {b : β} {es : List Nat} (hs : w.Agree v a b es) :
    MLike Scan.Same (scan w a es) (scan v b es) := by
  induction es with
  | nil => exact .ok ⟨rfl, rfl, rfl, rfl⟩
  | cons e rest ih =>
    unfold scan
    refine MLike.bind (h.deref e) ?_
    rintro x y ⟨hx, hy, hb, ha⟩
    rw [h.seqs]
    refine MLike.bind (matchReport_like e (congrArg Bones.control hb) (hs e (by simp) x y hx hy ha)) ?_
    intro r r' hr
    refine MLike.bind (ih (fun e' he' => hs e' (by simp [he']))) ?_
    intro s s' hss
    rcases hr with ⟨rfl, rfl⟩ | ⟨q, q', rfl, rfl, hq⟩
    · exact .ok ⟨hss.full, hss.inapplicable, hss.none, by simp [hss.thrown]⟩
    · have hev := hq.evaluate
      obtain ⟨h1, h2, _⟩ := hq
      simp only [hev]
      cases evaluateMatchReport q' with
      | none => exact .ok ⟨hss.full, hss.inapplicable, by have := hss.none; simp_all [keys], hss.thrown⟩
      | inapplicable => exact .ok ⟨hss.full, by have := hss.inapplicable; simp_all [keys], hss.none, hss.thrown⟩
      | full => exact .ok ⟨by have := hss.full; simp_all [keys], hss.inapplicable, hss.none, hss.thrown⟩

theorem ratings_like {r r' : MatchReport} (h : r.control = r'.control) : r.ratings = r'.ratings := by
  unfold MatchReport.ratings
  rw [h]

theorem pickLoop_like {rs rs' : List MatchReport} {b b' : MatchReport} (hb : b.exp = b'.exp ∧ b.control = b'.control)
    (h : keys rs = keys rs') : MLike (fun r r' => r.exp = r'.exp) (pickLoop b rs) (pickLoop b' rs') := by
  induction rs generalizing rs' b b' with
  | nil =>
    cases rs' with
    | nil => exact .ok hb.1
    | cons => simp [keys] at h
  | cons r rs ih =>
    cases rs' with
    | nil => simp [keys] at h
    | cons r' rs' =>
      simp only [keys, List.map_cons, List.cons.injEq, Prod.mk.injEq] at h
      obtain ⟨⟨h1, h2⟩, h3⟩ := h
      unfold pickLoop
      rw [ratings_like hb.2, ratings_like h2]
      refine MLike.bind (MLike.refl (R := fun s t => s = t) (fun _ => rfl) _) ?_
      rintro q _ rfl
      refine MLike.bind (MLike.refl (R := fun s t => s = t) (fun _ => rfl) _) ?_
      rintro q' _ rfl
      split
      · exact ih hb h3
      · exact ih ⟨h1, h2⟩ h3

theorem pickBest_like {rs rs' : List MatchReport} (h : keys rs = keys rs') :
    MLike (fun r r' => r.exp = r'.exp) (pickBestMatch rs) (pickBestMatch rs') := by
  cases rs with
  | nil =>
    cases rs' with
    | nil => exact .error _
    | cons => simp [keys] at h
  | cons r rs =>
    cases rs' with
    | nil => simp [keys] at h
    | cons r' rs' =>
      simp only [keys, List.map_cons, List.cons.injEq, Prod.mk.injEq] at h
      exact pickLoop_like h.1 h.2

theorem World.Alike.set {w : World α} {v : World β} (h : w.Alike v) {x : Exp α} {y : Exp β} (hb : x.bones = y.bones) (e : Nat) (s : Seqs)
    (c : List (List Nat)) :
    World.Alike { seqs := s, exps := w.exps.set e x, colls := c } { seqs := s, exps := v.exps.set e y, colls := c } := by
  refine ⟨rfl, rfl, ?_⟩
  simp only [List.map_set, h.exps, hb]

theorem consume_like {w : World α} {v : World β} (h : w.Alike v) (e : Nat) :
    MLike World.Alike (w.consume e) (v.consume e) := by
  unfold World.consume
  refine MLike.bind (h.deref e) ?_
  rintro x y ⟨_, _, hb, _⟩
  have hc : x.control = y.control := congrArg Bones.control hb
  rw [h.seqs, hc]
  refine MLike.bind (MLike.refl (R := fun s t => s = t) (fun _ => rfl) _) ?_
  rintro ⟨s, c⟩ _ rfl
  have h1 : x.coll = y.coll := congrArg Bones.coll hb
  have h2 : x.alive = y.alive := congrArg Bones.alive hb
  have h3 : Policy.content x.policies = Policy.content y.policies := congrArg Bones.content hb
  have := h.set (x := { x with control := c }) (y := { y with control := c }) (by simp [Exp.bones, h1, h2, h3]) e s w.colls
  refine .ok ?_
  rw [← h.colls]
  exact this

/-- Alike worlds, and the same reports. -/
def Same2 (r : World α × List Event) (r' : World β × List Event) : Prop := r.1.Alike r'.1 ∧ r.2 = r'.2

theorem handleCall_like {w : World α} {v : World β} (h : w.Alike v) {m : Nat} {a : α} {b : β}
    (hs : ∀ es, w.colls[m]? = some es → w.Agree v a b es) :
    MLike (fun r r' => r.1.Alike r'.1 ∧ r.2 = r'.2) (w.handleCall m a) (v.handleCall m b) := by
  unfold World.handleCall
  rw [← h.colls]
  cases hm : w.colls[m]? with
  | none => exact .error _
  | some es =>
    simp only
    refine MLike.bind (scan_like h (es := es.reverse) (fun e he => hs es hm e (by simpa using he))) ?_
    intro r r' hr
    have hk : ∀ {l l' : List MatchReport}, keys l = keys l' → l.isEmpty = l'.isEmpty ∧ l.map (·.exp) = l'.map (·.exp) := by
      intro l l' hl
      have h1 := congrArg (List.map Prod.fst) hl
      simp only [keys, List.map_map] at h1
      have h2 := congrArg List.length h1
      simp only [List.length_map] at h2
      refine ⟨?_, h1⟩
      cases l <;> cases l' <;> simp_all
    simp only [(hk hr.full).1, (hk hr.inapplicable).1, (hk hr.inapplicable).2, (hk hr.none).2, hr.thrown]
    split
    · refine MLike.bind (pickBest_like hr.full) ?_
      intro q q' hq
      rw [hq]
      refine MLike.bind (consume_like h _) ?_
      intro w' v' hwv
      exact .ok ⟨hwv, rfl⟩
    · split
      · exact .ok ⟨h, rfl⟩
      · exact .ok ⟨h, rfl⟩

theorem owned_like {w : World α} {v : World β} (h : w.Alike v) (s : Nat) : w.owned s = v.owned s := by
  have h1 : ∀ {γ : Type} (u : World γ), u.exps.any (fun x => x.alive && x.holds s) =
      (u.exps.map Exp.bones).any (fun x => x.alive && x.control.entries.any (fun en => en.1 == s)) := by
    intro γ u
    rw [List.any_map]
    rfl
  unfold World.owned
  rw [h.seqs, h1 w, h1 v, h.exps]

theorem release_like {w : World α} {v : World β} (h : w.Alike v) (s : Nat) : MLike Same2 (w.release s) (v.release s) := by
  unfold World.release
  rw [owned_like h]
  split
  · exact .ok ⟨h, rfl⟩
  · rw [h.seqs]
    refine MLike.bind (MLike.refl (R := fun s t => s = t) (fun _ => rfl) _) ?_
    rintro q _ rfl
    refine MLike.bind (MLike.refl (R := fun s t => s = t) (fun _ => rfl) _) ?_
    rintro err _ rfl
    have : World.Alike { w with seqs := v.seqs.modify s (fun c => { c with alive := false }) }
        { v with seqs := v.seqs.modify s (fun c => { c with alive := false }) } := ⟨rfl, h.colls, h.exps⟩
    cases err with
    | none => exact .ok ⟨this, rfl⟩
    | some p => exact .ok ⟨this, rfl⟩

theorem releaseAll_like {w : World α} {v : World β} (h : w.Alike v) (ss : List Nat) :
    MLike Same2 (w.releaseAll ss) (v.releaseAll ss) := by
  induction ss generalizing w v with
  | nil => exact .ok ⟨h, rfl⟩
  | cons s rest ih =>
    unfold World.releaseAll
    refine MLike.bind (release_like h s) ?_
    rintro ⟨w', ev⟩ ⟨v', ev'⟩ ⟨h1, rfl⟩
    refine MLike.bind (ih h1) ?_
    rintro ⟨w'', ev''⟩ ⟨v'', _⟩ ⟨h2, rfl⟩
    exact .ok ⟨h2, rfl⟩

theorem destroy_like {w : World α} {v : World β} (h : w.Alike v) (e : Nat) : MLike Same2 (w.destroyExp e) (v.destroyExp e) := by
  have hg := h.get e
  unfold World.destroyExp
  cases hx : w.exps[e]? with
  | none =>
    cases hy : v.exps[e]? with
    | none => exact .error _
    | some y => simp [hx, hy] at hg
  | some x =>
    cases hy : v.exps[e]? with
    | none => simp [hx, hy] at hg
    | some y =>
      simp only [hx, hy, Option.map_some, Option.some.injEq] at hg
      have h1 : x.coll = y.coll := congrArg Bones.coll hg
      have h2 : x.alive = y.alive := congrArg Bones.alive hg
      have h3 : Policy.content x.policies = Policy.content y.policies := congrArg Bones.content hg
      have h4 : x.control = y.control := congrArg Bones.control hg
      simp only [h2, ← h.colls, h1]
      split
      · exact .error _
      · cases hm : w.colls[y.coll]? with
        | none => exact .error _
        | some es =>
          simp only
          refine MLike.bind (MLike.refl (R := fun s t => s = t) (fun _ => rfl) _) ?_
          rintro _ _ -
          have hsat : x.isSatisfied = y.isSatisfied := by
            simp only [Exp.isSatisfied, h4]
            exact congrArg _ h3
          rw [hsat, h4]
          refine MLike.bind (releaseAll_like ?_ _) ?_
          · refine ⟨h.seqs, rfl, ?_⟩
            simp only [List.map_set, h.exps]
            simp [Exp.bones, h3]
          · rintro ⟨w', ev⟩ ⟨v', ev'⟩ ⟨h5, h6⟩
            simp only at h6
            subst h6
            exact .ok ⟨h5, rfl⟩

theorem expect_like {w : World α} {v : World β} (h : w.Alike v) (m : Nat) (min max : Int) (tags : List Nat) {ps : List (Policy α)}
    {ps' : List (Policy β)} (hp : Policy.content ps = Policy.content ps') :
    MLike Same2 (w.expect m min max tags ps) (v.expect m min max tags ps') := by
  have hh : w.hasHandle = v.hasHandle := by
    funext s
    unfold World.hasHandle
    rw [h.seqs]
  unfold World.expect
  rw [← h.colls, hh, h.seqs, h.length]
  cases hm : w.colls[m]? with
  | none => exact .error _
  | some es =>
    simp only
    split
    · split
      · refine MLike.bind (MLike.refl (R := fun s t => s = t) (fun _ => rfl) _) ?_
        rintro ⟨s, c⟩ _ rfl
        refine MLike.bind (MLike.refl (R := fun s t => s = t) (fun _ => rfl) _) ?_
        rintro _ _ -
        refine .ok ⟨⟨rfl, rfl, ?_⟩, rfl⟩
        simp only [List.map_append, h.exps, List.map_cons, List.map_nil]
        simp [Exp.bones, hp]
      · exact .ok ⟨h, rfl⟩
    · exact .error _

/-- A step of the second history follows that of the first. -/
theorem follow {A B : Type} {R : A → B → Prop} {m : M A} {m' : M B} {a : A} (h : MLike R m m') (hm : m = .ok a) : ∃ b, m' = .ok b ∧ R a b := by
  subst hm
  cases h with
  | ok hr => exact ⟨_, rfl, hr⟩

/-- What the two histories have in common about an expectation. -/
def Decl.frame (d : Decl α) : Nat × Int × Int × List Nat × Bool := (d.mock, d.min, d.max, d.seqs, Policy.content d.policies)

theorem OpAlike.declStep {tr : Trace α} {tr' : Trace β} {op : Op α} {op' : Op β} (h : OpAlike tr tr' op op') (e : Nat) (ev : List Event) :
    (declStep e op ev).map Decl.frame = (declStep e op' ev).map Decl.frame := by
  cases h with
  | expect m min max tags ps ps' hp =>
    simp only [Mimic.declStep]
    split <;> simp [Decl.frame, hp]
  | _ => rfl

theorem Alike.decl {tr : Trace α} {tr' : Trace β} (h : Alike tr tr') (e : Nat) :
    (tr.decl e).map Decl.frame = (tr'.decl e).map Decl.frame := by
  induction h with
  | init => rfl
  | @step tr tr' op op' ev _ hop ih =>
    rw [decl_snoc, decl_snoc]
    have := hop.declStep e ev
    cases h1 : tr.decl e with
    | some d =>
      cases h2 : tr'.decl e with
      | some d' => simpa [h1, h2] using ih
      | none => simp [h1, h2] at ih
    | none =>
      cases h2 : tr'.decl e with
      | some d' => simp [h1, h2] at ih
      | none => simpa using this

theorem Alike.events {tr : Trace α} {tr' : Trace β} (h : Alike tr tr') : tr.events = tr'.events := by
  induction h with
  | init => rfl
  | step ev _ _ ih => rw [events_snoc, events_snoc, ih]

theorem Alike.live {tr : Trace α} {tr' : Trace β} (h : Alike tr tr') (e : Nat) : tr.live e ↔ tr'.live e := by
  have := h.decl e
  unfold Trace.live
  rw [h.events]
  cases h1 : tr.decl e <;> cases h2 : tr'.decl e <;> simp_all

theorem Alike.symm {tr : Trace α} {tr' : Trace β} (h : Alike tr tr') : Alike tr' tr := by
  induction h with
  | init => exact .init
  | @step tr tr' op op' ev ha hop ih =>
    refine .step ev ih ?_
    cases hop with
    | newSequence st => exact .newSequence st
    | dropSequence s => exact .dropSequence s
    | newMock => exact .newMock
    | expect m min max tags ps ps' hp => exact .expect m min max tags ps' ps hp.symm
    | destroy e => exact .destroy e
    | call m a a' hs =>
      refine .call m a' a ?_
      intro e d d' hl hd hd' hm
      refine (hs e d' d ((ha.live e).mpr hl) hd' hd ?_).symm
      have := ha.decl e
      simp only [hd, hd', Option.map_some, Option.some.injEq, Decl.frame, Prod.mk.injEq] at this
      exact this.1.trans hm

/-- What the library keeps of an expectation is what it was created with. -/
theorem Reach.exp_decl {tr : Trace α} {w : World α} (h : Reach tr w) {e : Nat} {x : Exp α} (hx : w.exps[e]? = some x) :
    ∃ d, tr.decl e = some d ∧ d.mock = x.coll ∧ d.policies = x.policies ∧ (x.alive = true → tr.live e) := by
  have := h.view.2.exps e
  rw [abs_getElem?, hx] at this
  cases hd : tr.decl e with
  | none => simp [hd] at this
  | some d =>
    simp only [hd, Option.map_some, Option.some.injEq, absExp, viewExp, Spec.Exp.mk.injEq] at this
    obtain ⟨_, h1, _, _, _, h2, _, h3⟩ := this
    refine ⟨d, rfl, h1.symm, h2.symm, fun ha => ⟨⟨d, hd⟩, ?_⟩⟩
    rw [ha] at h3
    simpa using h3.symm

theorem Reach.in_coll {tr : Trace α} {w : World α} (h : Reach tr w) {m e : Nat} {es : List Nat} {x : Exp α} (hm : w.colls[m]? = some es)
    (he : e ∈ es) (hx : w.exps[e]? = some x) : x.coll = m := by
  have := h.view.1.colls m es hm
  rw [this, List.mem_map] at he
  obtain ⟨y, hy, rfl⟩ := he
  rw [List.mem_filter] at hy
  obtain ⟨hy, hm'⟩ := hy
  rw [List.mem_iff_getElem?] at hy
  obtain ⟨n, hn⟩ := hy
  have hid := h.view.2.id hn
  rw [abs_getElem?] at hn
  rw [hid] at hx
  simp only [hx, Option.map_some, Option.some.injEq] at hn
  subst hn
  simp only [Bool.and_eq_true, beq_iff_eq] at hm'
  exact hm'.2

/-- Corresponding operations come to the same. -/
theorem OpAlike.step {tr : Trace α} {tr' : Trace β} {op : Op α} {op' : Op β} (hop : OpAlike tr tr' op op') {w : World α} {v : World β}
    (hw : Reach tr w) (hv : Reach tr' v) (h : w.Alike v) : MLike Same2 (w.step op) (v.step op') := by
  cases hop with
  | newSequence st =>
    simp only [World.step, h.seqs]
    exact .ok ⟨⟨rfl, h.colls, h.exps⟩, rfl⟩
  | dropSequence s =>
    have hh : w.hasHandle s = v.hasHandle s := by unfold World.hasHandle; rw [h.seqs]
    simp only [World.step, hh]
    split
    · apply release_like
      exact ⟨by simp only [h.seqs], h.colls, h.exps⟩
    · exact .error _
  | newMock =>
    simp only [World.step, h.colls]
    exact .ok ⟨⟨h.seqs, rfl, h.exps⟩, rfl⟩
  | expect m min max tags ps ps' hp => exact expect_like h m min max tags hp
  | destroy e => exact destroy_like h e
  | call m a a' hsay =>
    refine MLike.bind (handleCall_like h ?_) ?_
    · intro es hm e he x y hx hy ha
      obtain ⟨d, hd, hd1, hd2, hd3⟩ := hw.exp_decl hx
      obtain ⟨d', hd', _, hd2', _⟩ := hv.exp_decl hy
      rw [← hd2, ← hd2']
      exact hsay e d d' (hd3 ha) hd hd' (hd1.trans (hw.in_coll hm he hx))
    · rintro ⟨w', ev', r⟩ ⟨v', ev'', r'⟩ ⟨h1, h2⟩
      simp only [Prod.mk.injEq] at h2
      obtain ⟨rfl, rfl⟩ := h2
      exact .ok ⟨h1, rfl⟩

/-- Every history that is like one of the library is one of the library as well. -/
theorem Alike.reach {tr : Trace α} {tr' : Trace β} (h : Alike tr tr') {w : World α} (hr : Reach tr w) :
    ∃ v : World β, Reach tr' v ∧ w.Alike v := by
  induction h generalizing w with
  | init =>
    generalize hn : ([] : Trace α) = l at hr
    cases hr with
    | init => exact ⟨_, .init, rfl, rfl, rfl⟩
    | step => simp at hn
  | step ev _ hop ih =>
    obtain ⟨w₀, h0, hs⟩ := hr.snoc_inv
    obtain ⟨v₀, g0, hv⟩ := ih h0
    obtain ⟨⟨v, ev'⟩, h1, h2, h3⟩ := follow (hop.step h0 g0 hv) hs
    simp only at h3
    subst h3
    exact ⟨v, .step g0 h1, h2⟩

/-- Requirements of expectations in both histories mean the same. -/
def DeclSame (R : α → β → Prop) (tr : Trace α) (tr' : Trace β) : Prop :=
  ∀ (e : Nat) (d : Decl α) (d' : Decl β), tr.decl e = some d → tr'.decl e = some d' → Policy.Same R d.policies d'.policies

theorem DeclSame.snoc {R : α → β → Prop} {tr : Trace α} {tr' : Trace β} (h : DeclSame R tr tr') (ha : Alike tr tr') {op : Op α} {op' : Op β}
    {ev : List Event}
    (hs : ∀ (e : Nat) (d : Decl α) (d' : Decl β), declStep e op ev = some d → declStep e op' ev = some d' → Policy.Same R d.policies d'.policies) :
    DeclSame R (tr ++ [(op, ev)]) (tr' ++ [(op', ev)]) := by
  intro e d d' hd hd'
  rw [decl_snoc] at hd hd'
  have := ha.decl e
  cases h1 : tr.decl e <;> cases h2 : tr'.decl e <;> simp only [h1, h2, Option.none_or, Option.some_or, Option.some.injEq] at hd hd'
  · exact hs e d d' hd hd'
  · simp [h1, h2] at this
  · simp [h1, h2] at this
  · subst hd hd'
    exact h e _ _ h1 h2

/-- Programs that correspond to each other come to the same. -/
theorem run_same {R : α → β → Prop} {ops : List (Op α)} {ops' : List (Op β)} (h : Program.Same R ops ops') {tr : Trace α} {tr' : Trace β}
    {w : World α} {v : World β} (hw : Reach tr w) (hv : Reach tr' v) (ha : Alike tr tr') (hwv : w.Alike v) (hd : DeclSame R tr tr') :
    MLike (fun r r' => r.2 = r'.2) (w.run ops) (v.run ops') := by
  have key : ∀ {op : Op α} {op' : Op β} {ops : List (Op α)} {ops' : List (Op β)} {tr : Trace α} {tr' : Trace β} {w : World α} {v : World β},
      Reach tr w → Reach tr' v → Alike tr tr' → w.Alike v → DeclSame R tr tr' → OpAlike tr tr' op op' →
      (∀ (e : Nat) (ev : List Event) (d : Decl α) (d' : Decl β), declStep e op ev = some d → declStep e op' ev = some d' →
        Policy.Same R d.policies d'.policies) →
      (∀ {tr : Trace α} {tr' : Trace β} {w : World α} {v : World β}, Reach tr w → Reach tr' v → Alike tr tr' → w.Alike v →
        DeclSame R tr tr' → MLike (fun r r' => r.2 = r'.2) (w.run ops) (v.run ops')) →
      MLike (fun r r' => r.2 = r'.2) (w.run (op :: ops)) (v.run (op' :: ops')) := by
    intro op op' ops ops' tr tr' w v hw hv ha hwv hd hop hs ih
    unfold World.run
    have hl := hop.step hw hv hwv
    cases h1 : w.step op with
    | error x =>
      rw [h1] at hl
      cases h2 : v.step op' with
      | error y =>
        rw [h2] at hl
        cases hl
        exact .error _
      | ok r =>
        rw [h2] at hl
        cases hl
    | ok r =>
      rw [h1] at hl
      cases h2 : v.step op' with
      | error y =>
        rw [h2] at hl
        cases hl
      | ok r' =>
        rw [h2] at hl
        cases hl with
        | ok hl =>
          obtain ⟨w', ev⟩ := r
          obtain ⟨v', ev'⟩ := r'
          obtain ⟨h3, h4⟩ := hl
          simp only at h4
          subst h4
          refine MLike.bind (R := fun r r' => r = (w', ev) ∧ r' = (v', ev)) (.ok ⟨rfl, rfl⟩) ?_
          rintro _ _ ⟨rfl, rfl⟩
          refine MLike.bind (ih (.step hw h1) (.step hv h2) (.step ev ha hop) h3 (hd.snoc ha (fun e => hs e ev))) ?_
          rintro ⟨w'', e1⟩ ⟨v'', e2⟩ rfl
          exact .ok rfl
  induction h generalizing tr tr' w v with
  | nil => exact .ok rfl
  | newSequence st _ ih => exact key hw hv ha hwv hd (.newSequence st) (fun e ev d d' h => by simp [declStep] at h) ih
  | dropSequence s _ ih => exact key hw hv ha hwv hd (.dropSequence s) (fun e ev d d' h => by simp [declStep] at h) ih
  | newMock _ ih => exact key hw hv ha hwv hd .newMock (fun e ev d d' h => by simp [declStep] at h) ih
  | destroy s _ ih => exact key hw hv ha hwv hd (.destroy s) (fun e ev d d' h => by simp [declStep] at h) ih
  | @call ops ops' m a a' hr _ ih =>
    refine key hw hv ha hwv hd (.call m a a' ?_) (fun e ev d d' h => by simp [declStep] at h) ih
    intro e d d' _ hd1 hd2 _
    exact (hd e d d' hd1 hd2).2 a a' hr
  | expect m min max tags hp _ ih =>
    refine key hw hv ha hwv hd (.expect m min max tags _ _ hp.1) ?_ ih
    intro e ev d d' h1 h2
    simp only [declStep] at h1 h2
    split at h1
    · rename_i hc
      simp only [hc, if_true, Option.some.injEq] at h2
      simp only [Option.some.injEq] at h1
      subst h1 h2
      exact hp
    · simp at h1

end Mimic
