import Verif.Spec.Capture

/-!
# Lemmas about stored values
-/

set_option autoImplicit false

namespace Mimic.Capture

variable {V : Type} {elems : V → List V} {print : V → String}

theorem allOf_ok {f : V → Except Fault Bool} {g : V → Bool} (h : ∀ t, f t = .ok (g t)) (l : List V) :
    allOf f l = .ok (l.all g) := by
  induction l with
  | nil => rfl
  | cons a l ih =>
    simp only [allOf, h, List.all_cons]
    cases hg : g a
    · rfl
    · simpa [hg, bind, Except.bind] using ih

theorem anyOf_ok {f : V → Except Fault Bool} {g : V → Bool} (h : ∀ t, f t = .ok (g t)) (l : List V) :
    anyOf f l = .ok (l.any g) := by
  induction l with
  | nil => rfl
  | cons a l ih =>
    simp only [anyOf, h, List.any_cons]
    cases hg : g a
    · simpa [hg, bind, Except.bind] using ih
    · rfl

/-- Only what is read from the stored argument, the relation and the negation matter for matching. -/
theorem evalLayers_congr {m m' : Mat V} {objs objs' : List (Obj V)} (hr : m.rel = m'.rel)
    (hn : m.shell.neg = m'.shell.neg) (ha : m.arg.read objs = m'.arg.read objs') :
    ∀ (ls : List (Bool × Shell)), m.evalLayers elems objs ls = m'.evalLayers elems objs' ls
  | [] => by
    funext t
    simp only [Mat.evalLayers, Mat.evalBase, hr, hn, ha]
  | (each, sh) :: ls => by
    funext t
    simp only [Mat.evalLayers, evalLayers_congr hr hn ha ls]

theorem describeLayers_congr {m m' : Mat V} {objs objs' : List (Obj V)} (hs : m.shown = m'.shown)
    (hn : m.shell = m'.shell) (ha : m.arg.read objs = m'.arg.read objs') :
    ∀ (ls : List (Bool × Shell)), m.describeLayers objs print ls = m'.describeLayers objs' print ls
  | [] => by simp only [Mat.describeLayers, Mat.describeBase, hs, hn, ha]
  | (each, sh) :: ls => by simp only [Mat.describeLayers, describeLayers_congr hs hn ha ls]

theorem eval_congr {m : Mat V} {objs objs' : List (Obj V)} (ha : m.arg.read objs = m.arg.read objs') (t : V) :
    m.eval elems objs t = m.eval elems objs' t := by
  simp only [Mat.eval, evalLayers_congr rfl rfl ha]

theorem describe_congr {m : Mat V} {objs objs' : List (Obj V)} (ha : m.arg.read objs = m.arg.read objs') :
    m.describe objs print = m.describe objs' print := by
  simp only [Mat.describe, describeLayers_congr rfl rfl ha]

theorem invert_arg (m : Mat V) : m.invert.arg = m.arg := by
  unfold Mat.invert; split <;> rfl

/-- A matcher has a meaning. -/
structure Means (elems : V → List V) (print : V → String) (objs : List (Obj V)) (m : Mat V) (d : Meaning V) : Prop where
  accepts : ∀ t, m.eval elems objs t = .ok (d.accepts t)
  text : m.describe objs print = .ok d.text
  opposite : m.invert.describe objs print = .ok d.opposite

theorem Means.frame {objs objs' : List (Obj V)} {m : Mat V} {d : Meaning V} (h : Means elems print objs m d)
    (ha : m.arg.read objs' = m.arg.read objs) : Means elems print objs' m d where
  accepts t := by rw [eval_congr ha]; exact h.accepts t
  text := by rw [describe_congr ha]; exact h.text
  opposite := by
    rw [describe_congr (m := m.invert) (objs' := objs) (by rw [invert_arg]; exact ha)]
    exact h.opposite

theorem invert_invert (m : Mat V) : m.invert.invert = m := by
  obtain ⟨rel, shown, arg, ⟨neg, fmt, inv⟩, layers⟩ := m
  cases layers with
  | nil => simp [Mat.invert, Shell.invert]
  | cons l ls => obtain ⟨each, neg', fmt', inv'⟩ := l; simp [Mat.invert, Shell.invert]

theorem invert_eval (m : Mat V) (objs : List (Obj V)) (t : V) :
    m.invert.eval elems objs t = (m.eval elems objs t).map (! ·) := by
  obtain ⟨rel, shown, arg, ⟨neg, fmt, inv⟩, layers⟩ := m
  cases layers with
  | nil =>
    simp only [Mat.invert, Mat.eval, Mat.evalLayers, Mat.evalBase, Shell.invert]
    cases arg.read objs with
    | error e => rfl
    | ok v => simp [bind, Except.bind, pure, Except.pure, Except.map]
  | cons l ls =>
    obtain ⟨each, neg', fmt', inv'⟩ := l
    simp only [Mat.invert, Mat.eval, Mat.evalLayers, Shell.invert]
    rw [evalLayers_congr (m := ⟨rel, shown, arg, ⟨neg, fmt, inv⟩, (each, ⟨!neg', inv', fmt'⟩) :: ls⟩)
      (m' := ⟨rel, shown, arg, ⟨neg, fmt, inv⟩, (each, ⟨neg', fmt', inv'⟩) :: ls⟩) rfl rfl rfl]
    generalize Mat.evalLayers elems objs _ ls = g
    cases each
    · simp only [Bool.false_eq_true, if_false]
      generalize anyOf g (elems t) = r
      cases r <;> simp [bind, Except.bind, pure, Except.pure, Except.map]
    · simp only [if_true]
      generalize allOf g (elems t) = r
      cases r <;> simp [bind, Except.bind, pure, Except.pure, Except.map]

theorem Means.invert {objs : List (Obj V)} {m : Mat V} {d : Meaning V} (h : Means elems print objs m d) :
    Means elems print objs m.invert d.invert where
  accepts t := by rw [invert_eval, h.accepts t]; rfl
  text := h.opposite
  opposite := by rw [invert_invert]; exact h.text

theorem vformat_each (d : String) : vformat "each el in range: el {}" [d] = some ("each el in range: el " ++ d) := by
  simp [vformat, vformatChars, String.ext_iff]
theorem vformat_any (d : String) : vformat "any el in range: el {}" [d] = some ("any el in range: el " ++ d) := by
  simp [vformat, vformatChars, String.ext_iff]
theorem vformat_notEach (d : String) :
    vformat "not each el in range: el {}" [d] = some ("not each el in range: el " ++ d) := by
  simp [vformat, vformatChars, String.ext_iff]
theorem vformat_none (d : String) : vformat "none el in range: el {}" [d] = some ("none el in range: el " ++ d) := by
  simp [vformat, vformatChars, String.ext_iff]

theorem Means.nest {objs : List (Obj V)} {m : Mat V} {d : Meaning V} (h : Means elems print objs m d) (each : Bool) :
    Means elems print objs (m.nest each) (d.nest elems each) where
  accepts t := by
    have he : ∀ t, (m.nest each).evalLayers elems objs m.layers t = .ok (d.accepts t) := by
      intro t
      rw [evalLayers_congr (m := m.nest each) (m' := m) rfl rfl rfl]
      exact h.accepts t
    cases each
    · simp only [Mat.eval, Mat.evalLayers, Mat.nest, Meaning.nest, Bool.false_eq_true, if_false] at *
      rw [anyOf_ok he]
      simp [bind, Except.bind, pure, Except.pure]
    · simp only [Mat.eval, Mat.evalLayers, Mat.nest, Meaning.nest, if_true] at *
      rw [allOf_ok he]
      simp [bind, Except.bind, pure, Except.pure]
  text := by
    have he : (m.nest each).describeLayers objs print m.layers = .ok d.text := by
      rw [describeLayers_congr (m := m.nest each) (m' := m) rfl rfl rfl]
      exact h.text
    cases each
    all_goals
      simp only [Mat.describe, Mat.nest, Mat.describeLayers] at *
      rw [he]
      cases ht : d.text with
      | none => simp [Meaning.nest, ht, bind, Except.bind, pure, Except.pure]
      | some x => simp [Meaning.nest, ht, bind, Except.bind, Shell.describe, vformat_each, vformat_any]
  opposite := by
    have he : (m.nest each).invert.describeLayers objs print m.layers = .ok d.text := by
      rw [describeLayers_congr (m := (m.nest each).invert) (m' := m) rfl rfl rfl]
      exact h.text
    cases each
    all_goals
      simp only [Mat.describe, Mat.nest, Mat.describeLayers, Mat.invert, Shell.invert] at *
      rw [he]
      cases ht : d.text with
      | none => simp [Meaning.nest, ht, bind, Except.bind, pure, Except.pure]
      | some x => simp [Meaning.nest, ht, bind, Except.bind, Shell.describe, vformat_notEach, vformat_none]

theorem Means.make {objs : List (Obj V)} {f : Factory V} {a : Stored V} {v : V} (h : a.read objs = .ok v) :
    Means elems print objs (f.mat a) (f.meaning print v) where
  accepts t := by
    simp [Factory.mat, Mat.eval, Mat.evalLayers, Mat.evalBase, h, Factory.meaning, bind, Except.bind, pure, Except.pure]
  text := by
    cases hs : f.shown <;>
    simp [Factory.mat, Mat.describe, Mat.describeLayers, Mat.describeBase, h, hs, Factory.meaning, bind, Except.bind,
      Shell.describe]
  opposite := by
    cases hs : f.shown <;>
    simp [Factory.mat, Mat.describe, Mat.describeLayers, Mat.describeBase, h, hs, Factory.meaning, bind, Except.bind,
      Shell.describe, Mat.invert, Shell.invert]

/-! ## The invariant -/

/-- An object exists. -/
def Exists (objs : List (Obj V)) (o : Nat) : Prop := ∃ k c, objs[o]? = some ⟨k, c⟩ ∧ (match c with | .gone => False | _ => True)

theorem object_ok {objs : List (Obj V)} {o : Nat} {x : Obj V} (h : object objs o = .ok x) :
    objs[o]? = some x ∧ (match x.cell with | .gone => False | _ => True) := by
  unfold object at h
  split at h
  · cases h
  · cases h
    rename_i y hy hn
    refine ⟨hn, ?_⟩
    obtain ⟨k, c⟩ := x
    cases c with
    | gone => exact (hy k rfl).elim
    | _ => trivial
  · cases h

/-- What is true while the operations `rest` are still to come. -/
structure Inv (elems : V → List V) (print : V → String) (rest : List (Op V)) (s : State V) (i : Ideal V) : Prop where
  lenVals : i.vals.length = s.objs.length
  vals : ∀ (o : Nat) (v : V), i.vals[o]? = some (some v) → ∃ k, s.objs[o]? = some ⟨k, .holds v⟩
  lenMeans : i.means.length = s.mats.length
  means : ∀ (m : Nat) (d : Meaning V), i.means[m]? = some (some d) →
    ∃ x, s.mats[m]? = some (some x) ∧ Means elems print s.objs x d
  refs : ∀ (m : Nat) (x : Mat V) (o : Nat), s.mats[m]? = some (some x) → x.arg = .ref o →
    Exists s.objs o ∧ ∀ op ∈ rest, ¬ op.touches o

theorem Inv.init (ops : List (Op V)) : Inv elems print ops State.init Ideal.init where
  lenVals := rfl
  vals := by simp [Ideal.init]
  lenMeans := rfl
  means := by simp [Ideal.init]
  refs := by simp [State.init]

/-- What is read does not depend on other objects. -/
theorem read_frame {objs objs' : List (Obj V)} {a : Stored V} (h : ∀ o, a = .ref o → objs'[o]? = objs[o]?) :
    a.read objs' = a.read objs := by
  cases a with
  | own k v => cases v <;> rfl
  | ref o => simp only [Stored.read, h o rfl]

/-- Changing objects nobody refers to. -/
theorem Inv.objects {op : Op V} {ops : List (Op V)} {s : State V} {i : Ideal V} {objs' : List (Obj V)}
    {vals' : List (Option V)} (h : Inv elems print (op :: ops) s i)
    (hl : vals'.length = objs'.length)
    (hv : ∀ (o : Nat) (v : V), vals'[o]? = some (some v) → ∃ k, objs'[o]? = some ⟨k, .holds v⟩)
    (hf : ∀ o, Exists s.objs o → ¬ op.touches o → objs'[o]? = s.objs[o]?) :
    Inv elems print ops ⟨objs', s.mats⟩ ⟨vals', i.means⟩ where
  lenVals := hl
  vals := hv
  lenMeans := h.lenMeans
  means m d hd := by
    obtain ⟨x, hx, hm⟩ := h.means m d hd
    refine ⟨x, hx, hm.frame (read_frame fun o ho => ?_)⟩
    obtain ⟨h1, h2⟩ := h.refs m x o hx ho
    exact hf o h1 (h2 op (by simp))
  refs m x o hx ho := by
    obtain ⟨h1, h2⟩ := h.refs m x o hx ho
    refine ⟨?_, fun p hp => h2 p (by simp [hp])⟩
    unfold Exists
    rw [hf o h1 (h2 op (by simp))]
    exact h1

theorem Inv.weaken {op : Op V} {ops : List (Op V)} {s : State V} {i : Ideal V} (h : Inv elems print (op :: ops) s i) :
    Inv elems print ops s i where
  lenVals := h.lenVals
  vals := h.vals
  lenMeans := h.lenMeans
  means := h.means
  refs m x o hx ho := ⟨(h.refs m x o hx ho).1, fun p hp => (h.refs m x o hx ho).2 p (by simp [hp])⟩

/-- A new matcher. -/
theorem Inv.push {ops : List (Op V)} {s : State V} {i : Ideal V} (h : Inv elems print ops s i) {x : Mat V}
    {d : Option (Meaning V)} (hd : ∀ e, d = some e → Means elems print s.objs x e)
    (hr : ∀ o, x.arg = .ref o → Exists s.objs o ∧ ∀ op ∈ ops, ¬ op.touches o) :
    Inv elems print ops ⟨s.objs, s.mats ++ [some x]⟩ ⟨i.vals, i.means ++ [d]⟩ where
  lenVals := h.lenVals
  vals := h.vals
  lenMeans := by simp [h.lenMeans]
  means m e he := by
    have hl := h.lenMeans
    have hm := h.means m e
    grind
  refs m y o hy ho := by
    have hl := h.lenMeans
    have hm := h.refs m y o
    grind

theorem left_arg_ref {m : Mat V} {o : Nat} (h : m.left.arg = .ref o) : m.arg = .ref o := by
  obtain ⟨rel, shown, arg, sh, ls⟩ := m
  simp only [Mat.left] at h
  cases arg with
  | own k v => simp only [Stored.left] at h; split at h <;> cases h
  | ref o' => exact h

/-- A matcher is given up: nothing is expected of it any more. -/
theorem Inv.giveUp {ops : List (Op V)} {s : State V} {i : Ideal V} (h : Inv elems print ops s i) (m : Nat)
    (y : Option (Mat V)) (hy : ∀ z, y = some z → ∃ x, s.mats[m]? = some (some x) ∧ ∀ o, z.arg = .ref o → x.arg = .ref o) :
    Inv elems print ops ⟨s.objs, s.mats.set m y⟩ ⟨i.vals, i.means.set m none⟩ where
  lenVals := h.lenVals
  vals := h.vals
  lenMeans := by simp [h.lenMeans]
  means n e he := by
    have hl := h.lenMeans
    have hm := h.means n e
    grind
  refs n z o hz ho := by
    have hm := h.refs n z o
    by_cases hn : m = n
    · subst hn
      have : m < s.mats.length := by
        apply Classical.byContradiction
        intro hc
        rw [List.getElem?_eq_none (by simp; omega)] at hz
        cases hz
      rw [List.getElem?_set_self this] at hz
      obtain ⟨x, hx, hxo⟩ := hy z (by simpa using hz)
      exact h.refs m x o hx (hxo o ho)
    · rw [List.getElem?_set_ne hn] at hz
      exact hm hz ho

theorem mat_ok {s : State V} {m : Nat} {x : Mat V} (h : s.mat m = .ok x) : s.mats[m]? = some (some x) := by
  unfold State.mat at h
  split at h
  · cases h; assumption
  · cases h

theorem Inv.derive {ops : List (Op V)} {s s' : State V} {i : Ideal V} {a : Ans V} {m : Nat} {how : Pass} {c : Bool}
    {g : Mat V → Mat V} {g' : Meaning V → Meaning V} (h : Inv elems print ops s i)
    (hs : s.derive m c g = .ok (s', a)) (hc : c = true ↔ how = .moved)
    (hg : ∀ x d, Means elems print s.objs x d → Means elems print s.objs (g x) (g' d)) (ha : ∀ x, (g x).arg = x.arg) :
    Inv elems print ops s' (i.derive how m g') := by
  unfold State.derive at hs
  cases hm : s.mat m with
  | error e => rw [hm] at hs; cases hs
  | ok x =>
    have hx := mat_ok hm
    rw [hm] at hs
    cases hs
    unfold Ideal.derive
    by_cases hcc : c = true
    · rw [if_pos hcc, if_pos (hc.mp hcc)]
      refine (h.giveUp m (some x.left) ?_).push ?_ ?_
      · intro z hz
        cases hz
        exact ⟨x, hx, fun o ho => left_arg_ref ho⟩
      · intro e he
        obtain ⟨d, hd, rfl⟩ := Option.map_eq_some_iff.mp he
        obtain ⟨y, hy, hmy⟩ := h.means m d (by simpa [Option.join_eq_some_iff] using hd)
        rw [hx] at hy; cases hy
        exact hg x d hmy
      · intro o ho
        rw [ha] at ho
        exact h.refs m x o hx ho
    · rw [if_neg hcc, if_neg (fun hh => hcc (hc.mpr hh))]
      refine h.push ?_ ?_
      · intro e he
        obtain ⟨d, hd, rfl⟩ := Option.map_eq_some_iff.mp he
        obtain ⟨y, hy, hmy⟩ := h.means m d (by simpa [Option.join_eq_some_iff] using hd)
        rw [hx] at hy; cases hy
        exact hg x d hmy
      · intro o ho
        rw [ha] at ho
        exact h.refs m x o hx ho

theorem exists_lt {objs : List (Obj V)} {o : Nat} (h : Exists objs o) : o < objs.length := by
  obtain ⟨k, c, h, -⟩ := h
  exact (List.getElem?_eq_some_iff.mp h).1

/-- An argument is stored. -/
theorem Inv.make {ops : List (Op V)} {s : State V} {i : Ideal V} {f : Factory V} {e : Expr V} {a : Stored V}
    {objs : List (Obj V)} (h : Inv elems print (.make f e :: ops) s i) (hs : store f.all s.objs e = .ok (a, objs))
    (ht : ∀ o, (Op.make f e).refers o → ∀ op ∈ ops, ¬ op.touches o) :
    Inv elems print ops ⟨objs, s.mats ++ [some (f.mat a)]⟩ (i.next elems print (.make f e)) := by
  cases e with
  | named k o =>
    simp only [store] at hs
    cases hx : object s.objs o with
    | error x => rw [hx] at hs; cases hs
    | ok x =>
      obtain ⟨h1, h2⟩ := object_ok hx
      rw [hx] at hs
      simp only [bind, Except.bind] at hs
      split at hs
      · cases hs
      · rename_i hk
        split at hs
        · rename_i hr
          cases hs
          refine h.weaken.push ?_ ?_
          · intro d hd
            obtain ⟨v, hv, rfl⟩ := Option.map_eq_some_iff.mp hd
            obtain ⟨k', hk'⟩ := h.vals o v (by simpa [Ideal.value, Option.join_eq_some_iff] using hv)
            exact Means.make (by simp [Stored.read, hk'])
          · intro o' ho'
            cases ho'
            refine ⟨⟨x.kind, x.cell, h1, h2⟩, ht o ⟨rfl, ?_⟩⟩
            simpa using hr
        · cases hc : x.cell.value with
          | error y => rw [hc] at hs; cases hs
          | ok w =>
            rw [hc] at hs
            cases hs
            refine h.weaken.push ?_ ?_
            · intro d hd
              obtain ⟨v, hv, rfl⟩ := Option.map_eq_some_iff.mp hd
              obtain ⟨k', hk'⟩ := h.vals o v (by simpa [Ideal.value, Option.join_eq_some_iff] using hv)
              rw [h1] at hk'
              cases hk'
              cases hc
              exact Means.make (by simp [Stored.read])
            · intro o' ho'; cases ho'
  | moved k o =>
    simp only [store] at hs
    cases hx : object s.objs o with
    | error x => rw [hx] at hs; cases hs
    | ok x =>
      obtain ⟨h1, h2⟩ := object_ok hx
      have hlt := (List.getElem?_eq_some_iff.mp h1).1
      rw [hx] at hs
      simp only [bind, Except.bind] at hs
      split at hs
      · cases hs
      · rename_i hk
        split at hs
        · rename_i hr
          split at hs
          · cases hs
          · cases hs
            have h' := h.objects (objs' := s.objs) (vals' := i.vals.set o none) (by simp [h.lenVals])
              (fun o' v hv => h.vals o' v (by grind)) (fun _ _ _ => rfl)
            refine h'.push ?_ ?_
            · intro d hd
              obtain ⟨v, hv, rfl⟩ := Option.map_eq_some_iff.mp hd
              obtain ⟨k', hk'⟩ := h.vals o v (by simpa [Ideal.value, Option.join_eq_some_iff] using hv)
              exact Means.make (by simp [Stored.read, hk'])
            · intro o' ho'
              cases ho'
              exact ⟨⟨x.kind, x.cell, h1, h2⟩, ht o ⟨rfl, hr⟩⟩
        · cases hc : x.cell.value with
          | error y => rw [hc] at hs; cases hs
          | ok w =>
            rw [hc] at hs
            cases hs
            have h' := h.objects (objs' := s.objs.set o ⟨k, x.cell.left k⟩) (vals' := i.vals.set o none)
              (by simp [h.lenVals]) (fun o' v hv => by have := h.vals o' v; grind)
              (fun o' _ hn => by rw [List.getElem?_set_ne (fun hh => hn hh)])
            refine h'.push ?_ ?_
            · intro d hd
              obtain ⟨v, hv, rfl⟩ := Option.map_eq_some_iff.mp hd
              obtain ⟨k', hk'⟩ := h.vals o v (by simpa [Ideal.value, Option.join_eq_some_iff] using hv)
              rw [h1] at hk'
              cases hk'
              cases hc
              exact Means.make (by simp [Stored.read])
            · intro o' ho'; cases ho'
  | temp k v =>
    simp only [store] at hs
    split at hs
    · cases hs
    · cases hs
      refine h.weaken.push ?_ ?_
      · intro d hd
        cases hd
        exact Means.make rfl
      · intro o' ho'; cases ho'
  | view o =>
    simp only [store] at hs
    cases hx : object s.objs o with
    | error x => rw [hx] at hs; cases hs
    | ok x =>
      obtain ⟨h1, h2⟩ := object_ok hx
      rw [hx] at hs
      cases hs
      refine h.weaken.push ?_ ?_
      · intro d hd
        obtain ⟨v, hv, rfl⟩ := Option.map_eq_some_iff.mp hd
        obtain ⟨k', hk'⟩ := h.vals o v (by simpa [Ideal.value, Option.join_eq_some_iff] using hv)
        exact Means.make (by simp [Stored.read, hk'])
      · intro o' ho'
        cases ho'
        exact ⟨⟨x.kind, x.cell, h1, h2⟩, ht o rfl⟩

theorem Inv.client {ops : List (Op V)} {s : State V} {i : Ideal V} {c : ClientOp V} {objs : List (Obj V)}
    (h : Inv elems print (.client c :: ops) s i) (hs : clientStep s.objs c = .ok objs) :
    Inv elems print ops ⟨objs, s.mats⟩ (i.next elems print (.client c)) := by
  have hl := h.lenVals
  cases c with
  | object k v =>
    cases hs
    refine h.objects (by simp [hl]) (fun o w hw => ?_) (fun o ho _ => ?_)
    · by_cases hlt : o < i.vals.length
      · rw [List.getElem?_append_left hlt] at hw
        obtain ⟨k', hk'⟩ := h.vals o w hw
        exact ⟨k', by rw [List.getElem?_append_left (hl ▸ hlt)]; exact hk'⟩
      · rw [List.getElem?_append_right (by omega)] at hw
        rw [List.getElem?_append_right (by omega), ← hl]
        cases hd : o - i.vals.length with
        | zero => rw [hd] at hw; cases hw; exact ⟨k, rfl⟩
        | succ n => rw [hd] at hw; cases hw
    · rw [List.getElem?_append_left (exists_lt ho)]
  | assign o v =>
    simp only [clientStep] at hs
    cases hx : object s.objs o with
    | error x => rw [hx] at hs; cases hs
    | ok x =>
      rw [hx] at hs
      cases hs
      refine h.objects (by simp [hl]) (fun o' w hw => ?_) (fun o' ho hn => ?_)
      · by_cases hoo : o = o'
        · subst hoo
          have hlt := (List.getElem?_eq_some_iff.mp (object_ok hx).1).1
          rw [List.getElem?_set_self (hl ▸ hlt)] at hw
          cases hw
          exact ⟨x.kind, List.getElem?_set_self hlt⟩
        · rw [List.getElem?_set_ne hoo] at hw
          obtain ⟨k', hk'⟩ := h.vals o' w hw
          exact ⟨k', by rw [List.getElem?_set_ne hoo]; exact hk'⟩
      · rw [List.getElem?_set_ne (fun hh => hn hh)]
  | take o =>
    simp only [clientStep] at hs
    cases hx : object s.objs o with
    | error x => rw [hx] at hs; cases hs
    | ok x =>
      rw [hx] at hs
      simp only [bind, Except.bind] at hs
      split at hs
      · cases hs
      · cases hs
        refine h.objects (by simp [hl]) (fun o' w hw => ?_) (fun o' ho hn => ?_)
        · have := h.vals o' w
          grind
        · rw [List.getElem?_set_ne (fun hh => hn hh)]
  | destroy o =>
    simp only [clientStep] at hs
    cases hx : object s.objs o with
    | error x => rw [hx] at hs; cases hs
    | ok x =>
      rw [hx] at hs
      cases hs
      refine h.objects (by simp [hl]) (fun o' w hw => ?_) (fun o' ho hn => ?_)
      · have := h.vals o' w
        grind
      · rw [List.getElem?_set_ne (fun hh => hn hh)]

theorem answer_ok {S : Type} {s s' : S} {r : Except Fault (Ans V)} {a : Ans V} (h : answer s r = .ok (s', a)) :
    s' = s ∧ (∀ b, r = .ok b → a = b) := by
  unfold answer at h
  split at h <;> grind

theorem answer_same {S S' : Type} {s s' : S} {q q' : S'} {r : Except Fault (Ans V)} {a a' : Ans V}
    (h : answer s r = .ok (s', a)) (h' : answer q r = .ok (q', a')) : a = a' := by
  unfold answer at h h'
  split at h <;> grind

theorem answer_unspecified {S : Type} {s s' : S} {y : Fault} {a : Ans V} (h : answer s (.error y) = .ok (s', a)) :
    a = .unspecified := by
  unfold answer at h
  split at h <;> grind

/-- A matcher that was moved from has no description. -/
theorem left_describe (x : Mat V) (objs : List (Obj V)) : ∀ (ls : List (Bool × Shell)) (y : Option String),
    x.left.describeLayers objs print ls ≠ .ok y
  | [], y, hy => by
    simp only [Mat.describeLayers, Mat.describeBase] at hy
    split at hy
    · cases hr : x.left.arg.read objs with
      | error z => rw [hr] at hy; cases hy
      | ok v => rw [hr] at hy; cases hy
    · cases hy
  | (_, sh) :: ls, y, hy => by
    simp only [Mat.describeLayers] at hy
    cases hr : x.left.describeLayers objs print ls with
    | error z => rw [hr] at hy; cases hy
    | ok v => exact left_describe x objs ls v hr

/-- One operation. -/
theorem Inv.step {op : Op V} {ops : List (Op V)} {s s' : State V} {i : Ideal V} {a : Ans V}
    (h : Inv elems print (op :: ops) s i) (hs : s.step elems print op = .ok (s', a)) (hn : ¬ op.nestsNamed)
    (ht : ∀ o, op.refers o → ∀ p ∈ ops, ¬ p.touches o) :
    Inv elems print ops s' (i.next elems print op) ∧ ∀ b, i.answer op = some b → a = b := by
  cases op with
  | client c =>
    simp only [State.step] at hs
    cases hc : clientStep s.objs c with
    | error x => rw [hc] at hs; cases hs
    | ok objs => rw [hc] at hs; cases hs; exact ⟨h.client hc, fun b hb => by cases hb⟩
  | make f e =>
    simp only [State.step] at hs
    cases hc : store f.all s.objs e with
    | error x => rw [hc] at hs; cases hs
    | ok r => rw [hc] at hs; cases hs; exact ⟨h.make hc ht, fun b hb => by cases hb⟩
  | nest each how m =>
    refine ⟨?_, fun b hb => by cases hb⟩
    cases how with
    | named => exact (hn trivial).elim
    | constant => cases hs
    | moved => exact h.weaken.derive hs (by simp) (fun x d hx => hx.nest each) (fun _ => rfl)
  | invert how m =>
    exact ⟨h.weaken.derive hs (by simp) (fun x d hx => hx.invert) invert_arg, fun b hb => by cases hb⟩
  | keep how m =>
    exact ⟨h.weaken.derive hs (by simp) (fun x d hx => hx) (fun _ => rfl), fun b hb => by cases hb⟩
  | drop m =>
    simp only [State.step] at hs
    cases hc : s.mat m with
    | error x => rw [hc] at hs; cases hs
    | ok x => rw [hc] at hs; cases hs; exact ⟨h.weaken.giveUp m none (by simp), fun b hb => by cases hb⟩
  | test m t =>
    simp only [State.step] at hs
    cases hc : s.mat m with
    | error x => rw [hc] at hs; cases hs
    | ok x =>
      rw [hc] at hs
      obtain ⟨h1, h2⟩ := answer_ok hs
      subst h1
      refine ⟨h.weaken, fun b hb => ?_⟩
      obtain ⟨d, hd, rfl⟩ := Option.map_eq_some_iff.mp hb
      obtain ⟨y, hy, hmy⟩ := h.means m d (by simpa [Option.join_eq_some_iff] using hd)
      rw [mat_ok hc] at hy
      cases hy
      exact h2 _ (by rw [hmy.accepts t]; rfl)
  | describe m =>
    simp only [State.step] at hs
    cases hc : s.mat m with
    | error x => rw [hc] at hs; cases hs
    | ok x =>
      rw [hc] at hs
      obtain ⟨h1, h2⟩ := answer_ok hs
      subst h1
      refine ⟨h.weaken, fun b hb => ?_⟩
      obtain ⟨d, hd, rfl⟩ := Option.map_eq_some_iff.mp hb
      obtain ⟨y, hy, hmy⟩ := h.means m d (by simpa [Option.join_eq_some_iff] using hd)
      rw [mat_ok hc] at hy
      cases hy
      exact h2 _ (by rw [hmy.text]; rfl)

theorem LeftAlone.head {op : Op V} {ops : List (Op V)} (h : LeftAlone (op :: ops)) (o : Nat) (hr : op.refers o) :
    ∀ p ∈ ops, ¬ p.touches o := by
  intro p hp
  obtain ⟨k, hk⟩ := List.getElem?_of_mem hp
  exact h 0 (k + 1) o op p rfl (by simpa using hk) (by omega) hr

theorem LeftAlone.tail {op : Op V} {ops : List (Op V)} (h : LeftAlone (op :: ops)) : LeftAlone ops :=
  fun n k o a b ha hb hn => h (n + 1) (k + 1) o a b (by simpa using ha) (by simpa using hb) (by omega)

/-- A whole history. -/
theorem Inv.run {ops : List (Op V)} {s s' : State V} {i : Ideal V} {as : List (Ans V)}
    (h : Inv elems print ops s i) (hs : run elems print s ops = .ok (s', as)) (hn : ∀ op ∈ ops, ¬ op.nestsNamed)
    (ht : LeftAlone ops) : AsExpected (expected elems print i ops) as := by
  induction ops generalizing s i as with
  | nil => intro n a ha; simp [expected] at ha
  | cons op ops ih =>
    simp only [Capture.run] at hs
    cases hc : s.step elems print op with
    | error x => rw [hc] at hs; cases hs
    | ok r =>
      obtain ⟨s1, a⟩ := r
      rw [hc] at hs
      simp only [bind, Except.bind] at hs
      cases hr : Capture.run elems print s1 ops with
      | error x => rw [hr] at hs; cases hs
      | ok r =>
        rw [hr] at hs
        cases hs
        obtain ⟨h1, h2⟩ := h.step hc (hn op (by simp)) ht.head
        have h3 := ih h1 hr (fun p hp => hn p (by simp [hp])) ht.tail
        intro n b hb
        cases n with
        | zero => simp only [expected, List.getElem?_cons_zero, Option.some.injEq] at hb ⊢; exact h2 b hb
        | succ n => simp only [expected, List.getElem?_cons_succ] at hb ⊢; exact h3 n b hb

/-! ## Nothing dangles -/

theorem allOf_error {f : V → Except Fault Bool} {l : List V} {x : Fault} (h : allOf f l = .error x) :
    ∃ t, f t = .error x := by
  induction l with
  | nil => cases h
  | cons a l ih =>
    simp only [allOf, bind, Except.bind] at h
    cases hf : f a with
    | error y => rw [hf] at h; cases h; exact ⟨a, hf⟩
    | ok b => cases b <;> simp only [hf, Bool.false_eq_true, if_true, if_false] at h <;> first | cases h | exact ih h

theorem anyOf_error {f : V → Except Fault Bool} {l : List V} {x : Fault} (h : anyOf f l = .error x) :
    ∃ t, f t = .error x := by
  induction l with
  | nil => cases h
  | cons a l ih =>
    simp only [anyOf, bind, Except.bind] at h
    cases hf : f a with
    | error y => rw [hf] at h; cases h; exact ⟨a, hf⟩
    | ok b => cases b <;> simp only [hf, Bool.false_eq_true, if_true, if_false] at h <;> first | cases h | exact ih h

theorem evalLayers_error {m : Mat V} {objs : List (Obj V)} {x : Fault} :
    ∀ (ls : List (Bool × Shell)) (t : V), m.evalLayers elems objs ls t = .error x → m.arg.read objs = .error x
  | [], t, h => by
    simp only [Mat.evalLayers, Mat.evalBase] at h
    cases hr : m.arg.read objs with
    | error y => rw [hr] at h; cases h; rfl
    | ok v => rw [hr] at h; cases h
  | (each, sh) :: ls, t, h => by
    cases each
    · simp only [Mat.evalLayers, Bool.false_eq_true, if_false] at h
      cases hr : anyOf (m.evalLayers elems objs ls) (elems t) with
      | error y =>
        rw [hr] at h; cases h
        obtain ⟨t', ht'⟩ := anyOf_error hr
        exact evalLayers_error ls t' ht'
      | ok v => rw [hr] at h; cases h
    · simp only [Mat.evalLayers, if_true] at h
      cases hr : allOf (m.evalLayers elems objs ls) (elems t) with
      | error y =>
        rw [hr] at h; cases h
        obtain ⟨t', ht'⟩ := allOf_error hr
        exact evalLayers_error ls t' ht'
      | ok v => rw [hr] at h; cases h

theorem shell_error {sh : Shell} {l : List String} {x : Fault} (h : sh.describe l = .error x) : x = .unspecified := by
  unfold Shell.describe at h; split at h <;> cases h; rfl

theorem describeLayers_error {m : Mat V} {objs : List (Obj V)} {x : Fault} :
    ∀ (ls : List (Bool × Shell)), m.describeLayers objs print ls = .error x → m.arg.read objs = .error x ∨ x = .unspecified
  | [], h => by
    simp only [Mat.describeLayers, Mat.describeBase] at h
    split at h
    · cases hr : m.arg.read objs with
      | error y => rw [hr] at h; cases h; exact Or.inl rfl
      | ok v => rw [hr] at h; exact Or.inr (shell_error h)
    · exact Or.inr (shell_error h)
  | (_, sh) :: ls, h => by
    simp only [Mat.describeLayers] at h
    cases hr : m.describeLayers objs print ls with
    | error y => rw [hr] at h; cases h; exact describeLayers_error ls hr
    | ok d =>
      rw [hr] at h
      cases d with
      | none => cases h
      | some d => exact Or.inr (shell_error h)

theorem object_error {objs : List (Obj V)} {o : Nat} {x : Fault} (h : object objs o = .error x) : x = .client := by
  unfold object at h; split at h <;> cases h <;> rfl

theorem value_error {c : Cell V} {x : Fault} (h : c.value = .error x) : x = .client := by
  cases c <;> cases h; rfl

theorem store_error {all : Bool} {objs : List (Obj V)} {e : Expr V} {x : Fault} (h : store all objs e = .error x) :
    x ≠ .dangling ∧ x ≠ .unspecified := by
  cases e with
  | named k o =>
    simp only [store, bind, Except.bind] at h
    cases hx : object objs o with
    | error y => rw [hx] at h; cases h; simp [object_error hx]
    | ok y =>
      rw [hx] at h
      cases hv : y.cell.value with
      | error z => have := value_error hv; subst this; simp only [hv] at h; grind
      | ok z => simp only [hv] at h; grind
  | moved k o =>
    simp only [store, bind, Except.bind] at h
    cases hx : object objs o with
    | error y => rw [hx] at h; cases h; simp [object_error hx]
    | ok y =>
      rw [hx] at h
      cases hv : y.cell.value with
      | error z => have := value_error hv; subst this; simp only [hv] at h; grind
      | ok z => simp only [hv] at h; grind
  | temp k v => simp only [store] at h; grind
  | view o =>
    simp only [store, bind, Except.bind] at h
    cases hx : object objs o with
    | error y => rw [hx] at h; cases h; simp [object_error hx]
    | ok y => rw [hx] at h; cases h

theorem client_error {objs : List (Obj V)} {c : ClientOp V} {x : Fault} (h : clientStep objs c = .error x) :
    x ≠ .dangling ∧ x ≠ .unspecified := by
  cases c with
  | object k v => cases h
  | _ o =>
    simp only [clientStep, bind, Except.bind] at h
    cases hx : object objs o with
    | error y => rw [hx] at h; cases h; simp [object_error hx]
    | ok y => rw [hx] at h; simp only [pure, Except.pure] at h; first | cases h | grind

theorem derive_error {s : State V} {m : Nat} {c : Bool} {g : Mat V → Mat V} {x : Fault} (h : s.derive m c g = .error x) :
    x = .client := by
  unfold State.derive State.mat at h
  split at h <;> cases h; rfl

theorem mat_error {s : State V} {m : Nat} {x : Fault} (h : s.mat m = .error x) : x = .client := by
  unfold State.mat at h; split at h <;> cases h; rfl

theorem answer_error {S : Type} {s : S} {r : Except Fault (Ans V)} {x : Fault} (h : answer s r = .error x) :
    r = .error x := by
  unfold answer at h; split at h <;> grind

theorem map_error {A B : Type} {f : A → B} {r : Except Fault A} {x : Fault} (h : r.map f = .error x) : r = .error x := by
  cases r <;> cases h; rfl

theorem Inv.read {ops : List (Op V)} {s : State V} {i : Ideal V} {m : Nat} {x : Mat V} (h : Inv elems print ops s i)
    (hm : s.mat m = .ok x) : x.arg.read s.objs ≠ .error .dangling := by
  intro hd
  cases ha : x.arg with
  | own k v => rw [ha] at hd; cases v <;> cases hd
  | ref o =>
    obtain ⟨⟨k, c, h1, h2⟩, -⟩ := h.refs m x o (mat_ok hm) ha
    rw [ha] at hd
    simp only [Stored.read, h1] at hd
    cases c with
    | gone => exact h2
    | _ => cases hd

theorem Inv.safe {op : Op V} {ops : List (Op V)} {s : State V} {i : Ideal V} (h : Inv elems print (op :: ops) s i) :
    s.step elems print op ≠ .error .dangling := by
  intro hs
  cases op with
  | client c =>
    simp only [State.step] at hs
    cases hc : clientStep s.objs c with
    | error x => rw [hc] at hs; cases hs; exact (client_error hc).1 rfl
    | ok objs => rw [hc] at hs; cases hs
  | make f e =>
    simp only [State.step] at hs
    cases hc : store f.all s.objs e with
    | error x => rw [hc] at hs; cases hs; exact (store_error hc).1 rfl
    | ok r => rw [hc] at hs; cases hs
  | nest each how m =>
    cases how <;> simp only [State.step] at hs
    · cases derive_error hs
    · cases hs
    · cases derive_error hs
  | invert how m => cases derive_error hs
  | keep how m => cases derive_error hs
  | drop m =>
    simp only [State.step] at hs
    cases hc : s.mat m with
    | error x => rw [hc] at hs; cases hs; cases mat_error hc
    | ok x => rw [hc] at hs; cases hs
  | test m t =>
    simp only [State.step] at hs
    cases hc : s.mat m with
    | error x => rw [hc] at hs; cases hs; cases mat_error hc
    | ok x =>
      rw [hc] at hs
      exact h.read hc (evalLayers_error _ _ (map_error (answer_error hs)))
  | describe m =>
    simp only [State.step] at hs
    cases hc : s.mat m with
    | error x => rw [hc] at hs; cases hs; cases mat_error hc
    | ok x =>
      rw [hc] at hs
      rcases describeLayers_error _ (map_error (answer_error hs)) with h' | h'
      · exact h.read hc h'
      · cases h'

/-- The same without the expectations: naming a matcher in `each_element` counts as giving it away. -/
theorem Inv.stepAny {op : Op V} {ops : List (Op V)} {s s' : State V} {i : Ideal V} {a : Ans V}
    (h : Inv elems print (op :: ops) s i) (hs : s.step elems print op = .ok (s', a))
    (ht : ∀ o, op.refers o → ∀ p ∈ ops, ¬ p.touches o) : ∃ i', Inv elems print ops s' i' := by
  by_cases hn : op.nestsNamed
  · cases op with
    | nest each how m =>
      cases how with
      | named => exact ⟨_, h.weaken.derive (how := .moved) hs (by simp) (fun x d hx => hx.nest each) (fun _ => rfl)⟩
      | constant => cases hn
      | moved => cases hn
    | _ => cases hn
  · exact ⟨_, (h.step hs hn ht).1⟩

theorem Inv.runSafe {ops : List (Op V)} {s : State V} {i : Ideal V} (h : Inv elems print ops s i) (ht : LeftAlone ops) :
    Capture.run elems print s ops ≠ .error .dangling := by
  induction ops generalizing s i with
  | nil => intro hh; cases hh
  | cons op ops ih =>
    intro hs
    simp only [Capture.run] at hs
    cases hc : s.step elems print op with
    | error x => rw [hc] at hs; cases hs; exact h.safe hc
    | ok r =>
      obtain ⟨s1, a⟩ := r
      rw [hc] at hs
      simp only [bind, Except.bind] at hs
      obtain ⟨i', hi'⟩ := h.stepAny hc ht.head
      cases hr : Capture.run elems print s1 ops with
      | error x => rw [hr] at hs; cases hs; exact ih hi' ht.tail hr
      | ok r => rw [hr] at hs; cases hs

/-! ## One matcher in a history -/

theorem run_append {s : State V} {ops ops' : List (Op V)} {r : State V × List (Ans V)}
    (h : run elems print s (ops ++ ops') = .ok r) :
    ∃ s' as as', run elems print s ops = .ok (s', as) ∧ run elems print s' ops' = .ok (r.1, as') ∧ r.2 = as ++ as' := by
  induction ops generalizing s r with
  | nil => exact ⟨s, [], r.2, rfl, h, rfl⟩
  | cons op ops ih =>
    simp only [List.cons_append, run, bind, Except.bind] at h
    cases hc : s.step elems print op with
    | error x => rw [hc] at h; cases h
    | ok q =>
      rw [hc] at h
      simp only at h
      cases hr : run elems print q.1 (ops ++ ops') with
      | error x => rw [hr] at h; cases h
      | ok r' =>
        rw [hr] at h
        cases h
        obtain ⟨s', as, as', h1, h2, h3⟩ := ih hr
        exact ⟨s', q.2 :: as, as', by simp [run, bind, Except.bind, hc, h1, pure, Except.pure], h2, by simp [h3]⟩

theorem run_cons {s : State V} {op : Op V} {ops : List (Op V)} {r : State V × List (Ans V)}
    (h : run elems print s (op :: ops) = .ok r) :
    ∃ s' a as, s.step elems print op = .ok (s', a) ∧ run elems print s' ops = .ok (r.1, as) ∧ r.2 = a :: as := by
  simp only [run, bind, Except.bind] at h
  cases hc : s.step elems print op with
  | error x => rw [hc] at h; cases h
  | ok q =>
    rw [hc] at h
    simp only at h
    cases hr : run elems print q.1 ops with
    | error x => rw [hr] at h; cases h
    | ok r' => rw [hr] at h; cases h; exact ⟨q.1, q.2, r'.2, rfl, hr, rfl⟩

/-- The operation makes a matcher. -/
theorem step_length {s s' : State V} {op : Op V} {a : Ans V} (h : s.step elems print op = .ok (s', a)) :
    s'.mats.length = s.mats.length + (if op.makes then 1 else 0) := by
  cases op with
  | client c =>
    simp only [State.step] at h
    cases hc : clientStep s.objs c with
    | error x => rw [hc] at h; cases h
    | ok objs => rw [hc] at h; cases h; rfl
  | make f e =>
    simp only [State.step] at h
    cases hc : store f.all s.objs e with
    | error x => rw [hc] at h; cases h
    | ok r => rw [hc] at h; cases h; simp [Op.makes]
  | nest each how m =>
    simp only [State.step, State.derive] at h
    cases how
    case constant => cases h
    all_goals
      simp only at h
      cases hm : s.mat m with
      | error x => rw [hm] at h; cases h
      | ok x => rw [hm] at h; cases h; simp [Op.makes]
  | invert how m =>
    simp only [State.step, State.derive] at h
    cases hm : s.mat m with
    | error x => rw [hm] at h; cases h
    | ok x => rw [hm] at h; cases h; cases how <;> simp [Op.makes]
  | keep how m =>
    simp only [State.step, State.derive] at h
    cases hm : s.mat m with
    | error x => rw [hm] at h; cases h
    | ok x => rw [hm] at h; cases h; cases how <;> simp [Op.makes]
  | drop m =>
    simp only [State.step] at h
    cases hc : s.mat m with
    | error x => rw [hc] at h; cases h
    | ok x => rw [hc] at h; cases h; simp [Op.makes]
  | test m t =>
    simp only [State.step] at h
    cases hc : s.mat m with
    | error x => rw [hc] at h; cases h
    | ok x => rw [hc] at h; rw [(answer_ok h).1]; rfl
  | describe m =>
    simp only [State.step] at h
    cases hc : s.mat m with
    | error x => rw [hc] at h; cases h
    | ok x => rw [hc] at h; rw [(answer_ok h).1]; rfl

theorem run_length {ops : List (Op V)} {s s' : State V} {as : List (Ans V)} (h : run elems print s ops = .ok (s', as)) :
    s'.mats.length = s.mats.length + made ops ∧ as.length = ops.length := by
  induction ops generalizing s as with
  | nil => cases h; simp [made]
  | cons op ops ih =>
    obtain ⟨s1, a, as1, h1, h2, h3⟩ := run_cons h
    obtain ⟨h4, h5⟩ := ih h2
    have := step_length h1
    simp only at h3
    subst h3
    refine ⟨?_, by simp [h5]⟩
    simp only [made, List.countP_cons] at *
    omega

/-- Matchers are only changed by being moved from or destroyed. -/
theorem step_mat {s s' : State V} {op : Op V} {a : Ans V} {n : Nat} (h : s.step elems print op = .ok (s', a))
    (hn : ¬ op.consumes n) (hl : n < s.mats.length) : s'.mats[n]? = s.mats[n]? := by
  cases op with
  | client c =>
    simp only [State.step] at h
    cases hc : clientStep s.objs c with
    | error x => rw [hc] at h; cases h
    | ok objs => rw [hc] at h; cases h; rfl
  | make f e =>
    simp only [State.step] at h
    cases hc : store f.all s.objs e with
    | error x => rw [hc] at h; cases h
    | ok r => rw [hc] at h; cases h; simp [List.getElem?_append_left hl]
  | nest each how m =>
    simp only [State.step, State.derive] at h
    cases how
    case constant => cases h
    all_goals
      simp only at h
      cases hm : s.mat m with
      | error x => rw [hm] at h; cases h
      | ok x =>
        rw [hm] at h
        cases h
        simp only [if_true]
        rw [List.getElem?_append_left (by simpa using hl), List.getElem?_set_ne (fun hh => hn hh)]
  | invert how m =>
    simp only [State.step, State.derive] at h
    cases hm : s.mat m with
    | error x => rw [hm] at h; cases h
    | ok x =>
      rw [hm] at h
      cases h
      cases how
      · simp [List.getElem?_append_left hl]
      · simp [List.getElem?_append_left hl]
      · simp only [decide_true, if_true]
        rw [List.getElem?_append_left (by simpa using hl), List.getElem?_set_ne (fun hh => hn hh)]
  | keep how m =>
    simp only [State.step, State.derive] at h
    cases hm : s.mat m with
    | error x => rw [hm] at h; cases h
    | ok x =>
      rw [hm] at h
      cases h
      cases how
      · simp [List.getElem?_append_left hl]
      · simp [List.getElem?_append_left hl]
      · simp only [decide_true, if_true]
        rw [List.getElem?_append_left (by simpa using hl), List.getElem?_set_ne (fun hh => hn hh)]
  | drop m =>
    simp only [State.step] at h
    cases hc : s.mat m with
    | error x => rw [hc] at h; cases h
    | ok x => rw [hc] at h; cases h; exact List.getElem?_set_ne (fun hh => hn hh)
  | test m t =>
    simp only [State.step] at h
    cases hc : s.mat m with
    | error x => rw [hc] at h; cases h
    | ok x => rw [hc] at h; rw [(answer_ok h).1]
  | describe m =>
    simp only [State.step] at h
    cases hc : s.mat m with
    | error x => rw [hc] at h; cases h
    | ok x => rw [hc] at h; rw [(answer_ok h).1]

theorem run_mat {ops : List (Op V)} {s s' : State V} {as : List (Ans V)} {n : Nat} (h : run elems print s ops = .ok (s', as))
    (hn : ∀ op ∈ ops, ¬ op.consumes n) (hl : n < s.mats.length) : s'.mats[n]? = s.mats[n]? := by
  induction ops generalizing s as with
  | nil => cases h; rfl
  | cons op ops ih =>
    obtain ⟨s1, a, as1, h1, h2, h3⟩ := run_cons h
    have h4 := step_length h1
    rw [ih h2 (fun p hp => hn p (by simp [hp])) (by omega), step_mat h1 (hn op (by simp)) hl]

/-- Moving from a matcher keeps what it refers to, and how it compares. -/
def Refers (rel : V → V → Bool) (o : Nat) (x : Mat V) : Prop :=
  x.rel = rel ∧ x.arg = .ref o ∧ x.shell.neg = false ∧ x.layers = []

theorem Refers.left {rel : V → V → Bool} {o : Nat} {x : Mat V} (h : Refers rel o x) : Refers rel o x.left := by
  obtain ⟨h1, h2, h3, h4⟩ := h
  exact ⟨h1, by simp [Mat.left, h2, Stored.left], h3, by simp [Mat.left, h4]⟩

theorem step_refers {s s' : State V} {op : Op V} {a : Ans V} {n o : Nat} {rel : V → V → Bool}
    (h : s.step elems print op = .ok (s', a)) (hl : n < s.mats.length)
    (hr : ∀ x, s.mats[n]? = some (some x) → Refers rel o x) : ∀ x, s'.mats[n]? = some (some x) → Refers rel o x := by
  by_cases hc : op.consumes n
  · intro y hy
    have derive : ∀ (m : Nat) (g : Mat V → Mat V), m = n → s.derive m true g = .ok (s', a) → Refers rel o y := by
      rintro m g rfl hd
      unfold State.derive at hd
      cases hm : s.mat m with
      | error x => rw [hm] at hd; cases hd
      | ok x =>
        rw [hm] at hd
        cases hd
        simp only [if_true] at hy
        rw [List.getElem?_append_left (by simpa using hl), List.getElem?_set_self hl] at hy
        cases hy
        exact (hr x (mat_ok hm)).left
    cases op with
    | nest each how m =>
      cases how
      · exact derive m _ hc h
      · cases h
      · exact derive m _ hc h
    | invert how m =>
      cases how
      · exact hc.elim
      · exact hc.elim
      · exact derive m _ hc h
    | keep how m =>
      cases how
      · exact hc.elim
      · exact hc.elim
      · exact derive m _ hc h
    | drop m =>
      simp only [Op.consumes] at hc
      subst hc
      simp only [State.step] at h
      cases hm : s.mat m with
      | error x => rw [hm] at h; cases h
      | ok x =>
        rw [hm] at h; cases h
        simp only at hy
        rw [List.getElem?_set_self hl] at hy
        cases hy
    | _ => exact hc.elim
  · intro y hy
    rw [step_mat h hc hl] at hy
    exact hr y hy

theorem run_refers {ops : List (Op V)} {s s' : State V} {as : List (Ans V)} {n o : Nat} {rel : V → V → Bool}
    (h : run elems print s ops = .ok (s', as)) (hl : n < s.mats.length)
    (hr : ∀ x, s.mats[n]? = some (some x) → Refers rel o x) : ∀ x, s'.mats[n]? = some (some x) → Refers rel o x := by
  induction ops generalizing s as with
  | nil => cases h; exact hr
  | cons op ops ih =>
    obtain ⟨s1, a, as1, h1, h2, h3⟩ := run_cons h
    have h4 := step_length h1
    exact ih h2 (by omega) (step_refers h1 hl hr)

theorem Refers.eval {rel : V → V → Bool} {o : Nat} {x : Mat V} (h : Refers rel o x) (objs : List (Obj V)) (t : V) :
    x.eval elems objs t = ((Stored.ref o).read objs).map (rel t) := by
  obtain ⟨h1, h2, h3, h4⟩ := h
  simp only [Mat.eval, h4, Mat.evalLayers, Mat.evalBase, h1, h2, h3, Bool.xor_false]
  cases (Stored.ref o).read objs <;> rfl

/-- What a factory stores that does not refer to anything. -/
theorem store_own {all : Bool} {objs objs' : List (Obj V)} {e : Expr V} {a : Stored V} {v : V}
    (h : store all objs e = .ok (a, objs'))
    (hv : (∃ k, e = .temp k v) ∨ ∃ k o, (e = .named k o ∧ all = false ∧ k ≠ .array ∨ e = .moved k o ∧ k ≠ .array) ∧ ∃ k', objs[o]? = some ⟨k', .holds v⟩) :
    ∃ k, a = .own k (some v) := by
  rcases hv with ⟨k, rfl⟩ | ⟨k, o, ⟨rfl, ha, hk⟩ | ⟨rfl, hk⟩, k', ho⟩
  · simp only [store] at h
    split at h
    · cases h
    · cases h; exact ⟨k, rfl⟩
  · simp only [store, object, ho, bind, Except.bind, ha, Bool.false_or, hk, decide_false, Cell.value,
      Bool.false_eq_true, if_false] at h
    split at h
    · cases h
    · cases h; exact ⟨k, rfl⟩
  · simp only [store, object, ho, bind, Except.bind, hk, Cell.value, if_false] at h
    split at h
    · cases h
    · cases h; exact ⟨k, rfl⟩

/-- What a factory stores that refers to an object. -/
theorem store_ref {f : Factory V} {objs objs' : List (Obj V)} {e : Expr V} {a : Stored V} {o : Nat}
    (h : store f.all objs e = .ok (a, objs')) (hr : (Op.make f e).refers o) : a = .ref o := by
  cases e with
  | named k o' =>
    obtain ⟨rfl, hr⟩ := hr
    simp only [store] at h
    cases hx : object objs o' with
    | error x => rw [hx] at h; cases h
    | ok x =>
      rw [hx] at h
      simp only [bind, Except.bind] at h
      split at h
      · cases h
      · rw [if_pos (by simpa using hr)] at h
        cases h; rfl
  | moved k o' =>
    obtain ⟨rfl, hr⟩ := hr
    simp only [store] at h
    cases hx : object objs o' with
    | error x => rw [hx] at h; cases h
    | ok x =>
      rw [hx] at h
      simp only [bind, Except.bind] at h
      split at h
      · cases h
      · split at h <;> cases h
        rfl
  | temp k v => cases hr
  | view o' =>
    cases hr
    simp only [store] at h
    cases hx : object objs o with
    | error x => rw [hx] at h; cases h
    | ok x => rw [hx] at h; cases h; rfl

/-- What the client does with its variables changes no matcher. -/
theorem run_client {cs : List (ClientOp V)} {s : State V} {r : State V × List (Ans V)}
    (h : run elems print s (cs.map .client) = .ok r) : r.1.mats = s.mats := by
  induction cs generalizing s r with
  | nil => cases h; rfl
  | cons c cs ih =>
    obtain ⟨s', a, as, h1, h2, -⟩ := run_cons h
    simp only [State.step] at h1
    cases hc : clientStep s.objs c with
    | error x => rw [hc] at h1; cases h1
    | ok objs =>
      rw [hc] at h1
      cases h1
      have := ih h2
      exact this

end Mimic.Capture
