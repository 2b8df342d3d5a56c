import Verif.Spec.WatchedProgress
import Verif.Props.WatcherProgress
import Verif.Props.WatchedTerminate

/-!
# Lemmas about what a client of watched objects may do
-/

set_option autoImplicit false

namespace Mimic

variable {α : Type} {a0 : Trigger α}

theorem exists_snoc {tr : WTrace α} {o : Nat} (h : tr.exists o) {op : WOp α} (ho : op ≠ .drop o) (log : List (WEvent α)) :
    (tr ++ [(op, log)] : WTrace α).exists o := by
  obtain ⟨⟨k, hk⟩, hd⟩ := h
  refine ⟨⟨k, isKind_append hk⟩, fun l hl => ?_⟩
  simp only [List.mem_append, List.mem_singleton, Prod.mk.injEq] at hl
  rcases hl with hl | ⟨h1, -⟩
  · exact hd l hl
  · exact ho h1.symm

/-- An operation of an object that fails although everything exists. -/
theorem own_error {tr : WTrace α} {ww : WWorld α} (h : WReach a0 tr ww) {op : WOp α} (ho : own op = true) (hv : tr.valid op) {x : Stop}
    (hs : ww.step a0 op = .error x) : tr.undefined op := by
  apply Classical.byContradiction
  intro hu
  obtain ⟨ww', log, h1⟩ := C34_progress h hv hu (by
    rintro ⟨m, min, max, seqs, ps, -, rfl | ⟨o, rfl, -⟩ | ⟨o, _, _, -, -, rfl, -⟩⟩ <;> simp [own] at ho)
  rw [hs] at h1
  cases h1

theorem drop_defined {tr : WTrace α} {o : Nat} : ¬ tr.undefined (.drop o) := by
  rintro ⟨o, -, -, ⟨⟨_, _, _, _, h⟩ | h, -⟩ | ⟨-, h | ⟨_, h, -⟩⟩⟩ <;> cases h

theorem unwind_progress {tr : WTrace α} {ww : WWorld α} (h : WReach a0 tr ww) {os : List Nat} (hn : os.Nodup) (he : ∀ o ∈ os, tr.exists o)
    {x : Stop} (hu : unwind a0 ww os = .error x) : ∃ why, x = .terminate why := by
  induction os generalizing tr ww with
  | nil => cases hu
  | cons o os ih =>
    simp only [unwind] at hu
    split at hu
    · rename_i e hs
      exact absurd (own_error (op := .drop o) h rfl (he o (by simp)) hs) drop_defined
    · rename_i ww1 log hs
      split at hu
      · exact ⟨_, by cases hu; rfl⟩
      · split at hu
        · rename_i e hs'
          cases hu
          rw [List.nodup_cons] at hn
          refine ih (.step h hs) hn.2 (fun o' ho' => exists_snoc (he o' (by simp [ho'])) ?_ _) hs'
          simp only [ne_eq, WOp.drop.injEq]
          rintro rfl
          exact hn.1 ho'
        · cases hu

theorem dropParts_progress {nothrow : Bool} {tr : WTrace α} {ww : WWorld α} (h : WReach a0 tr ww) {threw : Bool} {os : List Nat} (hn : os.Nodup)
    (he : ∀ o ∈ os, tr.exists o) {x : Stop} (hu : dropParts a0 nothrow ww threw os = .error x) : ∃ why, x = .terminate why := by
  induction os generalizing tr ww threw with
  | nil => cases hu
  | cons o os ih =>
    simp only [dropParts] at hu
    split at hu
    · rename_i e hs
      exact absurd (own_error (op := .drop o) h rfl (he o (by simp)) hs) drop_defined
    · rename_i ww1 log hs
      split at hu
      · exact ⟨_, by cases hu; rfl⟩
      · split at hu
        · rename_i e hs'
          cases hu
          rw [List.nodup_cons] at hn
          refine ih (.step h hs) hn.2 (fun o' ho' => exists_snoc (he o' (by simp [ho'])) ?_ _) hs'
          simp only [ne_eq, WOp.drop.injEq]
          rintro rfl
          exact hn.1 ho'
        · cases hu

/-- Operations on objects that leave all objects there. -/
def keeps : WOp α → Prop
  | .create _ => True
  | .copy _ => True
  | .move _ => True
  | .copyAssign _ _ => True
  | .moveAssign _ _ => True
  | _ => False

theorem keeps_own {op : WOp α} (h : keeps op) : own op = true := by cases op <;> first | rfl | exact h.elim
theorem makes_keeps {op : WOp α} (h : makes op) : keeps op := by cases op <;> first | trivial | exact h.elim
theorem keeps_drop {op : WOp α} (h : keeps op) (o : Nat) : op ≠ .drop o := by rintro rfl; exact h

theorem valid_snoc {tr : WTrace α} {op op' : WOp α} (hk : keeps op) (hk' : keeps op') (hv : tr.valid op) (log : List (WEvent α)) :
    (tr ++ [(op', log)] : WTrace α).valid op := by
  have he : ∀ {o}, tr.exists o → (tr ++ [(op', log)] : WTrace α).exists o := fun ho => exists_snoc ho (keeps_drop hk' _) _
  cases op with
  | create => trivial
  | copy s => exact he hv
  | move s => exact he hv
  | copyAssign d s => obtain ⟨h1, h2, kd, h3, h4⟩ := hv; exact ⟨he h1, he h2, kd, isKind_append h3, isKind_append h4⟩
  | moveAssign d s => obtain ⟨h1, h2, kd, h3, h4⟩ := hv; exact ⟨he h1, he h2, kd, isKind_append h3, isKind_append h4⟩
  | _ => exact hk.elim

theorem StuckIn.cons {tr : WTrace α} {op : WOp α} {log : List (WEvent α)} {ops : List (WOp α)} (ht : thrown log = false)
    (h : StuckIn a0 (tr ++ [(op, log)]) ops) : StuckIn a0 tr (op :: ops) := by
  obtain ⟨b, ww, op', h1, h2, h3, h4⟩ := h
  refine ⟨(op, log) :: b, ww, op', by simpa using h1, by simpa using h2, ?_, by simpa using h4⟩
  intro st hst
  rcases List.mem_cons.mp hst with rfl | hst
  · exact thrown_false.mp ht
  · exact h3 st hst

theorem StuckIn.here {tr : WTrace α} {ww : WWorld α} (h : WReach a0 tr ww) {op : WOp α} {ops : List (WOp α)} (hu : tr.undefined op) :
    StuckIn a0 tr (op :: ops) := ⟨[], ww, op, by simpa using h, by simp, by simp, by simpa using hu⟩

theorem assign_progress {nothrow : Bool} {tr : WTrace α} {ww : WWorld α} (h : WReach a0 tr ww) {ops : List (WOp α)}
    (hk : ∀ op ∈ ops, keeps op) (hv : ∀ op ∈ ops, tr.valid op) {x : Stop} (hu : assign a0 nothrow ww ops = .error x) :
    (∃ why, x = .terminate why) ∨ StuckIn a0 tr ops := by
  induction ops generalizing tr ww with
  | nil => cases hu
  | cons op ops ih =>
    simp only [assign] at hu
    split at hu
    · rename_i e hs
      exact .inr (.here h (own_error h (keeps_own (hk op (by simp))) (hv op (by simp)) hs))
    · rename_i ww1 log hs
      split at hu
      · split at hu
        · exact .inl ⟨_, by cases hu; rfl⟩
        · cases hu
      · rename_i ht
        split at hu
        · rename_i e hs'
          cases hu
          rcases ih (.step h hs) (fun o ho => hk o (by simp [ho]))
              (fun o ho => valid_snoc (hk o (by simp [ho])) (hk op (by simp)) (hv o (by simp [ho])) _) hs' with h1 | h1
          · exact .inl h1
          · exact .inr (h1.cons (by simpa using ht))
        · cases hu

theorem made_exists {tr : WTrace α} {ww ww' : WWorld α} (h : WReach a0 tr ww) {op : WOp α} {log : List (WEvent α)} (hm : makes op)
    (hs : ww.step a0 op = .ok (ww', log)) (ht : thrown log = false) : (tr ++ [(op, log)] : WTrace α).exists ww.objs.length := by
  obtain ⟨-, kd, h1, -⟩ := makes_ok hm hs ht
  have h2 : WEvent.object ww.objs.length kd ∈ log := by
    have : (ww.objs.length, kd) ∈ objectsOf log := by rw [h1]; simp
    simp only [objectsOf, List.mem_filterMap] at this
    obtain ⟨x, hx, hy⟩ := this
    cases x with
    | object o k => simp only [Option.some.injEq, Prod.mk.injEq] at hy; obtain ⟨rfl, rfl⟩ := hy; exact hx
    | _ => simp at hy
  have hk : (tr ++ [(op, log)] : WTrace α).isKind ww.objs.length kd := ⟨(op, log), by simp, h2⟩
  refine ⟨⟨kd, hk⟩, fun l hl => ?_⟩
  simp only [List.mem_append, List.mem_singleton, Prod.mk.injEq] at hl
  rcases hl with hl | ⟨h3, -⟩
  · exact Nat.lt_irrefl _ (h.inv2.dropped _ _ hl)
  · subst h3; exact hm

theorem build_progress {nothrow : Bool} {tr : WTrace α} {ww : WWorld α} (h : WReach a0 tr ww) {made : List Nat} {ops : List (WOp α)}
    (hk : ∀ op ∈ ops, makes op) (hv : ∀ op ∈ ops, tr.valid op) (hn : made.Nodup) (he : ∀ o ∈ made, tr.exists o) (hl : ∀ o ∈ made, o < ww.objs.length)
    {x : Stop} (hu : build a0 nothrow ww made ops = .error x) : (∃ why, x = .terminate why) ∨ StuckIn a0 tr ops := by
  induction ops generalizing tr ww made with
  | nil => cases hu
  | cons op ops ih =>
    simp only [build] at hu
    split at hu
    · rename_i e hs
      exact .inr (.here h (own_error h (keeps_own (makes_keeps (hk op (by simp)))) (hv op (by simp)) hs))
    · rename_i ww1 log hs
      split at hu
      · split at hu
        · exact .inl ⟨_, by cases hu; rfl⟩
        · split at hu
          · rename_i e hs'
            cases hu
            exact .inl (unwind_progress (.step h hs) hn (fun o ho => exists_snoc (he o ho) (keeps_drop (makes_keeps (hk op (by simp))) _) _) hs')
          · cases hu
      · rename_i ht
        have ht' : thrown log = false := by simpa using ht
        split at hu
        · rename_i e hs'
          cases hu
          obtain ⟨hlen, -⟩ := makes_ok (hk op (by simp)) hs ht'
          rcases ih (.step h hs) (fun o ho => hk o (by simp [ho]))
              (fun o ho => valid_snoc (makes_keeps (hk o (by simp [ho]))) (makes_keeps (hk op (by simp))) (hv o (by simp [ho])) _)
              (List.nodup_cons.mpr ⟨fun hc => Nat.lt_irrefl _ (hl _ hc), hn⟩)
              (by
                intro o ho
                rcases List.mem_cons.mp ho with rfl | ho
                · exact made_exists h (hk op (by simp)) hs ht'
                · exact exists_snoc (he o ho) (keeps_drop (makes_keeps (hk op (by simp))) _) _)
              (by
                intro o ho
                rcases List.mem_cons.mp ho with rfl | ho
                · omega
                · have := hl o ho; omega) hs' with h1 | h1
          · exact .inl h1
          · exact .inr (h1.cons ht')
        · cases hu

theorem build_made {nothrow : Bool} {tr : WTrace α} {ww ww' : WWorld α} (h : WReach a0 tr ww) {made m : List Nat} {ops : List (WOp α)} {t : WTrace α}
    (hk : ∀ op ∈ ops, makes op) (hn : made.Nodup) (he : ∀ o ∈ made, tr.exists o) (hl : ∀ o ∈ made, o < ww.objs.length)
    (hu : build a0 nothrow ww made ops = .ok (ww', t, some m)) : m.Nodup ∧ ∀ o ∈ m, (tr ++ t : WTrace α).exists o := by
  induction ops generalizing tr ww made t with
  | nil => 
    simp only [build, Except.ok.injEq, Prod.mk.injEq, Option.some.injEq] at hu
    obtain ⟨rfl, rfl, rfl⟩ := hu
    exact ⟨hn, by simpa using he⟩
  | cons op ops ih =>
    simp only [build] at hu
    split at hu
    · cases hu
    · rename_i ww1 log hs
      split at hu
      · split at hu
        · cases hu
        · split at hu <;> cases hu
      · rename_i ht
        have ht' : thrown log = false := by simpa using ht
        split at hu
        · cases hu
        · rename_i ww2 t' r hs'
          simp only [Except.ok.injEq, Prod.mk.injEq] at hu
          obtain ⟨rfl, rfl, rfl⟩ := hu
          obtain ⟨hlen, -⟩ := makes_ok (hk op (by simp)) hs ht'
          have := ih (.step h hs) (fun o ho => hk o (by simp [ho]))
              (List.nodup_cons.mpr ⟨fun hc => Nat.lt_irrefl _ (hl _ hc), hn⟩)
              (by
                intro o ho
                rcases List.mem_cons.mp ho with rfl | ho
                · exact made_exists h (hk op (by simp)) hs ht'
                · exact exists_snoc (he o ho) (keeps_drop (makes_keeps (hk op (by simp))) _) _)
              (by
                intro o ho
                rcases List.mem_cons.mp ho with rfl | ho
                · omega
                · have := hl o ho; omega) hs'
          simpa using this

theorem construct_progress {tr : WTrace α} {cw : CWorld α} (h : WReach a0 tr cw.ww) {base : BaseSpec} {kinds : List Watcher} {nothrow fails : Bool}
    {ops : List (WOp α)} (hm : ∀ op ∈ ops, makes op) (hv : ∀ op ∈ ops, tr.valid op) :
    (∃ cw' log, cw.construct a0 base kinds nothrow ops fails = .ok (cw', log)) ∨
    (∃ why, cw.construct a0 base kinds nothrow ops fails = .error (.terminate why)) ∨ StuckIn a0 tr ops := by
  cases hc : cw.construct a0 base kinds nothrow ops fails with
  | ok r => exact .inl ⟨r.1, r.2, rfl⟩
  | error x =>
    simp only [CWorld.construct] at hc
    split at hc
    · rename_i e he
      cases hc
      rcases build_progress h hm hv (by simp) (by simp) (by simp) he with ⟨why, rfl⟩ | h1
      · exact .inr (.inl ⟨why, rfl⟩)
      · exact .inr (.inr h1)
    · cases hc
    · rename_i ww' t made he
      split at hc
      · split at hc
        · cases hc; exact .inr (.inl ⟨_, rfl⟩)
        · split at hc
          · rename_i e hu
            cases hc
            rcases build_runs hm he with ⟨m, h1, h2, h3, h4, h5, h6⟩ | ⟨h1, -⟩
            · cases h1
              have hr := h2.reach h
              obtain ⟨k1, k2⟩ := build_made h hm (by simp) (by simp) (by simp) he
              obtain ⟨why, rfl⟩ := unwind_progress hr k1 k2 hu
              exact .inr (.inl ⟨why, rfl⟩)
            · cases h1
          · cases hc
      · cases hc

theorem type_snoc {tr : CTrace α} {op : COp α} {log : CLog α} (c : Nat) :
    (tr ++ [(op, log)] : CTrace α).type c = if log.made = some c then
      (match op with
      | .create base kinds _ => some (base, kinds)
      | .copy s _ => tr.type s
      | .move s _ => tr.type s
      | _ => none) else tr.type c := by
  simp only [CTrace.type, List.reverse_append, List.reverse_cons, List.reverse_nil, List.nil_append, List.singleton_append, TypeRev]
  cases op <;> rfl

theorem construct_type {cw cw' : CWorld α} {base : BaseSpec} {kinds : List Watcher} {nothrow fails : Bool} {ops : List (WOp α)} {log : CLog α}
    (h : cw.construct a0 base kinds nothrow ops fails = .ok (cw', log)) :
    (log.made = none ∧ cw'.objs = cw.objs) ∨
    (log.made = some cw.objs.length ∧ ∃ ps, cw'.objs = cw.objs ++ [⟨base, kinds, ps, true⟩]) := by
  simp only [CWorld.construct] at h
  split at h
  · cases h
  · cases h; exact .inl ⟨rfl, rfl⟩
  · split at h
    · split at h
      · cases h
      · split at h
        · cases h
        · cases h; exact .inl ⟨rfl, rfl⟩
    · cases h; exact .inr ⟨rfl, _, rfl⟩

/-- The type of a watched object. -/
def typeAt (objs : List Watched) (c : Nat) : Option (BaseSpec × List Watcher) := objs[c]?.map (fun x => (x.base, x.kinds))

theorem CReach.type_eq {tr : CTrace α} {cw : CWorld α} (h : CReach a0 tr cw) (c : Nat) : tr.type c = typeAt cw.objs c := by
  induction h generalizing c with
  | init => simp [CTrace.type, TypeRev, typeAt, CWorld.init]
  | @step tr cw cw' op log hr hs ih =>
    rw [type_snoc]
    have hobj : ∀ {s x}, cw.obj s = some x → tr.type s = some (x.base, x.kinds) := by
      intro s x hx
      rw [ih, typeAt, (cobj_some hx).1]
      rfl
    have hcon : ∀ {base kinds nothrow ops fails}, cw.construct a0 base kinds nothrow ops fails = .ok (cw', log) →
        (match op with
          | .create base kinds _ => some (base, kinds)
          | .copy s _ => tr.type s
          | .move s _ => tr.type s
          | _ => none) = some (base, kinds) →
        (if log.made = some c then
          (match op with
          | .create base kinds _ => some (base, kinds)
          | .copy s _ => tr.type s
          | .move s _ => tr.type s
          | _ => none) else tr.type c) = typeAt cw'.objs c := by
      intro base kinds nothrow ops fails hc ht
      rw [ht, ih]
      rcases construct_type hc with ⟨h1, h2⟩ | ⟨h1, ps, h2⟩
      · rw [h1, h2]; simp
      · rw [h1, h2]
        by_cases hcl : cw.objs.length = c
        · subst hcl; simp [typeAt]
        · have : ¬ (some cw.objs.length = some c) := by simpa using hcl
          rw [if_neg this]
          simp only [typeAt]
          by_cases h3 : c < cw.objs.length
          · rw [List.getElem?_append_left h3]
          · rw [List.getElem?_append_right (by omega), List.getElem?_eq_none (by omega)]
            have : c - cw.objs.length ≠ 0 := by omega
            simp [List.getElem?_cons, this]
    cases op with
    | create base kinds fails => exact hcon hs rfl
    | copy s fails =>
      simp only [CWorld.step] at hs
      split at hs
      · cases hs
      · rename_i x hx; exact hcon hs (hobj hx)
    | move s fails =>
      simp only [CWorld.step] at hs
      split at hs
      · cases hs
      · rename_i x hx; exact hcon hs (hobj hx)
    | drop c' =>
      simp only [CWorld.step] at hs
      split at hs
      · cases hs
      · rename_i x hx
        split at hs
        · cases hs
        · cases hs
          simp only [reduceCtorEq, if_false, ih, typeAt, List.getElem?_set]
          have := (cobj_some hx).1
          grind
    | plain op =>
      simp only [CWorld.step] at hs
      split at hs <;> cases hs
      simp [ih]
    | copyAssign d s fails =>
      simp only [CWorld.step] at hs
      split at hs
      · split at hs
        · split at hs <;> cases hs
          simp [ih]
        · cases hs
      · cases hs
    | moveAssign d s fails =>
      simp only [CWorld.step] at hs
      split at hs
      · split at hs
        · split at hs
          · cases hs
          · split at hs <;> cases hs
            simp [ih]
        · cases hs
      · cases hs
    | expect c' i min max seqs ps =>
      simp only [CWorld.step] at hs
      split at hs
      · cases hs
      · split at hs
        · cases hs
        · split at hs <;> cases hs
          simp [ih]

/-- What the world has of a watched object that is there. -/
theorem CReach.there {tr : CTrace α} {cw : CWorld α} (h : CReach a0 tr cw) {c : Nat} (he : tr.exists c) :
    ∃ x, cw.obj c = some x ∧ x.parts = tr.watchers c ∧ x.parts.Nodup ∧ (∀ o ∈ x.parts, tr.flat.exists o) ∧
      tr.type c = some (x.base, x.kinds) ∧
      ∀ (i o : Nat), x.parts[i]? = some o → ∃ k, x.kinds[i]? = some k ∧ tr.flat.isKind o k := by
  obtain ⟨⟨ps, hp⟩, hd⟩ := he
  obtain ⟨x, hx, hxp⟩ := h.inv.object hp hd
  obtain ⟨h1, h2⟩ := cobj_some hx
  obtain ⟨ps', h3, h4, h5⟩ := h.inv.parts c x h1
  rw [hp] at h3
  cases h3
  refine ⟨x, hx, by simp [CTrace.watchers, hp, hxp], h.inv.nodup c x h1, ?_, by rw [h.type_eq, typeAt, h1]; rfl, ?_⟩
  · intro o ho
    rw [← hxp] at ho
    obtain ⟨p, hpm, rfl⟩ := List.mem_map.mp ho
    obtain ⟨y, hy, -⟩ := h.inv.part_obj hx hp hpm
    exact (h.inv.reach.exists_iff _).mpr ⟨y, hy⟩
  · intro i o ho
    rw [← hxp, List.getElem?_map, Option.map_eq_some_iff] at ho
    obtain ⟨p, hpi, rfl⟩ := ho
    refine ⟨p.2, by rw [← h5, List.getElem?_map, hpi]; rfl, h.inv.kind c ps hp p (List.mem_of_getElem? hpi)⟩

theorem zipWith_valid {tr : WTrace α} {xs ys : List Nat} {ks : List Watcher} {f : Nat → Nat → WOp α}
    (hf : ∀ d s, tr.exists d → tr.exists s → (∃ k, tr.isKind d k ∧ tr.isKind s k) → tr.valid (f d s))
    (hx : ∀ o ∈ xs, tr.exists o) (hy : ∀ o ∈ ys, tr.exists o)
    (kx : ∀ (i o : Nat), xs[i]? = some o → ∃ k, ks[i]? = some k ∧ tr.isKind o k)
    (ky : ∀ (i o : Nat), ys[i]? = some o → ∃ k, ks[i]? = some k ∧ tr.isKind o k) :
    ∀ op ∈ List.zipWith f xs ys, tr.valid op := by
  intro op hop
  obtain ⟨i, hi⟩ := List.mem_iff_getElem?.mp hop
  rw [List.getElem?_zipWith] at hi
  cases h1 : xs[i]? with
  | none => simp [h1] at hi
  | some d =>
    cases h2 : ys[i]? with
    | none => simp [h1, h2] at hi
    | some s =>
      simp only [h1, h2, Option.some.injEq] at hi
      subst hi
      obtain ⟨k, e1, e2⟩ := kx i d h1
      obtain ⟨k', e3, e4⟩ := ky i s h2
      rw [e1] at e3
      cases e3
      exact hf d s (hx d (List.mem_of_getElem? h1)) (hy s (List.mem_of_getElem? h2)) ⟨k, e2, e4⟩

end Mimic
