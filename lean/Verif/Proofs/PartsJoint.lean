import Verif.Proofs.Parts
import Verif.Proofs.Lifetime

/-!
# Lemmas on tests that consist of independent parts: creating objects, and all parts together
-/

set_option autoImplicit false

namespace Mimic.Parts

variable {α ι : Type}

/-- What an operation of a part does to a table of all and to the names of the part. -/
structure Grow {A : Type} (l l' : List Nat) (H H' : List A) : Prop where
  old : ∀ K : Nat, K ∉ l → K < H.length → H'[K]? = H[K]?
  length : H.length ≤ H'.length
  new : ∀ K ∈ l', K ∈ l ∨ (H.length ≤ K ∧ K < H'.length)
  keep : ∀ K ∈ l, K ∈ l'
  cover : ∀ K, H.length ≤ K → K < H'.length → K ∈ l'

theorem Frame.grow {A : Type} {l : List Nat} {H H' : List A} (h : Frame l H H') : Grow l l H H' :=
  ⟨fun K hK _ => h.get K hK, by rw [h.length]; exact Nat.le_refl _, fun K hK => .inl hK, fun _ hK => hK,
    fun K h1 h2 => by rw [h.length] at h2; omega⟩

theorem Grow.add {A : Type} {l : List Nat} {H H' : List A} (h : Frame l H H') (x : A) : Grow l (l ++ [H.length]) H (H' ++ [x]) := by
  refine ⟨fun K hK hlt => ?_, ?_, ?_, ?_, ?_⟩
  · rw [List.getElem?_append_left (by rw [h.length]; exact hlt), h.get K hK]
  · simp [h.length]
  · intro K hK
    rcases List.mem_append.mp hK with hK | hK
    · exact .inl hK
    · simp at hK
      subst hK
      simp [h.length]
  · intro K hK
    simp [hK]
  · intro K h1 h2
    simp [h.length] at h2
    have : K = H.length := by omega
    simp [this]

structure Grows (N N' : Names) (w w' : World α) : Prop where
  seqs : Grow N.seqs N'.seqs w.seqs w'.seqs
  exps : Grow N.exps N'.exps w.exps w'.exps
  colls : Grow N.mocks N'.mocks w.colls w'.colls

theorem Inside.grows {N : Names} {w w' : World α} (h : Inside N w w') : Grows N N w w' :=
  ⟨h.seqs.grow, h.exps.grow, h.colls.grow⟩

/-- `N'` has the names of `N` and perhaps more. -/
structure Names.Le (N N' : Names) : Prop where
  seqs : ∀ k K, At N.seqs k K → At N'.seqs k K
  exps : ∀ k K, At N.exps k K → At N'.exps k K
  mocks : ∀ k K, At N.mocks k K → At N'.mocks k K

theorem CtrlRel.mono {l l' : List Nat} (h : ∀ k K, At l k K → At l' k K) {c C : Control} (hc : CtrlRel l c C) : CtrlRel l' c C :=
  ⟨hc.min, hc.max, hc.count, hc.entries.mono (fun _ _ hr => ⟨h _ _ hr.1, hr.2⟩)⟩

theorem ExpRel.mono {N N' : Names} (h : Names.Le N N') {x X : Exp α} (hx : ExpRel N x X) : ExpRel N' x X :=
  ⟨h.mocks _ _ hx.coll, hx.control.mono h.seqs, hx.policies, hx.alive⟩

/-- What one operation does, seen from the part alone and from all. -/
structure Next (N : Names) (w : World α) (r R : World α × List Event) : Prop where
  within : Within (R.2.foldl Names.learn N) r.1 R.1
  grows : Grows N (R.2.foldl Names.learn N) w R.1
  events : All2 (EventRel (R.2.foldl Names.learn N)) r.2 R.2

theorem Old.next {N : Names} {w : World α} {r R : World α × List Event} (h : Old N w r R) : Next N w r R := by
  have e := learn_old N h.old
  exact ⟨by rw [e]; exact h.stays.within, by rw [e]; exact h.stays.inside.grows, by rw [e]; exact h.events⟩

theorem newSequence_next {N : Names} {v w : World α} (h : Within N v w) (st : Strategy) :
    MLike (Next N w) (v.step (.newSequence st)) (w.step (.newSequence st)) := by
  refine .ok ?_
  have hle : Names.Le N { N with seqs := N.seqs ++ [w.seqs.length] } := ⟨fun _ _ h => h.more _, fun _ _ h => h, fun _ _ h => h⟩
  refine ⟨⟨?_, ?_, ?_⟩, ⟨?_, ?_, ?_⟩, ?_⟩
  · exact TableRel.add h.seqs rfl
  · exact h.exps.mono (fun _ _ hx => hx.mono hle)
  · exact h.colls
  · exact .add (.refl _ _) _
  · exact (Frame.refl _ _).grow
  · exact (Frame.refl _ _).grow
  · refine .cons (.sequenceCreated _ ?_) .nil
    simp [At, Names.learn, ← h.seqs.length]

theorem newMock_next {N : Names} {v w : World α} (h : Within N v w) :
    MLike (Next N w) (v.step .newMock) (w.step .newMock) := by
  refine .ok ?_
  have hle : Names.Le N { N with mocks := N.mocks ++ [w.colls.length] } := ⟨fun _ _ h => h, fun _ _ h => h, fun _ _ h => h.more _⟩
  refine ⟨⟨?_, ?_, ?_⟩, ⟨?_, ?_, ?_⟩, ?_⟩
  · exact h.seqs
  · exact h.exps.mono (fun _ _ hx => hx.mono hle)
  · exact TableRel.add h.colls .nil
  · exact (Frame.refl _ _).grow
  · exact (Frame.refl _ _).grow
  · exact .add (.refl _ _) _
  · refine .cons (.mockCreated ?_) .nil
    simp [At, Names.learn, ← h.colls.length]

theorem hasHandle_like {N : Names} {v w : World α} (h : Within N v w) {s S : Nat} (hs : At N.seqs s S) :
    v.hasHandle s = w.hasHandle S := by
  unfold World.hasHandle
  rw [h.seqs.get' hs]

theorem nodup_like {l : List Nat} (hn : l.Nodup) {ts Ts : List Nat} (h : All2 (At l) ts Ts) : ts.Nodup ↔ Ts.Nodup := by
  induction h with
  | nil => simp
  | @cons t T ts Ts hr hrs ih =>
    rw [List.nodup_cons, List.nodup_cons, ih]
    refine and_congr ?_ Iff.rfl
    refine not_congr ⟨fun hm => ?_, fun hm => ?_⟩
    · obtain ⟨T', h1, h2⟩ := hrs.mem_left hm
      have := (hr.eq_iff hn h2).mp rfl
      rw [this]
      exact h1
    · obtain ⟨t', h1, h2⟩ := hrs.mem_right hm
      have := (hr.eq_iff hn h2).mpr rfl
      rw [this]
      exact h1

theorem expect_next {N : Names} {v w : World α} (h : Within N v w) {m M : Nat} (hm : At N.mocks m M) (min max : Int) {ts Ts : List Nat}
    (ht : All2 (At N.seqs) ts Ts) (ps : List (Policy α)) :
    MLike (Next N w) (v.expect m min max ts ps) (w.expect M min max Ts ps) := by
  obtain ⟨es, Es, h1, h2, hes⟩ := h.colls.get m M hm
  unfold World.expect
  rw [h1, h2]
  simp only
  have hh : ts.all v.hasHandle = Ts.all w.hasHandle := by
    induction ht with
    | nil => rfl
    | cons hr _ ih => rw [List.all_cons, List.all_cons, ih, hasHandle_like h hr]
  rw [hh]
  split
  · cases TimesConfig.make min max with
    | none => exact .ok (Old.next ⟨⟨h, .refl _ _⟩, .cons .rejected .nil, by simp [Event.old]⟩)
    | some t =>
      rw [seqConfig_eq, seqConfig_eq]
      have hnd := nodup_like h.seqs.nodup ht
      by_cases hd : ts.Nodup
      · rw [if_pos hd, if_pos (hnd.mp hd)]
        simp only
        refine MLike.bind (make_like t ht h.seqs) ?_
        rintro ⟨s, c⟩ ⟨S, C⟩ ⟨h3, h4⟩
        have c1 : es.contains v.exps.length = false := by
          rw [← Bool.not_eq_true, List.contains_iff_mem]
          intro hmem
          obtain ⟨E, _, hE⟩ := hes.mem_left hmem
          have := (List.getElem?_eq_some_iff.mp hE).1
          rw [h.exps.length] at this
          omega
        have c2 : Es.contains w.exps.length = false := by
          rw [← Bool.not_eq_true, List.contains_iff_mem]
          intro hmem
          obtain ⟨e, _, he⟩ := hes.mem_right hmem
          obtain ⟨_, _, _, h5, _⟩ := h.exps.get e _ he
          have := (List.getElem?_eq_some_iff.mp h5).1
          omega
        simp only [c1, c2]
        refine MLike.bind (MLike.refl (R := fun s t => s = t) (fun _ => rfl) _) ?_
        rintro _ _ _
        refine .ok ?_
        have hle : Names.Le N { N with exps := N.exps ++ [w.exps.length] } := ⟨fun _ _ h => h, fun _ _ h => h.more _, fun _ _ h => h⟩
        have hat : At (N.exps ++ [w.exps.length]) v.exps.length w.exps.length := by simp [At, ← h.exps.length]
        refine ⟨⟨?_, ?_, ?_⟩, ⟨?_, ?_, ?_⟩, ?_⟩
        · exact h3.rel
        · exact TableRel.add (h.exps.mono (fun _ _ hx => hx.mono hle)) ⟨hm, h4, rfl, rfl⟩
        · exact TableRel.set (h.colls.mono (fun _ _ hx => hx.mono hle.exps)) hm
            ((hes.mono hle.exps).append (.cons hat .nil))
        · exact h3.frame.grow
        · exact .add (.refl _ _) _
        · exact (Frame.set _ hm.mem _).grow
        · exact .cons (.created hat) .nil
      · rw [if_neg hd, if_neg (fun hd' => hd (hnd.mpr hd'))]
        exact .ok (Old.next ⟨⟨h, .refl _ _⟩, .cons .rejected .nil, by simp [Event.old]⟩)
  · exact .error _

/-- Both computations succeed with related results, or both fail. -/
inductive MBoth {A B : Type} (R : A → B → Prop) : M A → M B → Prop where
  | ok {a : A} {b : B} : R a b → MBoth R (.ok a) (.ok b)
  | error (x y : Stop) : MBoth R (.error x) (.error y)

theorem MLike.both {A B : Type} {R : A → B → Prop} {m : M A} {m' : M B} (h : MLike R m m') : MBoth R m m' := by
  cases h with
  | ok h => exact .ok h
  | error x => exact .error x x

theorem lookAll_some {l : List Nat} {ts Ts : List Nat} (h : lookAll l ts = some Ts) : All2 (At l) ts Ts := by
  induction ts generalizing Ts with
  | nil => simp [lookAll] at h; subst h; exact .nil
  | cons t ts ih =>
    unfold lookAll at h
    split at h
    · rename_i K Ks h1 h2
      simp only [Option.some.injEq] at h
      subst h
      exact .cons h1 (ih h2)
    · simp at h

theorem lookAll_none {l : List Nat} {ts : List Nat} (h : lookAll l ts = none) : ∃ t ∈ ts, l.length ≤ t := by
  induction ts with
  | nil => simp [lookAll] at h
  | cons t ts ih =>
    rcases h1 : l[t]? with _ | K
    · exact ⟨t, by simp, List.getElem?_eq_none_iff.mp h1⟩
    · rcases h2 : lookAll l ts with _ | Ks
      · obtain ⟨t', h3, h4⟩ := ih h2
        exact ⟨t', by simp [h3], h4⟩
      · simp [lookAll, h1, h2] at h

/-- One operation of a part, alone and among others. -/
theorem step_next {N : Names} {v w : World α} (h : Within N v w) (ha : Alone N w) (op : Op α) :
    match N.op op with
    | none => ∃ x, v.step op = .error x
    | some op' => MLike (Next N w) (v.step op) (w.step op') := by
  cases op with
  | newSequence st => exact newSequence_next h st
  | newMock => exact newMock_next h
  | dropSequence s =>
    simp only [Names.op]
    rcases hs : N.seqs[s]? with _ | S
    · simp only [Option.map_none]
      have : v.seqs[s]? = none := by
        rw [List.getElem?_eq_none_iff, ← h.seqs.length]
        exact List.getElem?_eq_none_iff.mp hs
      simp [World.step, World.hasHandle, this]
    · simp only [Option.map_some, World.step, hasHandle_like h hs]
      split
      · have hw : Within N { v with seqs := v.seqs.modify s (fun c => { c with handle := false }) }
            { w with seqs := w.seqs.modify S (fun c => { c with handle := false }) } := ⟨h.seqs.modify hs _, h.exps, h.colls⟩
        have hi : Inside N w { w with seqs := w.seqs.modify S (fun c => { c with handle := false }) } :=
          ⟨Frame.modify _ (At.mem hs) _, .refl _ _, .refl _ _⟩
        have := release_like' hw (hi.alone ha) hs
        cases h1 : World.release { v with seqs := v.seqs.modify s (fun c => { c with handle := false }) } s with
        | error x =>
          rw [h1] at this
          cases h2 : World.release { w with seqs := w.seqs.modify S (fun c => { c with handle := false }) } S with
          | error y => rw [h2] at this; cases this; exact .error _
          | ok y => rw [h2] at this; cases this
        | ok x =>
          rw [h1] at this
          cases h2 : World.release { w with seqs := w.seqs.modify S (fun c => { c with handle := false }) } S with
          | error y => rw [h2] at this; cases this
          | ok y =>
            rw [h2] at this
            cases this with
            | ok this => exact .ok (Old.next ⟨⟨this.stays.within, hi.trans this.stays.inside⟩, this.events, this.old⟩)
      · exact .error _
  | expect m min max ts ps =>
    simp only [Names.op]
    rcases hm : N.mocks[m]? with _ | M
    · have : v.colls[m]? = none := by
        rw [List.getElem?_eq_none_iff, ← h.colls.length]
        exact List.getElem?_eq_none_iff.mp hm
      simp [World.step, World.expect, this]
    · rcases ht : lookAll N.seqs ts with _ | Ts
      · obtain ⟨t, h1, h2⟩ := lookAll_none ht
        have : ts.all v.hasHandle = false := by
          rw [List.all_eq_false]
          refine ⟨t, h1, ?_⟩
          rw [h.seqs.length] at h2
          simp [World.hasHandle, List.getElem?_eq_none_iff.mpr h2]
        simp only
        obtain ⟨es, Es, h3, _, _⟩ := h.colls.get m M hm
        simp [World.step, World.expect, h3, this]
      · exact expect_next h hm min max (lookAll_some ht) ps
  | call m a =>
    simp only [Names.op]
    rcases hm : N.mocks[m]? with _ | M
    · have : v.colls[m]? = none := by
        rw [List.getElem?_eq_none_iff, ← h.colls.length]
        exact List.getElem?_eq_none_iff.mp hm
      exact ⟨.client "call on a non-existing mock", by simp [World.step, World.handleCall, this, bind, Except.bind]⟩
    · simp only [Option.map_some, World.step]
      refine MLike.bind (handleCall_like' h hm a) ?_
      rintro ⟨v', ev, r⟩ ⟨w', Ev, R⟩ h1
      exact .ok h1.next
  | destroy e =>
    simp only [Names.op]
    rcases he : N.exps[e]? with _ | E
    · have : v.exps[e]? = none := by
        rw [List.getElem?_eq_none_iff, ← h.exps.length]
        exact List.getElem?_eq_none_iff.mp he
      exact ⟨.client "destruction of a non-existing expectation", by simp [World.step, World.destroyExp, this]⟩
    · simp only [Option.map_some, World.step]
      have := destroy_like' h ha he
      cases h1 : v.destroyExp e with
      | error x =>
        rw [h1] at this
        cases h2 : w.destroyExp E with
        | error y => rw [h2] at this; cases this; exact .error _
        | ok y => rw [h2] at this; cases this
      | ok x =>
        rw [h1] at this
        cases h2 : w.destroyExp E with
        | error y => rw [h2] at this; cases this
        | ok y =>
          rw [h2] at this
          cases this with
          | ok this => exact .ok this.next

/-! ## All parts -/

/-- Each part in the world of all is as if it was alone. -/
structure Good [DecidableEq ι] (j : Joint ι α) (v : ι → World α) : Prop where
  within : ∀ i, Within (j.names i) (v i) j.world
  seqs : ∀ i k, i ≠ k → ∀ K ∈ (j.names i).seqs, K ∉ (j.names k).seqs
  exps : ∀ i k, i ≠ k → ∀ K ∈ (j.names i).exps, K ∉ (j.names k).exps
  mocks : ∀ i k, i ≠ k → ∀ K ∈ (j.names i).mocks, K ∉ (j.names k).mocks
  cover : ∀ K < j.world.exps.length, ∃ i, K ∈ (j.names i).exps

theorem Good.alone [DecidableEq ι] {j : Joint ι α} {v : ι → World α} (h : Good j v) (i : ι) : Alone (j.names i) j.world := by
  intro K X hX hK en hen hmem
  obtain ⟨k, hk⟩ := h.cover K (List.getElem?_eq_some_iff.mp hX).1
  by_cases e : k = i
  · subst e; exact hK hk
  · obtain ⟨m, hm⟩ := At.of_mem hk
    obtain ⟨x, Y, _, h2, h3⟩ := (h.within k).exps.get m K hm
    rw [hX] at h2
    cases h2
    obtain ⟨en', _, h5⟩ := h3.control.entries.mem_right hen
    exact h.seqs k i e _ h5.1.mem hmem

theorem Within.lt {N : Names} {v w : World α} (h : Within N v w) :
    (∀ K ∈ N.seqs, K < w.seqs.length) ∧ (∀ K ∈ N.exps, K < w.exps.length) ∧ (∀ K ∈ N.mocks, K < w.colls.length) := by
  refine ⟨fun K hK => ?_, fun K hK => ?_, fun K hK => ?_⟩
  · obtain ⟨k, hk⟩ := At.of_mem hK
    obtain ⟨_, _, _, h2, _⟩ := TableRel.get h.seqs k K hk
    exact (List.getElem?_eq_some_iff.mp h2).1
  · obtain ⟨k, hk⟩ := At.of_mem hK
    obtain ⟨_, _, _, h2, _⟩ := h.exps.get k K hk
    exact (List.getElem?_eq_some_iff.mp h2).1
  · obtain ⟨k, hk⟩ := At.of_mem hK
    obtain ⟨_, _, _, h2, _⟩ := h.colls.get k K hk
    exact (List.getElem?_eq_some_iff.mp h2).1

/-- The parts after an operation of part `i`, whatever it was. -/
theorem Good.next [DecidableEq ι] {j : Joint ι α} {v : ι → World α} (h : Good j v) (i : ι) {v' w' : World α} {ev Ev : List Event}
    (hn : Next (j.names i) j.world (v', ev) (w', Ev)) :
    Good { world := w', names := fun k => if k = i then Ev.foldl Names.learn (j.names i) else j.names k }
      (fun k => if k = i then v' else v k) ∧ ev = Ev.map (Ev.foldl Names.learn (j.names i)).event := by
  have hw := hn.within
  have hg := hn.grows
  have he := hn.events
  simp only at hw hg he
  refine ⟨⟨?_, ?_, ?_, ?_, ?_⟩, ?_⟩
  · intro k
    by_cases e : k = i
    · subst e
      simp only [if_true]
      exact hw
    · simp only [e, if_false]
      have hk := h.within k
      have hlt := hk.lt
      exact ⟨TableRel.frame hk.seqs (fun K hK => hg.seqs.old K (h.seqs k i e K hK) (hlt.1 K hK)),
        hk.exps.frame (fun K hK => hg.exps.old K (h.exps k i e K hK) (hlt.2.1 K hK)),
        hk.colls.frame (fun K hK => hg.colls.old K (h.mocks k i e K hK) (hlt.2.2 K hK))⟩
  · intro a b hab K hKa hKb
    simp only at hKa hKb
    by_cases ea : a = i
    · subst ea
      have eb : b ≠ a := fun e => hab e.symm
      simp only [if_true, eb, if_false] at hKa hKb
      rcases hg.seqs.new K hKa with h5 | h5
      · exact h.seqs a b hab K h5 hKb
      · have := (h.within b).lt.1 K hKb
        omega
    · by_cases eb : b = i
      · subst eb
        simp only [if_true, ea, if_false] at hKa hKb
        rcases hg.seqs.new K hKb with h5 | h5
        · exact h.seqs a b hab K hKa h5
        · have := (h.within a).lt.1 K hKa
          omega
      · simp only [ea, eb, if_false] at hKa hKb
        exact h.seqs a b hab K hKa hKb
  · intro a b hab K hKa hKb
    simp only at hKa hKb
    by_cases ea : a = i
    · subst ea
      have eb : b ≠ a := fun e => hab e.symm
      simp only [if_true, eb, if_false] at hKa hKb
      rcases hg.exps.new K hKa with h5 | h5
      · exact h.exps a b hab K h5 hKb
      · have := (h.within b).lt.2.1 K hKb
        omega
    · by_cases eb : b = i
      · subst eb
        simp only [if_true, ea, if_false] at hKa hKb
        rcases hg.exps.new K hKb with h5 | h5
        · exact h.exps a b hab K hKa h5
        · have := (h.within a).lt.2.1 K hKa
          omega
      · simp only [ea, eb, if_false] at hKa hKb
        exact h.exps a b hab K hKa hKb
  · intro a b hab K hKa hKb
    simp only at hKa hKb
    by_cases ea : a = i
    · subst ea
      have eb : b ≠ a := fun e => hab e.symm
      simp only [if_true, eb, if_false] at hKa hKb
      rcases hg.colls.new K hKa with h5 | h5
      · exact h.mocks a b hab K h5 hKb
      · have := (h.within b).lt.2.2 K hKb
        omega
    · by_cases eb : b = i
      · subst eb
        simp only [if_true, ea, if_false] at hKa hKb
        rcases hg.colls.new K hKb with h5 | h5
        · exact h.mocks a b hab K hKa h5
        · have := (h.within a).lt.2.2 K hKa
          omega
      · simp only [ea, eb, if_false] at hKa hKb
        exact h.mocks a b hab K hKa hKb
  · intro K hK
    by_cases hlt : K < j.world.exps.length
    · obtain ⟨k, hk⟩ := h.cover K hlt
      by_cases e : k = i
      · subst e
        exact ⟨k, by simpa using hg.exps.keep K hk⟩
      · exact ⟨k, by simpa [e] using hk⟩
    · exact ⟨i, by simpa using hg.exps.cover K (by omega) hK⟩
  · have : ∀ {l : List Event} {L : List Event}, All2 (EventRel (Ev.foldl Names.learn (j.names i))) l L →
        l = L.map (Ev.foldl Names.learn (j.names i)).event := by
      intro l L hl
      induction hl with
      | nil => rfl
      | cons hr _ ih =>
        rw [List.map_cons, ← ih, hr.event hw.seqs.nodup hw.exps.nodup hw.colls.nodup]
    exact this he

theorem Good.step [DecidableEq ι] {j : Joint ι α} {v : ι → World α} (h : Good j v) (i : ι) (op : Op α) :
    MBoth (fun r R => Good R.1 (fun k => if k = i then r.1 else v k) ∧ r.2 = R.2) ((v i).step op) (j.step i op) := by
  have hs := step_next (h.within i) (h.alone i) op
  unfold Joint.step
  rcases hop : (j.names i).op op with _ | op'
  · rw [hop] at hs
    obtain ⟨x, hx⟩ := hs
    rw [hx]
    exact .error _ _
  · rw [hop] at hs
    simp only at hs ⊢
    cases h1 : (v i).step op with
    | error x =>
      rw [h1] at hs
      cases h2 : j.world.step op' with
      | error y => exact .error _ _
      | ok y => rw [h2] at hs; cases hs
    | ok r =>
      rw [h1] at hs
      cases h2 : j.world.step op' with
      | error y => rw [h2] at hs; cases hs
      | ok R =>
        rw [h2] at hs
        cases hs with
        | ok hn =>
          obtain ⟨w', Ev⟩ := R
          obtain ⟨v', ev⟩ := r
          exact .ok (h.next i hn)

theorem part_map_self [DecidableEq ι] {A : Type} (i : ι) (l : List A) : part i (l.map fun a => (i, a)) = l := by
  induction l with
  | nil => rfl
  | cons a l ih => simp_all [part]

theorem part_map_ne [DecidableEq ι] {A : Type} {i k : ι} (h : k ≠ i) (l : List A) : part i (l.map fun a => (k, a)) = [] := by
  simp [part, h]

theorem part_append [DecidableEq ι] {A : Type} (i : ι) (l l' : List (ι × A)) : part i (l ++ l') = part i l ++ part i l' := by
  simp [part]

theorem run_parts [DecidableEq ι] {ops : List (ι × Op α)} {j : Joint ι α} {v : ι → World α} (h : Good j v) :
    (∃ (j' : Joint ι α) (log : List (ι × Event)) (v' : ι → World α), j.run ops = .ok (j', log) ∧
      ∀ i, (v i).run (part i ops) = .ok (v' i, part i log)) ∨
    (∃ x y i, j.run ops = .error x ∧ (v i).run (part i ops) = .error y) := by
  induction ops generalizing j v with
  | nil => exact .inl ⟨j, [], v, rfl, fun _ => rfl⟩
  | cons o ops ih =>
    obtain ⟨i, op⟩ := o
    have hs := h.step i op
    have p1 : part i ((i, op) :: ops) = op :: part i ops := by simp [part]
    have p2 : ∀ k, k ≠ i → part k ((i, op) :: ops) = part k ops := by
      intro k hk
      have : ¬ i = k := fun e => hk e.symm
      simp [part, this]
    cases h1 : (v i).step op with
    | error x =>
      cases h2 : j.step i op with
      | ok R => rw [h1, h2] at hs; cases hs
      | error y =>
        right
        refine ⟨y, x, i, ?_, ?_⟩
        · simp only [Joint.run, h2, bind, Except.bind]
        · rw [p1]
          simp only [World.run, h1, bind, Except.bind]
    | ok r =>
      cases h2 : j.step i op with
      | error y => rw [h1, h2] at hs; cases hs
      | ok R =>
        rw [h1, h2] at hs
        cases hs with
        | ok hs =>
          obtain ⟨v1, ev⟩ := r
          obtain ⟨j1, Ev⟩ := R
          obtain ⟨hg, he⟩ := hs
          simp only at hg he
          subst he
          rcases ih hg with ⟨j', log, v', h3, h4⟩ | ⟨x, y, k, h3, h4⟩
          · left
            refine ⟨j', ev.map (fun e => (i, e)) ++ log, v', ?_, fun k => ?_⟩
            · simp only [Joint.run, h2, h3, bind, Except.bind, pure, Except.pure]
            · have := h4 k
              by_cases e : k = i
              · subst e
                rw [p1]
                simp only [if_true] at this
                simp only [World.run, h1, this, bind, Except.bind, pure, Except.pure, part_append, part_map_self]
              · rw [p2 k e]
                simp only [e, if_false] at this
                rw [this, part_append, part_map_ne (fun e' => e e'.symm), List.nil_append]
          · right
            refine ⟨x, y, k, ?_, ?_⟩
            · simp only [Joint.run, h2, h3, bind, Except.bind]
            · by_cases e : k = i
              · subst e
                rw [p1]
                simp only [if_true] at h4
                simp only [World.run, h1, h4, bind, Except.bind]
              · rw [p2 k e]
                simp only [e, if_false] at h4
                exact h4

theorem good_init [DecidableEq ι] : Good (Joint.init : Joint ι α) (fun _ => World.init) := by
  have t : ∀ {A B : Type} (R : A → B → Prop), TableRel R [] [] [] := fun R => ⟨by simp, rfl, by simp [At]⟩
  refine ⟨fun i => ⟨t _, t _, t _⟩, ?_, ?_, ?_, ?_⟩
  · intro i k _ K hK; simp [Joint.init, Names.nothing] at hK
  · intro i k _ K hK; simp [Joint.init, Names.nothing] at hK
  · intro i k _ K hK; simp [Joint.init, Names.nothing] at hK
  · intro K hK; simp [Joint.init, World.init] at hK

end Mimic.Parts
