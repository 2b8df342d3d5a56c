import Verif.Proofs.PartsJoint
import Verif.Spec.Again
import Verif.Proofs.SpecRun
import Verif.Proofs.Demo

set_option autoImplicit false

namespace Mimic.Again

open Mimic.Parts

variable {α : Type}

/-- Expectations that are not those of the part are attached to older sequences only. -/
structure Older (n : Nat) (N : Names) (w : World α) : Prop where
  exps : ∀ (K : Nat) (X : Exp α), w.exps[K]? = some X → K ∉ N.exps → ∀ en ∈ X.control.entries, en.1 < n
  seqs : ∀ S ∈ N.seqs, n ≤ S
  le : n ≤ w.seqs.length

theorem Older.alone {n : Nat} {N : Names} {w : World α} (h : Older n N w) : Alone N w := by
  intro K X hX hK en hen hm
  have h1 := h.exps K X hX hK en hen
  have h2 := h.seqs _ hm
  omega

theorem Older.grows {n : Nat} {N N' : Names} {w w' : World α} (h : Older n N w) (hg : Grows N N' w w') : Older n N' w' := by
  refine ⟨fun K X hX hK => ?_, fun S hS => ?_, Nat.le_trans h.le hg.seqs.length⟩
  · have hK' : K ∉ N.exps := fun hm => hK (hg.exps.keep K hm)
    have hlt : K < w.exps.length := by
      refine Nat.lt_of_not_le fun hle => hK (hg.exps.cover K hle ?_)
      exact (List.getElem?_eq_some_iff.mp hX).1
    rw [hg.exps.old K hK' hlt] at hX
    exact h.exps K X hX hK'
  · rcases hg.seqs.new S hS with h1 | h1
    · exact h.seqs S h1
    · have := h.le
      omega

theorem events_eq {N : Names} {v w : World α} (h : Within N v w) {l L : List Event} (hl : All2 (EventRel N) l L) : l = L.map N.event := by
  induction hl with
  | nil => rfl
  | cons hr _ ih => rw [List.map_cons, ← ih, hr.event h.seqs.nodup h.exps.nodup h.colls.nodup]

theorem _root_.Mimic.Parts.At.more_list {l : List Nat} {k K : Nat} (h : At l k K) (t : List Nat) : At (l ++ t) k K := by
  unfold At at h ⊢
  rw [List.getElem?_append_left (List.getElem?_eq_some_iff.mp h).1, h]

theorem learn_mocks (L : List Event) (N : Names) : N.mocks <+: (L.foldl Names.learn N).mocks := by
  induction L generalizing N with
  | nil => exact List.prefix_rfl
  | cons e L ih =>
    refine List.IsPrefix.trans ?_ (ih _)
    cases e <;> simp [Names.learn]

/-- The part, alone and when it goes on in another world. -/
theorem goOn_like {n : Nat} (ops : List (Op α)) : ∀ {N : Names} {v w : World α}, Within N v w → Older n N w →
    (∃ v' w' log N', v.run ops = .ok (v', log) ∧ goOn N w ops = .ok (w', log) ∧ Within N' v' w' ∧ Older n N' w' ∧ N.mocks <+: N'.mocks) ∨
    (∃ x y, v.run ops = .error x ∧ goOn N w ops = .error y) := by
  induction ops with
  | nil => intro N v w h ho; exact .inl ⟨v, w, [], N, rfl, rfl, h, ho, List.prefix_rfl⟩
  | cons op ops ih =>
    intro N v w h ho
    have hs := step_next h ho.alone op
    unfold goOn
    rcases hop : N.op op with _ | op'
    · rw [hop] at hs
      obtain ⟨x, hx⟩ := hs
      exact .inr ⟨x, _, by simp only [World.run, hx, bind, Except.bind], rfl⟩
    · rw [hop] at hs
      simp only at hs ⊢
      cases h1 : v.step op with
      | error x =>
        rw [h1] at hs
        cases h2 : w.step op' with
        | error y => exact .inr ⟨x, y, by simp only [World.run, h1, bind, Except.bind], rfl⟩
        | ok y => rw [h2] at hs; cases hs
      | ok r =>
        rw [h1] at hs
        cases h2 : w.step op' with
        | error y => rw [h2] at hs; cases hs
        | ok R =>
          rw [h2] at hs
          cases hs with
          | ok hn =>
            obtain ⟨w1, Ev⟩ := R
            obtain ⟨v1, ev⟩ := r
            have hw := hn.within
            have hg := hn.grows
            have he := hn.events
            simp only at hw hg he ⊢
            have hev := events_eq hw he
            rcases ih hw (ho.grows hg) with ⟨v', w', log, N', h3, h4, h5, h6, h7⟩ | ⟨x, y, h3, h4⟩
            · refine .inl ⟨v', w', ev ++ log, N', ?_, ?_, h5, h6, (learn_mocks Ev N).trans h7⟩
              · simp only [World.run, h1, h3, bind, Except.bind, pure, Except.pure]
              · rw [h4, hev]
            · refine .inr ⟨x, y, ?_, ?_⟩
              · simp only [World.run, h1, h3, bind, Except.bind]
              · rw [h4]

/-- A world with mocks only. -/
def mocksOnly (k : Nat) : World α := { (World.init : World α) with colls := List.replicate k [] }

theorem run_mocks (k : Nat) : ∀ (n : Nat), (mocksOnly n : World α).run (List.replicate k .newMock) =
    .ok (mocksOnly (n + k), (List.range' n k).map .mockCreated) := by
  induction k with
  | zero => intro n; rfl
  | succ k ih =>
    intro n
    have h1 : (mocksOnly n : World α).step .newMock = .ok (mocksOnly (n + 1), [.mockCreated n]) := by
      simp [World.step, mocksOnly, List.replicate_succ']
    rw [List.replicate_succ, World.run, h1]
    simp only [bind, Except.bind, ih (n + 1), pure, Except.pure]
    rw [List.range'_succ]
    simp [Nat.add_assoc, Nat.add_comm 1 k]

theorem run_append (w : World α) (a b : List (Op α)) : w.run (a ++ b) =
    match w.run a with
    | .error x => .error x
    | .ok (w', ev) =>
      match w'.run b with
      | .error x => .error x
      | .ok (w'', ev') => .ok (w'', ev ++ ev') := by
  induction a generalizing w with
  | nil =>
    simp only [List.nil_append, World.run]
    cases w.run b <;> rfl
  | cons op a ih =>
    simp only [List.cons_append, World.run, bind, Except.bind]
    cases w.step op with
    | error x => rfl
    | ok r =>
      simp only
      rw [ih r.1]
      cases r.1.run a with
      | error x => rfl
      | ok s =>
        simp only [pure, Except.pure]
        cases s.1.run b with
        | error x => rfl
        | ok t => simp

theorem runProgram_alone (k : Nat) (ops : List (Op α)) : runProgram (alone k ops) =
    match (mocksOnly k : World α).run ops with
    | .error x => .error x
    | .ok (v, log) => .ok (v, creations k ++ log) := by
  have h := run_mocks (α := α) k 0
  have h0 : (mocksOnly 0 : World α) = World.init := rfl
  rw [h0, Nat.zero_add, ← List.range_eq_range'] at h
  rw [runProgram, alone, run_append, h]
  rfl

theorem within_bare {ms : List Nat} {w : World α} (hn : ms.Nodup) (hm : ∀ M ∈ ms, w.colls[M]? = some []) :
    Within ⟨[], [], ms⟩ (mocksOnly ms.length) w := by
  have t : ∀ {A B : Type} (R : A → B → Prop) (H : List B), TableRel R [] [] H := fun R H => ⟨by simp, rfl, by simp [At]⟩
  refine ⟨t _ _, t _ _, hn, by simp [mocksOnly], fun k K hk => ⟨[], [], ?_, hm K hk.mem, .nil⟩⟩
  have := (List.getElem?_eq_some_iff.mp hk).1
  simp [mocksOnly, this]

theorem older_all {w : World α} (h : ∀ (K : Nat) (X : Exp α), w.exps[K]? = some X → ∀ en ∈ X.control.entries, en.1 < w.seqs.length) (ms : List Nat) :
    Older w.seqs.length ⟨[], [], ms⟩ w :=
  ⟨fun K X hX _ => h K X hX, fun S hS => (by cases hS), Nat.le_refl _⟩

theorem entries_lt {tr : Trace α} {w : World α} (h : Reach tr w) (K : Nat) (X : Exp α) (hX : w.exps[K]? = some X) :
    ∀ en ∈ X.control.entries, en.1 < w.seqs.length := by
  intro en hen
  have hm : absExp K X ∈ (abs w).exps := (abs_mem_iff w _).mpr ⟨X, hX, rfl⟩
  exact h.view.1.seq_lt _ hm en.1 (by simpa [absExp] using ⟨en.2, hen⟩)

theorem bare_coll {tr : Trace α} {w : World α} (h : Reach tr w) {m : Nat} (hb : Bare tr m) : w.colls[m]? = some [] := by
  obtain ⟨hi, hv⟩ := h.view
  have hlt : m < w.colls.length := by simpa [abs] using (hv.mocks m).mp hb.1
  have hc := hi.colls m w.colls[m] (List.getElem?_eq_getElem hlt)
  rw [List.getElem?_eq_getElem hlt, hc]
  congr 1
  rw [List.map_eq_nil_iff, List.filter_eq_nil_iff]
  intro x hx
  obtain ⟨X, hX, hxe⟩ := (abs_mem_iff w x).mp hx
  have hd := hv.exps x.id
  rw [abs_getElem?, hX] at hd
  cases hdd : tr.decl x.id with
  | none => rw [hdd] at hd; cases hd
  | some d =>
    rw [hdd] at hd
    simp only [Option.map_some, Option.some.injEq] at hd
    rw [← hxe] at hd
    rw [hd]
    simp only [viewExp, Bool.and_eq_true, decide_eq_true_eq, beq_iff_eq, not_and]
    intro ha hm
    exact ha (hb.2 x.id d hdd hm)

theorem coll_bare {tr : Trace α} {w : World α} (h : Reach tr w) {m : Nat} (hc : w.colls[m]? = some []) : Bare tr m := by
  obtain ⟨hi, hv⟩ := h.view
  have hlt := (List.getElem?_eq_some_iff.mp hc).1
  refine ⟨(hv.mocks m).mpr (by simpa [abs] using hlt), fun e d hd hm => Classical.byContradiction fun hn => ?_⟩
  have hl := hi.colls m [] hc
  have he := hv.exps e
  rw [hd] at he
  have hmem : viewExp tr e d ∈ (abs w).exps := List.mem_iff_getElem?.mpr ⟨e, he⟩
  have hf : viewExp tr e d ∈ (abs w).exps.filter (fun x => x.alive && x.mock == m) := by
    rw [List.mem_filter]
    exact ⟨hmem, by simp [viewExp, hn, hm]⟩
  rw [eq_comm, List.map_eq_nil_iff] at hl
  rw [hl] at hf
  cases hf

theorem decl_created {tr : Trace α} {e : Nat} {d : Decl α} (h : tr.decl e = some d) : Event.created e ∈ tr.events := by
  unfold Trace.decl at h
  obtain ⟨st, hst, hx⟩ := List.exists_of_findSome?_eq_some h
  refine List.mem_flatMap.mpr ⟨st, hst, ?_⟩
  split at hx
  · split at hx
    · assumption
    · cases hx
  · cases hx

theorem tidy_coll {k m : Nat} {ops : List (Op α)} {v : World α} {log : List Event}
    (h : runProgram (alone k ops) = .ok (v, creations k ++ log)) (ht : Tidy log) {es : List Nat} (hc : v.colls[m]? = some es) : es = [] := by
  obtain ⟨tr, hr, _, hev⟩ := (runProgram_iff _ _ _).mp h
  have hb : Bare tr m := by
    refine ⟨?_, fun e d hd _ => ?_⟩
    · have hlt := (List.getElem?_eq_some_iff.mp hc).1
      exact (hr.view.2.mocks m).mpr (by simpa [abs] using hlt)
    · have hc := decl_created hd
      rw [hev, List.mem_append] at hc ⊢
      rcases hc with hc | hc
      · simp [creations] at hc
      · exact .inr (ht e hc)
  have := bare_coll hr hb
  rw [hc] at this
  simpa using this

theorem goOn_reach (ops : List (Op α)) : ∀ {N : Names} {tr : Trace α} {w w' : World α} {log : List Event}, Reach tr w →
    goOn N w ops = .ok (w', log) → ∃ tr', Reach (tr ++ tr') w' := by
  induction ops with
  | nil =>
    intro N tr w w' log h hg
    simp only [goOn, Except.ok.injEq, Prod.mk.injEq] at hg
    exact ⟨[], by rw [List.append_nil, ← hg.1]; exact h⟩
  | cons op ops ih =>
    intro N tr w w' log h hg
    unfold goOn at hg
    cases hop : N.op op with
    | none => rw [hop] at hg; cases hg
    | some op' =>
      rw [hop] at hg
      simp only at hg
      cases hs : w.step op' with
      | error x => rw [hs] at hg; cases hg
      | ok R =>
        obtain ⟨w1, ev⟩ := R
        rw [hs] at hg
        simp only at hg
        cases hg' : goOn (ev.foldl Names.learn N) w1 ops with
        | error x => rw [hg'] at hg; cases hg
        | ok S =>
          obtain ⟨w2, log'⟩ := S
          rw [hg'] at hg
          simp only [Except.ok.injEq, Prod.mk.injEq] at hg
          obtain ⟨tr', h'⟩ := ih (h.step hs) hg'
          exact ⟨(op', ev) :: tr', by rw [← hg.1]; simpa using h'⟩

end Mimic.Again
