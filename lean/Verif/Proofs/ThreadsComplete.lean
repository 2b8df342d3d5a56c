import Verif.Proofs.Threads

/-!
# Every operation can be made in small steps
-/

set_option autoImplicit false

namespace Mimic.Threads

variable {α : Type}

theorem alone_append {u u1 u2 : World α} {p p1 p2 : Phase} {as bs : List (Act α)} {l1 l2 : List Log}
    (h1 : alone u p as = .ok (u1, p1, l1)) (h2 : alone u1 p1 bs = .ok (u2, p2, l2)) :
    alone u p (as ++ bs) = .ok (u2, p2, l1 ++ l2) := by
  induction as generalizing u p l1 with
  | nil =>
    simp only [alone, Except.ok.injEq, Prod.mk.injEq] at h1
    obtain ⟨rfl, rfl, rfl⟩ := h1
    exact h2
  | cons a as ih =>
    cases h3 : step u p a with
    | error x => simp [alone, h3, bind, Except.bind] at h1
    | ok r =>
      obtain ⟨v, q, l⟩ := r
      cases h4 : alone v q as with
      | error x => simp [alone, h3, h4, bind, Except.bind] at h1
      | ok r =>
        obtain ⟨v', q', ls⟩ := r
        simp only [alone, h3, h4, bind, Except.bind, pure, Except.pure, Except.ok.injEq, Prod.mk.injEq] at h1
        obtain ⟨rfl, rfl, rfl⟩ := h1
        simp only [List.cons_append, alone, h3, ih h4, bind, Except.bind, pure, Except.pure]

/-- One operation, in steps. -/
theorem op_steps {u u' : World α} {op : Op α} {evs : List Event} (h : u.step op = .ok (u', evs)) :
    ∃ acts logs, acts.filterMap begins = [op] ∧ alone u .idle acts = .ok (u', .idle, logs) ∧ logs.flatMap Log.ev = evs := by
  cases op with
  | newSequence st =>
    refine ⟨[.newSequence st], [{ ev := evs, writes := [.seq u.seqs.length] }], rfl, ?_, by simp⟩
    simp only [alone, step, h, bind, Except.bind, pure, Except.pure]
  | newMock =>
    refine ⟨[.newMock], [{ ev := evs, writes := [.storage u.colls.length] }], rfl, ?_, by simp⟩
    simp only [alone, step, h, bind, Except.bind, pure, Except.pure]
  | dropSequence s =>
    refine ⟨[.dropSequence s], [{ ev := evs, writes := ended evs }], rfl, ?_, by simp⟩
    simp only [alone, step, h, bind, Except.bind, pure, Except.pure]
  | expect c min max tags ps =>
    simp only [World.step, World.expect] at h
    cases h1 : u.colls[c]? with
    | none => simp [h1] at h
    | some es =>
      simp only [h1] at h
      split at h
      · rename_i hc
        split at h
        · rename_i t ts h2 h3
          cases h4 : Control.make t ts u.seqs with
          | error x => simp [h4, bind, Except.bind] at h
          | ok x =>
            obtain ⟨s, c'⟩ := x
            simp only [h4, bind, Except.bind, pure, Except.pure] at h
            cases h5 : check (!es.contains u.exps.length) "push: assert(find == end)" with
            | error x => rw [h5] at h; simp at h
            | ok x =>
              rw [h5] at h
              simp only [Except.ok.injEq, Prod.mk.injEq] at h
              obtain ⟨rfl, rfl⟩ := h
              refine ⟨[.attach c min max tags ps, .push],
                [{ ev := [.created u.exps.length], writes := .exp u.exps.length :: ts.map .seq }, { writes := [.storage c], mutex := some c }],
                rfl, ?_, by simp⟩
              simp only [alone, step, h1, hc, if_true, h2, h3, h4, h5, bind, Except.bind, pure, Except.pure]
        · simp only [pure, Except.pure, Except.ok.injEq, Prod.mk.injEq] at h
          obtain ⟨rfl, rfl⟩ := h
          refine ⟨[.attach c min max tags ps], [{ ev := [.rejected] }], rfl, ?_, by simp⟩
          simp only [alone, step, h1, hc, if_true, bind, Except.bind, pure, Except.pure]
      · cases h
  | call c a =>
    simp only [World.step, World.handleCall] at h
    cases h1 : u.colls[c]? with
    | none => simp [h1, bind, Except.bind] at h
    | some es =>
      simp only [h1] at h
      cases h2 : scan u a es.reverse with
      | error x => simp [h2, bind, Except.bind] at h
      | ok q =>
        simp only [h2, bind, Except.bind, pure, Except.pure] at h
        by_cases hf : (!q.full.isEmpty) = true
        · simp only [hf, if_true] at h
          cases h3 : pickBestMatch q.full with
          | error x => simp [h3] at h
          | ok best =>
            simp only [h3] at h
            cases h4 : u.consume best.exp with
            | error x => simp [h4] at h
            | ok v =>
              simp only [h4, Except.ok.injEq, Prod.mk.injEq] at h
              obtain ⟨rfl, rfl⟩ := h
              cases h5 : u.deref best.exp with
              | error x => simp [World.consume, h5, bind, Except.bind] at h4
              | ok x =>
                refine ⟨[.scan c a, .report, .consume],
                  [{ ev := q.thrown.map Event.unhandled, reads := .storage c :: es.map .exp ++ seqsOf u es, mutex := some c },
                    { ev := [.fullMatch best.exp] }, { reads := .exp best.exp :: x.seqLocs, writes := .exp best.exp :: x.seqLocs }],
                  rfl, ?_, by simp⟩
                simp only [alone, step, h1, h2, hf, if_true, h3, h4, h5, bind, Except.bind, pure, Except.pure]
        · simp only [hf] at h
          by_cases hg : (!q.inapplicable.isEmpty) = true
          · simp only [hg, if_true, Except.ok.injEq] at h
            simp only [Bool.false_eq_true, if_false, Except.ok.injEq, Prod.mk.injEq] at h
            obtain ⟨rfl, rfl⟩ := h
            refine ⟨[.scan c a],
              [{ ev := q.thrown.map Event.unhandled ++ [.inapplicable (q.inapplicable.map (·.exp))],
                 reads := .storage c :: es.map .exp ++ seqsOf u es, mutex := some c }], rfl, ?_, by simp⟩
            simp only [alone, step, h1, h2, hf, hg, if_true, bind, Except.bind, pure, Except.pure]
            rfl
          · simp only [hg] at h
            simp only [Bool.false_eq_true, if_false, Except.ok.injEq, Prod.mk.injEq] at h
            obtain ⟨rfl, rfl⟩ := h
            refine ⟨[.scan c a],
              [{ ev := q.thrown.map Event.unhandled ++ [.noMatch (q.none.map (·.exp))],
                 reads := .storage c :: es.map .exp ++ seqsOf u es, mutex := some c }], rfl, ?_, by simp⟩
            simp only [alone, step, h1, h2, hf, hg, bind, Except.bind, pure, Except.pure]
            rfl
  | destroy e =>
    simp only [World.step, World.destroyExp] at h
    cases h1 : u.exps[e]? with
    | none => simp [h1] at h
    | some x =>
      simp only [h1] at h
      split at h
      · cases h
      · rename_i ha
        cases h2 : u.colls[x.coll]? with
        | none => simp [h2] at h
        | some es =>
          simp only [h2, bind, Except.bind, pure, Except.pure] at h
          cases h3 : check (es.contains e) "remove: assert(iter != end)" with
          | error x => rw [h3] at h; cases h
          | ok y =>
            rw [h3] at h
            simp only at h
            cases h4 : World.releaseAll { u with colls := u.colls.set x.coll (es.erase e), exps := u.exps.set e { x with alive := false } }
                (x.control.entries.map (·.1)) with
            | error z => rw [h4] at h; cases h
            | ok z =>
              rw [h4] at h
              simp only [Except.ok.injEq, Prod.mk.injEq] at h
              obtain ⟨rfl, rfl⟩ := h
              refine ⟨[.remove e, .release],
                [{ ev := .destroyed e :: (if x.isSatisfied then [] else [.unfulfilled e]),
                   reads := .exp e :: (if x.isSatisfied then [] else x.seqLocs), writes := [.storage x.coll], mutex := some x.coll },
                  { ev := z.2, writes := .exp e :: ended z.2 }], rfl, ?_, by simp⟩
              simp only [alone, step, h1, h2, h3, ha, Bool.false_eq_true, if_false, h4, bind, Except.bind, pure, Except.pure]

/-- A program, in steps. -/
theorem program_steps {ops : List (Op α)} {u u' : World α} {evs : List Event} (h : u.run ops = .ok (u', evs)) :
    ∃ acts logs, acts.filterMap begins = ops ∧ alone u .idle acts = .ok (u', .idle, logs) ∧ logs.flatMap Log.ev = evs := by
  induction ops generalizing u evs with
  | nil =>
    simp only [World.run, Except.ok.injEq, Prod.mk.injEq] at h
    obtain ⟨rfl, rfl⟩ := h
    exact ⟨[], [], rfl, rfl, rfl⟩
  | cons op ops ih =>
    cases h1 : u.step op with
    | error x => simp [World.run, h1, bind, Except.bind] at h
    | ok r =>
      obtain ⟨v, ev⟩ := r
      cases h2 : v.run ops with
      | error x => simp [World.run, h1, h2, bind, Except.bind] at h
      | ok r =>
        obtain ⟨v', ev'⟩ := r
        simp only [World.run, h1, h2, bind, Except.bind, pure, Except.pure, Except.ok.injEq, Prod.mk.injEq] at h
        obtain ⟨rfl, rfl⟩ := h
        obtain ⟨as, ls, h3, h4, h5⟩ := op_steps h1
        obtain ⟨bs, ms, h6, h7, h8⟩ := ih h2
        exact ⟨as ++ bs, ls ++ ms, by simp [h3, h6], alone_append h4 h7, by simp [h5, h8]⟩

theorem alone_prefix {u : World α} {p : Phase} {as bs : List (Act α)} (h : ∃ r, alone u p (as ++ bs) = .ok r) : ∃ r, alone u p as = .ok r := by
  induction as generalizing u p with
  | nil => exact ⟨_, rfl⟩
  | cons a as ih =>
    obtain ⟨r, h⟩ := h
    cases h1 : step u p a with
    | error x => simp [alone, h1, bind, Except.bind] at h
    | ok q =>
      obtain ⟨v, p', l⟩ := q
      cases h2 : alone v p' (as ++ bs) with
      | error x => simp [alone, h1, h2, bind, Except.bind] at h
      | ok q =>
        obtain ⟨q', h3⟩ := ih ⟨_, h2⟩
        refine ⟨(q'.1, q'.2.1, l :: q'.2.2), ?_⟩
        simp only [alone, h1, h3, bind, Except.bind, pure, Except.pure]

end Mimic.Threads
