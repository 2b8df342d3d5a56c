import Verif.Proofs.NestedRuns

/-!
# Lemmas about matchers that call mocks, without any assumption about what they call
-/

set_option autoImplicit false

namespace Mimic.Nested

variable {α : Type}

/-! ## What calls never change -/

/-- Whose expectations there are, and whether they live. -/
def fixed (w : World (Seen α)) (e : Nat) : Option (Nat × Bool) := (w.exps[e]?).map (fun x => (x.coll, x.alive))

/-- Calls of mocks with property `P`. -/
def Calls (P : Nat → Prop) (tr : Trace (Seen α)) : Prop :=
  ∀ st ∈ tr, (∃ m c, st.1 = .call m c ∧ P m) ∧ ∀ e, Event.created e ∉ st.2 ∧ Event.destroyed e ∉ st.2

/-- What is left alone by calls. -/
structure Same (s s' : Store α) : Prop where
  asks : s'.asks = s.asks
  colls : s'.w.colls = s.w.colls
  exps : ∀ e, fixed s'.w e = fixed s.w e

theorem Same.refl (s : Store α) : Same s s := ⟨rfl, rfl, fun _ => rfl⟩

theorem Same.trans {s s' s'' : Store α} (h : Same s s') (h' : Same s' s'') : Same s s'' :=
  ⟨h'.asks.trans h.asks, h'.colls.trans h.colls, fun e => (h'.exps e).trans (h.exps e)⟩

theorem Same.matchers {s s' : Store α} (h : Same s s') : s'.matchers = s.matchers := by
  funext e
  simp [Store.matchers, h.asks]

theorem Calls.nil {P : Nat → Prop} : Calls P ([] : Trace (Seen α)) := by simp [Calls]

theorem Calls.append {P : Nat → Prop} {tr tr' : Trace (Seen α)} (h : Calls P tr) (h' : Calls P tr') : Calls P (tr ++ tr') := by
  intro st hst
  rcases List.mem_append.mp hst with hst | hst
  · exact h st hst
  · exact h' st hst

theorem Calls.mono {P Q : Nat → Prop} {tr : Trace (Seen α)} (h : Calls P tr) (hpq : ∀ m, P m → Q m) : Calls Q tr := by
  intro st hst
  obtain ⟨⟨m, c, h1, h2⟩, h3⟩ := h st hst
  exact ⟨⟨m, c, h1, hpq m h2⟩, h3⟩

def Keeps (P : Nat → Prop) (rec : Rec α) : Prop :=
  ∀ s m a s' new r, rec s m a = .ok (s', new, r) → Same s s' ∧ Calls P new

theorem ask_keeps {P : Nat → Prop} {rec : Rec α} (hrec : Keeps P rec) {p : Ask α} {s s' : Store α} {new : Trace (Seen α)}
    {b : Option Bool} (h : ask rec s p = .ok (s', new, b)) : Same s s' ∧ Calls P new := by
  induction p generalizing s s' new b with
  | answer b =>
    simp only [ask, Except.ok.injEq, Prod.mk.injEq] at h
    obtain ⟨rfl, rfl, rfl⟩ := h
    exact ⟨.refl _, .nil⟩
  | throws =>
    simp only [ask, Except.ok.injEq, Prod.mk.injEq] at h
    obtain ⟨rfl, rfl, rfl⟩ := h
    exact ⟨.refl _, .nil⟩
  | call m a next ih =>
    simp only [ask] at h
    split at h
    · simp at h
    · rename_i hr
      split at h
      · simp at h
      · rename_i hk
        simp only [Except.ok.injEq, Prod.mk.injEq] at h
        obtain ⟨rfl, rfl, rfl⟩ := h
        obtain ⟨h1, h2⟩ := hrec _ _ _ _ _ _ hr
        obtain ⟨k1, k2⟩ := ih _ hk
        exact ⟨h1.trans k1, h2.append k2⟩

theorem askAll_keeps {P : Nat → Prop} {rec : Rec α} (hrec : Keeps P rec) {a : α} {ps : List (α → Ask α)} {s s' : Store α}
    {new : Trace (Seen α)} {b : Option Bool} (h : askAll rec a s ps = .ok (s', new, b)) : Same s s' ∧ Calls P new := by
  induction ps generalizing s s' new b with
  | nil =>
    simp only [askAll, Except.ok.injEq, Prod.mk.injEq] at h
    obtain ⟨rfl, rfl, rfl⟩ := h
    exact ⟨.refl _, .nil⟩
  | cons p ps ih =>
    simp only [askAll] at h
    split at h
    · simp at h
    · rename_i hr
      simp only [Except.ok.injEq, Prod.mk.injEq] at h
      obtain ⟨rfl, rfl, rfl⟩ := h
      exact ask_keeps hrec hr
    · rename_i hr
      split at h
      · simp at h
      · rename_i hk
        simp only [Except.ok.injEq, Prod.mk.injEq] at h
        obtain ⟨rfl, rfl, rfl⟩ := h
        obtain ⟨h1, h2⟩ := ask_keeps hrec hr
        obtain ⟨k1, k2⟩ := ih hk
        exact ⟨h1.trans k1, h2.append k2⟩

theorem scan_keeps {P : Nat → Prop} {rec : Rec α} (hrec : Keeps P rec) {a : α} {es : List Nat} {s s' : Store α}
    {new : Trace (Seen α)} {r : Scan} {ans : List (Nat × Option Bool)} (h : scan rec a s es = .ok (s', new, r, ans)) :
    Same s s' ∧ Calls P new := by
  induction es generalizing s s' new r ans with
  | nil =>
    simp only [scan, Except.ok.injEq, Prod.mk.injEq] at h
    obtain ⟨rfl, rfl, _⟩ := h
    exact ⟨.refl _, .nil⟩
  | cons e es ih =>
    simp only [scan] at h
    split at h
    · simp at h
    · split at h
      · simp at h
      · split at h
        · simp at h
        · rename_i hr
          obtain ⟨h1, h2⟩ := askAll_keeps hrec hr
          split at h
          · simp at h
          · rename_i hk
            obtain ⟨k1, k2⟩ := ih hk
            split at h
            · simp only [Except.ok.injEq, Prod.mk.injEq] at h
              obtain ⟨rfl, rfl, _⟩ := h
              exact ⟨h1.trans k1, h2.append k2⟩
            · split at h <;>
              · simp only [Except.ok.injEq, Prod.mk.injEq] at h
                obtain ⟨rfl, rfl, _⟩ := h
                exact ⟨h1.trans k1, h2.append k2⟩

theorem consume_keeps {w w' : World (Seen α)} {e : Nat} (h : w.consume e = .ok w') :
    w'.colls = w.colls ∧ ∀ e', fixed w' e' = fixed w e' := by
  unfold World.consume at h
  simp only [bind, Except.bind] at h
  split at h
  · simp at h
  · rename_i x hx
    split at h
    · simp at h
    · simp only [pure, Except.pure, Except.ok.injEq] at h
      subst h
      refine ⟨rfl, fun e' => ?_⟩
      unfold World.deref at hx
      split at hx
      · rename_i y hy
        split at hx
        · simp only [Except.ok.injEq] at hx
          subst hx
          simp only [fixed, List.getElem?_set]
          by_cases he : e = e'
          · subst he
            have hlt := (List.getElem?_eq_some_iff.mp hy).1
            rw [hy, if_pos rfl, if_pos hlt]
            rfl
          · simp [he]
        · simp at hx
      · simp at hx

/-- What a call does, whatever the matchers do. -/
theorem call_keeps (fuel : Nat) (held : List Nat) : Keeps (fun k => k ∉ held) (call fuel held : Rec α) := by
  induction fuel generalizing held with
  | zero => intro s m a s' new r h; simp [call] at h
  | succ fuel ih =>
    intro s m a s' new r h
    simp only [call] at h
    split at h
    · simp at h
    · rename_i es hes
      split at h
      · simp at h
      · rename_i hm
        have hm : m ∉ held := by simpa using hm
        split at h
        · simp at h
        · rename_i hk
          obtain ⟨k1, k2⟩ := scan_keeps (ih (m :: held)) hk
          have k3 := k2.mono (Q := fun k => k ∉ held) (fun k hk => by simp only [List.mem_cons, not_or] at hk; exact hk.2)
          split at h
          · split at h
            · simp at h
            · split at h
              · simp at h
              · rename_i hc
                simp only [Except.ok.injEq, Prod.mk.injEq] at h
                obtain ⟨rfl, rfl, _⟩ := h
                obtain ⟨c1, c2⟩ := consume_keeps hc
                refine ⟨k1.trans ⟨rfl, c1, c2⟩, k3.append ?_⟩
                intro st hst
                simp only [List.mem_singleton] at hst
                subst hst
                exact ⟨⟨m, _, rfl, hm⟩, by simp⟩
          · split at h <;>
            · simp only [Except.ok.injEq, Prod.mk.injEq] at h
              obtain ⟨rfl, rfl, _⟩ := h
              refine ⟨k1, k3.append ?_⟩
              intro st hst
              simp only [List.mem_singleton] at hst
              subst hst
              exact ⟨⟨m, _, rfl, hm⟩, by simp⟩

/-- The calls made meanwhile are not calls of the same mock. -/
theorem call_back {fuel : Nat} {held : List Nat} {s s' : Store α} {m : Nat} {a : α} {new : Trace (Seen α)} {r : Option Nat}
    (h : call fuel held s m a = .ok (s', new, r)) :
    ∃ before f ev, new = before ++ [(.call m (a, f), ev)] ∧ Calls (fun k => k ≠ m) before ∧ r = resolver ev := by
  cases fuel with
  | zero => simp [call] at h
  | succ fuel =>
    simp only [call] at h
    split at h
    · simp at h
    · split at h
      · simp at h
      · split at h
        · simp at h
        · rename_i hk
          obtain ⟨k1, k2⟩ := scan_keeps (call_keeps fuel (m :: held)) hk
          have k3 := k2.mono (Q := fun k => k ≠ m) (fun k hk => by simp only [List.mem_cons, not_or] at hk; exact hk.1)
          split at h
          · split at h
            · simp at h
            · split at h
              · simp at h
              · simp only [Except.ok.injEq, Prod.mk.injEq] at h
                obtain ⟨rfl, rfl, rfl⟩ := h
                exact ⟨_, _, _, rfl, k3, by rw [resolver_append]; rfl⟩
          · split at h <;>
            · simp only [Except.ok.injEq, Prod.mk.injEq] at h
              obtain ⟨rfl, rfl, rfl⟩ := h
              exact ⟨_, _, _, rfl, k3, by rw [resolver_append]; rfl⟩

/-! ## The depth of nesting -/

theorem pigeon {n : Nat} {l : List Nat} (hn : l.Nodup) (hl : ∀ k ∈ l, k < n) : l.length ≤ n := by
  induction n generalizing l with
  | zero =>
    cases l with
    | nil => simp
    | cons k l => exact absurd (hl k (by simp)) (by omega)
  | succ n ih =>
    have h1 := ih (l := l.erase n) (hn.erase n) (by
      intro k hk
      have h2 := (hn.mem_erase_iff).mp hk
      have h3 := hl k h2.2
      have h4 := h2.1
      omega)
    have h2 : l.length ≤ (l.erase n).length + 1 := by
      rw [List.length_erase]
      split <;> omega
    omega

def tooDeep : Stop := .client "nested deeper than there are mocks"

/-- Nested calls do not run out of depth. -/
def Shallow (n : Nat) (rec : Rec α) : Prop := ∀ s m a, s.w.colls.length = n → rec s m a ≠ .error tooDeep

theorem ask_shallow {n : Nat} {P : Nat → Prop} {rec : Rec α} (hrec : Shallow n rec) (hk : Keeps P rec) {p : Ask α} {s : Store α}
    (hs : s.w.colls.length = n) : ask rec s p ≠ .error tooDeep := by
  induction p generalizing s with
  | answer b => simp [ask]
  | throws => simp [ask]
  | call m a next ih =>
    intro h
    simp only [ask] at h
    split at h
    · rename_i hr
      simp only [Except.error.injEq] at h
      subst h
      exact hrec s m a hs hr
    · rename_i hr
      split at h
      · rename_i hq
        simp only [Except.error.injEq] at h
        subst h
        exact ih _ (by rw [(hk _ _ _ _ _ _ hr).1.colls, hs]) hq
      · simp at h

theorem askAll_shallow {n : Nat} {P : Nat → Prop} {rec : Rec α} (hrec : Shallow n rec) (hk : Keeps P rec) {a : α}
    {ps : List (α → Ask α)} {s : Store α} (hs : s.w.colls.length = n) : askAll rec a s ps ≠ .error tooDeep := by
  induction ps generalizing s with
  | nil => simp [askAll]
  | cons p ps ih =>
    intro h
    simp only [askAll] at h
    split at h
    · rename_i hr
      simp only [Except.error.injEq] at h
      subst h
      exact ask_shallow hrec hk hs hr
    · simp at h
    · rename_i hr
      split at h
      · rename_i hq
        simp only [Except.error.injEq] at h
        subst h
        exact ih (by rw [(ask_keeps hk hr).1.colls, hs]) hq
      · simp at h

/-- The client is not to blame. -/
def NC {β : Type} (x : M β) : Prop := ∀ why, x ≠ .error (.client why)

theorem NC.ok {β : Type} (b : β) : NC (.ok b : M β) := by simp [NC]

theorem NC.ub {β : Type} (why : String) : NC (.error (.ub why) : M β) := by simp [NC]

theorem NC.bind {β γ : Type} {x : M β} {f : β → M γ} (h : NC x) (hf : ∀ b, NC (f b)) : NC (x >>= f) := by
  intro why hx
  cases x with
  | error e =>
    simp only [Bind.bind, Except.bind, Except.error.injEq] at hx
    subst hx
    exact h why rfl
  | ok b => exact hf b why hx

theorem NC.ite {β : Type} {p : Prop} [Decidable p] {x y : M β} (hx : NC x) (hy : NC y) : NC (if p then x else y) := by
  split <;> assumption

theorem nc_check (b : Bool) (why : String) : NC (check b why) := .ite (.ok _) (.ub _)

theorem nc_toInt (x : Int) : NC (toInt x) := .ite (.ok _) (.ub _)

theorem nc_entry (q : Sequence) (i : Int) : NC (q.entry i) := by
  unfold Sequence.entry
  split
  · exact .ub _
  · split
    · exact .ok _
    · exact .ub _

theorem nc_setEntry (q : Sequence) (i : Int) (st : EState) : NC (q.setEntry i st) := .ite (.ok _) (.ub _)

theorem nc_isConsumable (q : Sequence) (i : Int) : NC (q.isConsumable i) :=
  .bind (nc_check _ _) fun _ => .bind (nc_entry _ _) fun _ => .ite (.bind (nc_check _ _) fun _ => .ok _) (.ok _)

theorem nc_priority (st : Strategy) (i c : Int) : NC (st.priority i c) :=
  .bind (nc_check _ _) fun _ => .bind (nc_toInt _) fun _ => by
    cases st
    · exact nc_toInt _
    · exact .ok _

theorem nc_priorityOf (q : Sequence) (i : Int) : NC (q.priorityOf i) :=
  .bind (nc_check _ _) fun _ => .bind (nc_isConsumable _ _) fun _ => .ite (.bind (nc_priority _ _ _) fun _ => .ok _) (.ok _)

theorem nc_setSatisfied (q : Sequence) (i : Int) : NC (q.setSatisfied i) :=
  .bind (nc_check _ _) fun _ => .bind (nc_check _ _) fun _ => .bind (nc_entry _ _) fun _ => .bind (nc_check _ _) fun _ => nc_setEntry _ _ _

theorem nc_setSaturated (q : Sequence) (i : Int) : NC (q.setSaturated i) :=
  .bind (nc_check _ _) fun _ => .bind (nc_check _ _) fun _ => .bind (nc_entry _ _) fun _ => .bind (nc_check _ _) fun _ => nc_setEntry _ _ _

theorem nc_consumeEntry (q : Sequence) (i : Int) : NC (q.consume i) :=
  .bind (nc_isConsumable _ _) fun _ => .bind (nc_check _ _) fun _ => .ok _

theorem nc_derefSeq (h : Seqs) (q : Nat) : NC (h.deref q) := by
  unfold Seqs.deref
  split
  · split
    · exact .ok _
    · exact .ub _
  · exact .ub _

theorem nc_forEntries {f : Sequence → Int → M Sequence} (hf : ∀ q i, NC (f q i)) (l : List (Nat × Int)) (h : Seqs) :
    NC (forEntries f l h) := by
  induction l generalizing h with
  | nil => exact .ok _
  | cons en l ih => exact .bind (.bind (nc_derefSeq _ _) fun _ => .bind (hf _ _) fun _ => .ok _) fun _ => ih _

theorem nc_allConsumable (h : Seqs) (l : List (Nat × Int)) : NC (allConsumable h l) := by
  induction l with
  | nil => exact .ok _
  | cons en l ih => exact .bind (nc_derefSeq _ _) fun _ => .bind (nc_isConsumable _ _) fun _ => .ite ih (.ok _)

theorem nc_collectRatings (h : Seqs) (l : List (Nat × Int)) : NC (collectRatings h l) := by
  induction l with
  | nil => exact .ok _
  | cons en l ih =>
    refine .bind (nc_derefSeq _ _) fun _ => .bind (nc_priorityOf _ _) fun p => ?_
    cases p <;> exact .bind ih fun _ => .ok _

theorem nc_derefTags (h : Seqs) (l : List (Nat × Int)) : NC (derefTags h l) := by
  induction l with
  | nil => exact .ok _
  | cons en l ih => exact .bind (nc_derefSeq _ _) fun _ => .bind ih fun _ => .ok _

theorem nc_isApplicable (c : Control) (h : Seqs) : NC (c.isApplicable h) := .ite (nc_allConsumable _ _) (.ok _)

theorem nc_update (c : Control) (h : Seqs) : NC (c.updateSequenceStates h) :=
  .ite (nc_forEntries nc_setSatisfied _ _) (.ite (nc_forEntries nc_setSaturated _ _) (.ok _))

theorem nc_deref (w : World (Seen α)) (e : Nat) : NC (w.deref e) := by
  unfold World.deref
  split
  · split
    · exact .ok _
    · exact .ub _
  · exact .ub _

theorem nc_state (c : Control) (h : Seqs) : NC (c.state h) :=
  .ite (.bind (nc_derefTags _ _) fun _ => .ok _) (.bind (nc_collectRatings _ _) fun _ => .ite (.ok _) (.ok _))

theorem nc_pick (l : List MatchReport) : NC (pickBestMatch l) := by
  have hr : ∀ r : MatchReport, NC r.ratings := by
    intro r
    unfold MatchReport.ratings
    split
    · exact .ok _
    · exact .ub _
  have : ∀ (l : List MatchReport) (b : MatchReport), NC (pickLoop b l) := by
    intro l
    induction l with
    | nil => exact fun _ => .ok _
    | cons r l ih => exact fun b => .bind (hr _) fun _ => .bind (hr _) fun _ => .ite (ih _) (ih _)
  cases l with
  | nil => exact .ub _
  | cons r l => exact this l r

theorem nc_consume (w : World (Seen α)) (e : Nat) : NC (w.consume e) :=
  .bind (nc_deref _ _) fun _ => .bind (.bind (nc_isApplicable _ _) fun _ => .bind (nc_check _ _) fun _ =>
    .bind (nc_forEntries nc_consumeEntry _ _) fun _ => .bind (nc_toInt _) fun _ => .bind (nc_update _ _) fun _ => .ok _) fun _ => .ok _

theorem scan_shallow {n : Nat} {P : Nat → Prop} {rec : Rec α} (hrec : Shallow n rec) (hk : Keeps P rec) {a : α}
    {es : List Nat} {s : Store α} (hs : s.w.colls.length = n) : scan rec a s es ≠ .error tooDeep := by
  induction es generalizing s with
  | nil => simp [scan]
  | cons e es ih =>
    intro h
    simp only [scan] at h
    split at h
    · rename_i hd
      simp only [Except.error.injEq] at h
      subst h
      exact nc_deref _ _ _ hd
    · split at h
      · rename_i hd
        simp only [Except.error.injEq] at h
        subst h
        exact nc_state _ _ _ hd
      · split at h
        · rename_i hr
          simp only [Except.error.injEq] at h
          subst h
          exact askAll_shallow hrec hk hs hr
        · rename_i hr
          split at h
          · rename_i hq
            simp only [Except.error.injEq] at h
            subst h
            exact ih (by rw [(askAll_keeps hk hr).1.colls, hs]) hq
          · split at h
            · simp at h
            · split at h <;> simp at h

theorem call_shallow (fuel : Nat) (held : List Nat) (n : Nat) (hn : held.Nodup) (hh : ∀ k ∈ held, k < n) (hf : n + 1 ≤ fuel + held.length) :
    Shallow n (call fuel held : Rec α) := by
  induction fuel generalizing held with
  | zero =>
    have := pigeon hn hh
    omega
  | succ fuel ih =>
    intro s m a hs h
    simp only [call] at h
    split at h
    · simp [tooDeep] at h
    · rename_i es hes
      split at h
      · simp [tooDeep] at h
      · rename_i hm
        have hm : m ∉ held := by simpa using hm
        have hrec := ih (m :: held) (List.nodup_cons.mpr ⟨hm, hn⟩) (by
          intro k hk
          simp only [List.mem_cons] at hk
          rcases hk with rfl | hk
          · rw [← hs]; exact (List.getElem?_eq_some_iff.mp hes).1
          · exact hh k hk) (by simp; omega)
        split at h
        · rename_i hk
          simp only [Except.error.injEq] at h
          subst h
          exact scan_shallow hrec (call_keeps fuel (m :: held)) hs hk
        · split at h
          · split at h
            · rename_i hp
              simp only [Except.error.injEq] at h
              subst h
              exact nc_pick _ _ hp
            · split at h
              · rename_i hp
                simp only [Except.error.injEq] at h
                subst h
                exact nc_consume _ _ _ hp
              · simp at h
          · split at h <;> simp at h

end Mimic.Nested
