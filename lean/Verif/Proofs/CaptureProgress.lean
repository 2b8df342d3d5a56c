import Verif.Spec.Capture
import Verif.Proofs.Capture
import Verif.Proofs.CaptureFin

/-!
# Which operations on matchers and finalizers are possible
-/

set_option autoImplicit false

namespace Mimic.Capture

variable {V : Type}

/-- What is known about the variables of the client. -/
structure Tracks (cs : List (ClientOp V)) (objs : List (Obj V)) : Prop where
  kinds : objs.map (·.kind) = cs.filterMap ClientOp.kind?
  gone : ∀ (o : Nat) k c, objs[o]? = some ⟨k, c⟩ → (c = .gone ↔ ClientOp.destroy o ∈ cs)
  bound : ∀ o, ClientOp.destroy o ∈ cs → o < objs.length

theorem Tracks.init : Tracks ([] : List (ClientOp V)) [] := ⟨rfl, by simp, by simp⟩

theorem Tracks.lives {cs : List (ClientOp V)} {objs : List (Obj V)} (h : Tracks cs objs) (o : Nat) (k : Kind) :
    Lives cs o k ↔ ∃ x, object objs o = .ok x ∧ x.kind = k := by
  unfold Lives object
  rw [← h.kinds, List.getElem?_map]
  cases ho : objs[o]? with
  | none => simp
  | some x =>
    obtain ⟨k', c⟩ := x
    have := h.gone o k' c ho
    cases c <;> simp_all

theorem object_ok' {objs : List (Obj V)} {o : Nat} {x : Obj V} (h : object objs o = .ok x) :
    objs[o]? = some x ∧ x.cell ≠ .gone := by
  unfold object at h
  split at h
  · cases h
  · rename_i y hy hne
    cases h
    refine ⟨hne, ?_⟩
    intro hc
    obtain ⟨k, c⟩ := x
    simp only at hc
    subst hc
    exact hy k rfl
  · cases h

/-- A variable is changed, but neither its kind nor whether it exists. -/
theorem Tracks.set {cs : List (ClientOp V)} {objs : List (Obj V)} (h : Tracks cs objs) {o : Nat} {x : Obj V} {c : Cell V}
    (hx : object objs o = .ok x) (hc : c ≠ .gone) : Tracks cs (objs.set o ⟨x.kind, c⟩) := by
  obtain ⟨h1, h2⟩ := object_ok' hx
  refine ⟨?_, ?_, ?_⟩
  · rw [← h.kinds]
    apply List.ext_getElem?
    intro i
    grind
  · intro i k c' hi
    by_cases hio : o = i
    · subst hio
      have hg := h.gone o x.kind x.cell h1
      grind
    · rw [List.getElem?_set_ne hio] at hi
      exact h.gone i k c' hi
  · intro i hi; simpa using h.bound i hi

theorem Tracks.more {cs : List (ClientOp V)} {objs : List (Obj V)} (h : Tracks cs objs) {c : ClientOp V}
    (hk : c.kind? = none) (hd : ∀ o, c ≠ .destroy o) : Tracks (cs ++ [c]) objs := by
  refine ⟨?_, ?_, ?_⟩
  · rw [List.filterMap_append, h.kinds]; simp [hk]
  · intro o k c' ho
    rw [h.gone o k c' ho]
    have := hd o
    simp [Ne.symm this]
  · intro o ho
    apply h.bound
    have := hd o
    simpa [Ne.symm this] using ho

theorem Tracks.client {cs : List (ClientOp V)} {objs objs' : List (Obj V)} (h : Tracks cs objs) {c : ClientOp V}
    (hs : clientStep objs c = .ok objs') : Tracks (cs ++ [c]) objs' := by
  cases c with
  | object k v =>
    simp only [clientStep, Except.ok.injEq] at hs
    subst hs
    refine ⟨?_, ?_, ?_⟩
    · simp [h.kinds, ClientOp.kind?]
    · intro o k' c' ho
      by_cases hlt : o < objs.length
      · rw [List.getElem?_append_left hlt] at ho
        rw [h.gone o k' c' ho]; simp
      · have hd : ClientOp.destroy o ∉ cs := fun hh => hlt (h.bound o hh)
        have := List.getElem?_append_right (Nat.le_of_not_lt hlt) (l₂ := [(⟨k, .holds v⟩ : Obj V)])
        rw [this] at ho
        grind
    · intro o ho
      have := h.bound o (by simpa using ho)
      simp; omega
  | assign o v =>
    simp only [clientStep, bind, Except.bind, pure, Except.pure] at hs
    cases hx : object objs o with
    | error y => rw [hx] at hs; cases hs
    | ok x =>
      rw [hx] at hs; cases hs
      exact (h.set hx (by simp)).more rfl (by simp)
  | take o =>
    simp only [clientStep, bind, Except.bind, pure, Except.pure] at hs
    cases hx : object objs o with
    | error y => rw [hx] at hs; cases hs
    | ok x =>
      rw [hx] at hs
      simp only at hs
      split at hs
      · cases hs
      · cases hs
        refine (h.set hx ?_).more rfl (by simp)
        unfold Cell.left
        have := (object_ok' hx).2
        split
        · exact this
        · simp
  | destroy o =>
    simp only [clientStep, bind, Except.bind, pure, Except.pure] at hs
    cases hx : object objs o with
    | error y => rw [hx] at hs; cases hs
    | ok x =>
      rw [hx] at hs; cases hs
      obtain ⟨h1, h2⟩ := object_ok' hx
      have hlt : o < objs.length := (List.getElem?_eq_some_iff.mp h1).1
      refine ⟨?_, ?_, ?_⟩
      · have hn : List.filterMap ClientOp.kind? [(.destroy o : ClientOp V)] = [] := rfl
        rw [List.filterMap_append, hn, List.append_nil, ← h.kinds]
        apply List.ext_getElem?
        intro i
        grind
      · intro i k c' hi
        by_cases hio : o = i
        · subst hio; grind
        · rw [List.getElem?_set_ne hio] at hi
          rw [h.gone i k c' hi]
          simp only [List.mem_append, List.mem_singleton, ClientOp.destroy.injEq]
          exact ⟨Or.inl, fun hh => hh.elim id (fun e => absurd e.symm hio)⟩
      · intro i hi
        simp only [List.mem_append, List.mem_singleton, ClientOp.destroy.injEq] at hi
        rw [List.length_set]
        rcases hi with hi | rfl
        · exact h.bound i hi
        · exact hlt

theorem Tracks.store {cs : List (ClientOp V)} {objs objs' : List (Obj V)} (h : Tracks cs objs) {all : Bool} {e : Expr V}
    {a : Stored V} (hs : Capture.store all objs e = .ok (a, objs')) : Tracks cs objs' := by
  cases e with
  | named k o =>
    simp only [Capture.store, bind, Except.bind] at hs
    cases hx : object objs o with
    | error y => rw [hx] at hs; cases hs
    | ok x => rw [hx] at hs; cases hv : x.cell.value <;> simp only [hv] at hs <;> grind
  | moved k o =>
    simp only [Capture.store, bind, Except.bind] at hs
    cases hx : object objs o with
    | error y => rw [hx] at hs; cases hs
    | ok x =>
      rw [hx] at hs
      simp only at hs
      split at hs
      · cases hs
      rename_i hk
      have hk : x.kind = k := by simpa using hk
      split at hs
      · split at hs
        · cases hs
        · cases hs; exact h
      · cases hv : x.cell.value with
        | error y => rw [hv] at hs; cases hs
        | ok v =>
          rw [hv] at hs; cases hs
          rw [← hk]
          refine h.set hx ?_
          unfold Cell.left
          have := (object_ok' hx).2
          split
          · exact this
          · simp
  | temp k v => simp only [Capture.store] at hs; grind
  | view o =>
    simp only [Capture.store, bind, Except.bind] at hs
    cases hx : object objs o with
    | error y => rw [hx] at hs; cases hs
    | ok x => rw [hx] at hs; cases hs; exact h

theorem value_of_object {objs : List (Obj V)} {o : Nat} {x : Obj V} (h : object objs o = .ok x) :
    ∃ v, x.cell.value = .ok v := by
  have := (object_ok' h).2
  cases hc : x.cell with
  | holds v => exact ⟨_, rfl⟩
  | moved => exact ⟨_, rfl⟩
  | gone => exact absurd hc this

theorem Tracks.client_iff {cs : List (ClientOp V)} {objs : List (Obj V)} (h : Tracks cs objs) (c : ClientOp V) :
    (∃ objs', clientStep objs c = .ok objs') ↔ c.proper cs := by
  cases c with
  | object k v => simp [clientStep, ClientOp.proper]
  | assign o v =>
    simp only [ClientOp.proper, h.lives, clientStep, bind, Except.bind, pure, Except.pure]
    cases hx : object objs o <;> simp
  | destroy o =>
    simp only [ClientOp.proper, h.lives, clientStep, bind, Except.bind, pure, Except.pure]
    cases hx : object objs o <;> simp
  | take o =>
    simp only [ClientOp.proper, h.lives, clientStep, bind, Except.bind, pure, Except.pure]
    cases hx : object objs o with
    | error y => simp
    | ok x => by_cases hk : x.kind = .array <;> simp [hk] <;> grind

theorem Tracks.store_iff {cs : List (ClientOp V)} {objs : List (Obj V)} (h : Tracks cs objs) (all : Bool) (e : Expr V) :
    (∃ r, Capture.store all objs e = .ok r) ↔ e.proper all cs := by
  cases e with
  | named k o =>
    simp only [Expr.proper, h.lives, Capture.store, bind, Except.bind]
    cases hx : object objs o with
    | error y => simp
    | ok x =>
      obtain ⟨v, hv⟩ := value_of_object hx
      simp only [hv]
      by_cases hk : x.kind = k
      · by_cases ha : k = .array <;> cases all <;> simp [hk, ha]
      · simp [hk]
  | moved k o =>
    simp only [Expr.proper, h.lives, Capture.store, bind, Except.bind]
    cases hx : object objs o with
    | error y => simp
    | ok x =>
      obtain ⟨v, hv⟩ := value_of_object hx
      simp only [hv]
      by_cases hk : x.kind = k
      · by_cases ha : k = .array <;> cases all <;> simp [hk, ha]
      · simp [hk]
  | temp k v => by_cases ha : k = .array <;> simp [Expr.proper, Capture.store, ha]
  | view o =>
    simp only [Expr.proper, h.lives, Capture.store, bind, Except.bind]
    cases hx : object objs o <;> simp

/-- What a factory stores refers to a variable only if the operation does. -/
theorem store_refers {objs objs' : List (Obj V)} {f : Factory V} {e : Expr V} {o : Nat}
    (hs : store f.all objs e = .ok (.ref o, objs')) : (Op.make f e).refers o ∧ o < objs'.length := by
  cases e with
  | named k o' =>
    simp only [store, bind, Except.bind] at hs
    cases hx : object objs o' with
    | error y => rw [hx] at hs; cases hs
    | ok x =>
      obtain ⟨v, hv⟩ := value_of_object hx
      have hlt : o' < objs.length := (List.getElem?_eq_some_iff.mp (object_ok' hx).1).1
      simp only [hx, hv] at hs
      simp only [Op.refers]
      grind
  | moved k o' =>
    simp only [store, bind, Except.bind] at hs
    cases hx : object objs o' with
    | error y => rw [hx] at hs; cases hs
    | ok x =>
      obtain ⟨v, hv⟩ := value_of_object hx
      have hlt : o' < objs.length := (List.getElem?_eq_some_iff.mp (object_ok' hx).1).1
      simp only [hx, hv] at hs
      simp only [Op.refers]
      grind
  | temp k v => simp only [store] at hs; grind
  | view o' =>
    simp only [store, bind, Except.bind] at hs
    cases hx : object objs o' with
    | error y => rw [hx] at hs; cases hs
    | ok x =>
      have hlt : o' < objs.length := (List.getElem?_eq_some_iff.mp (object_ok' hx).1).1
      simp only [hx] at hs
      simp only [Op.refers]
      grind

/-- What is known after a history. -/
structure Known (ops : List (Op V)) (s : State V) : Prop where
  objs : Tracks (clients ops) s.objs
  len : s.mats.length = made ops
  dropped : ∀ n : Nat, s.mats[n]? = some none ↔ Op.drop n ∈ ops
  refs : ∀ (n o : Nat) x, s.mats[n]? = some (some x) → x.arg = .ref o →
    (∃ op ∈ ops, op.refers o) ∧ o < s.objs.length

variable {elems : V → List V} {print : V → String}

theorem Known.init : Known ([] : List (Op V)) State.init :=
  ⟨Tracks.init, rfl, by simp [State.init], by simp [State.init]⟩

theorem clients_append (ops ops' : List (Op V)) : clients (ops ++ ops') = clients ops ++ clients ops' := by
  simp [clients]

theorem client_length {objs objs' : List (Obj V)} {c : ClientOp V} (h : clientStep objs c = .ok objs') :
    objs.length ≤ objs'.length := by
  cases c with
  | object k v => simp only [clientStep] at h; grind
  | _ o =>
    simp only [clientStep, bind, Except.bind, pure, Except.pure] at h
    cases hx : object objs o with
    | error y => rw [hx] at h; cases h
    | ok x => rw [hx] at h; simp only at h; grind

theorem store_length {all : Bool} {objs objs' : List (Obj V)} {e : Expr V} {a : Stored V}
    (h : store all objs e = .ok (a, objs')) : objs'.length = objs.length := by
  cases e with
  | temp k v => simp only [store] at h; grind
  | _ o =>
    simp only [store, bind, Except.bind] at h
    first
    | (cases hx : object objs o with
       | error y => rw [hx] at h; cases h
       | ok x => rw [hx] at h; simp only at h; grind)
    | (rename_i o
       cases hx : object objs o with
       | error y => rw [hx] at h; cases h
       | ok x =>
         obtain ⟨v, hv⟩ := value_of_object hx
         simp only [hx, hv] at h; grind)

theorem Known.derive {ops : List (Op V)} {op : Op V} {s s' : State V} {a : Ans V} (h : Known ops s) {m : Nat} {c : Bool}
    {g : Mat V → Mat V} (hg : ∀ x, (g x).arg = x.arg) (hc : clients [op] = []) (hm : op.makes = true)
    (hd : ∀ n, op ≠ .drop n) (hs : s.derive m c g = .ok (s', a)) : Known (ops ++ [op]) s' := by
  unfold State.derive at hs
  cases hx : s.mat m with
  | error y => rw [hx] at hs; cases hs
  | ok x =>
    rw [hx] at hs
    simp only [bind, Except.bind, pure, Except.pure, Except.ok.injEq, Prod.mk.injEq] at hs
    obtain ⟨rfl, -⟩ := hs
    have hmx := mat_ok hx
    have hlt : m < s.mats.length := (List.getElem?_eq_some_iff.mp hmx).1
    have hcell : ∀ (n : Nat) (y : Mat V),
        ((if c then s.mats.set m (some x.left) else s.mats) ++ [some (g x)])[n]? = some (some y) →
        ∃ (n' : Nat) (y' : Mat V), s.mats[n']? = some (some y') ∧ (∀ o, y.arg = .ref o → y'.arg = .ref o) := by
      intro n y hn
      by_cases hnl : n < s.mats.length
      · rw [List.getElem?_append_left (by split <;> simpa using hnl)] at hn
        by_cases hc' : c = true
        · rw [if_pos hc'] at hn
          by_cases hmn : m = n
          · subst hmn
            rw [List.getElem?_set_self hlt] at hn
            simp only [Option.some.injEq] at hn
            subst hn
            exact ⟨m, x, hmx, fun o ho => left_arg_ref ho⟩
          · rw [List.getElem?_set_ne hmn] at hn
            exact ⟨n, y, hn, fun o ho => ho⟩
        · rw [if_neg hc'] at hn
          exact ⟨n, y, hn, fun o ho => ho⟩
      · rw [List.getElem?_append_right (by split <;> first | omega | (simp; omega))] at hn
        have : y = g x := by
          generalize n - _ = k at hn
          cases k with
          | zero => simpa using hn.symm
          | succ k => simp at hn
        subst this
        exact ⟨m, x, hmx, fun o ho => by rw [hg] at ho; exact ho⟩
    refine ⟨?_, ?_, ?_, ?_⟩
    · rw [clients_append, hc, List.append_nil]; exact h.objs
    · have := h.len
      simp only [made, List.countP_append, List.countP_cons, hm] at *
      cases c <;> simp <;> omega
    · intro n
      have := h.dropped n
      rw [List.mem_append, List.mem_singleton]
      have hdn := hd n
      have e1 : ((if c then s.mats.set m (some x.left) else s.mats) ++ [some (g x)])[n]? = some none ↔ s.mats[n]? = some none := by
        cases c <;> grind
      rw [e1, this]
      exact ⟨Or.inl, fun hh => hh.elim id (fun e => absurd e.symm hdn)⟩
    · intro n o y hn ho
      obtain ⟨n', y', h1, h2⟩ := hcell n y hn
      obtain ⟨⟨p, hp, hpr⟩, hl⟩ := h.refs n' o y' h1 (h2 o ho)
      exact ⟨⟨p, List.mem_append_left _ hp, hpr⟩, hl⟩

theorem Known.same {ops : List (Op V)} {op : Op V} {s : State V} (h : Known ops s) (hc : clients [op] = [])
    (hm : op.makes = false) (hd : ∀ n, op ≠ .drop n) : Known (ops ++ [op]) s := by
  refine ⟨?_, ?_, ?_, ?_⟩
  · rw [clients_append, hc, List.append_nil]; exact h.objs
  · have := h.len
    simp only [made, List.countP_append, List.countP_cons, hm] at *
    simpa using this
  · intro n
    have hdn := hd n
    rw [h.dropped n, List.mem_append, List.mem_singleton]
    exact ⟨Or.inl, fun hh => hh.elim id (fun e => absurd e.symm hdn)⟩
  · intro n o y hn ho
    obtain ⟨⟨p, hp, hpr⟩, hl⟩ := h.refs n o y hn ho
    exact ⟨⟨p, List.mem_append_left _ hp, hpr⟩, hl⟩

theorem Known.step {ops : List (Op V)} {op : Op V} {s s' : State V} {a : Ans V} (h : Known ops s)
    (hs : s.step elems print op = .ok (s', a)) : Known (ops ++ [op]) s' := by
  cases op with
  | client c =>
    simp only [State.step, bind, Except.bind, pure, Except.pure] at hs
    cases hc : clientStep s.objs c with
    | error y => rw [hc] at hs; cases hs
    | ok objs =>
      rw [hc] at hs; cases hs
      refine ⟨?_, ?_, ?_, ?_⟩
      · rw [clients_append]; exact h.objs.client hc
      · have := h.len
        simp only [made, List.countP_append, List.countP_cons] at *
        simpa [Op.makes] using this
      · intro n; rw [h.dropped n]; simp
      · intro n o y hn ho
        obtain ⟨⟨p, hp, hpr⟩, hl⟩ := h.refs n o y hn ho
        exact ⟨⟨p, List.mem_append_left _ hp, hpr⟩, Nat.lt_of_lt_of_le hl (client_length hc)⟩
  | make f e =>
    simp only [State.step, bind, Except.bind, pure, Except.pure] at hs
    cases hc : store f.all s.objs e with
    | error y => rw [hc] at hs; cases hs
    | ok r =>
      obtain ⟨st, objs⟩ := r
      rw [hc] at hs; cases hs
      refine ⟨?_, ?_, ?_, ?_⟩
      · rw [clients_append]
        simpa [clients] using h.objs.store hc
      · have := h.len
        simp only [made, List.countP_append, List.countP_cons] at *
        simpa [Op.makes] using this
      · intro n
        have := h.dropped n
        simp only [List.mem_append, List.mem_singleton, reduceCtorEq, or_false]
        rw [← this]
        by_cases hn : n < s.mats.length
        · rw [List.getElem?_append_left hn]
        · rw [List.getElem?_append_right (Nat.le_of_not_lt hn), List.getElem?_eq_none (Nat.le_of_not_lt hn)]
          generalize n - s.mats.length = k
          cases k <;> simp
      · intro n o y hn ho
        by_cases hnl : n < s.mats.length
        · simp only [List.getElem?_append_left hnl] at hn
          obtain ⟨⟨p, hp, hpr⟩, hl⟩ := h.refs n o y hn ho
          exact ⟨⟨p, List.mem_append_left _ hp, hpr⟩, by simpa [store_length hc] using hl⟩
        · simp only [List.getElem?_append_right (Nat.le_of_not_lt hnl)] at hn
          have : y = f.mat st := by
            generalize n - s.mats.length = k at hn
            cases k with
            | zero => simpa using hn.symm
            | succ k => simp at hn
          subst this
          simp only [Factory.mat] at ho
          subst ho
          obtain ⟨h1, h2⟩ := store_refers hc
          exact ⟨⟨_, List.mem_append_right _ (List.mem_singleton.mpr rfl), h1⟩, h2⟩
  | nest each how m =>
    cases how with
    | constant => cases hs
    | _ => exact h.derive (by intro x; rfl) rfl rfl (by simp) hs
  | invert how m => exact h.derive invert_arg rfl rfl (by simp) hs
  | keep how m => exact h.derive (fun _ => rfl) rfl rfl (by simp) hs
  | drop m =>
    simp only [State.step, bind, Except.bind, pure, Except.pure] at hs
    cases hx : s.mat m with
    | error y => rw [hx] at hs; cases hs
    | ok x =>
      rw [hx] at hs; cases hs
      have hlt : m < s.mats.length := (List.getElem?_eq_some_iff.mp (mat_ok hx)).1
      refine ⟨?_, ?_, ?_, ?_⟩
      · rw [clients_append]; simpa [clients] using h.objs
      · have := h.len
        simp only [made, List.countP_append, List.countP_cons] at *
        simpa [Op.makes] using this
      · intro n
        have := h.dropped n
        simp only [List.mem_append, List.mem_singleton, Op.drop.injEq]
        by_cases hmn : m = n
        · subst hmn; simp [hlt]
        · rw [List.getElem?_set_ne hmn, this]
          exact ⟨Or.inl, fun hh => hh.elim id (fun e => absurd e.symm hmn)⟩
      · intro n o y hn ho
        have : s.mats[n]? = some (some y) := by
          by_cases hmn : m = n
          · subst hmn; simp [hlt] at hn
          · simpa only [List.getElem?_set_ne hmn] using hn
        obtain ⟨⟨p, hp, hpr⟩, hl⟩ := h.refs n o y this ho
        exact ⟨⟨p, List.mem_append_left _ hp, hpr⟩, hl⟩
  | test m t =>
    simp only [State.step, bind, Except.bind] at hs
    cases hx : s.mat m with
    | error y => rw [hx] at hs; cases hs
    | ok x => rw [hx] at hs; rw [(answer_ok hs).1]; exact h.same rfl rfl (by simp)
  | describe m =>
    simp only [State.step, bind, Except.bind] at hs
    cases hx : s.mat m with
    | error y => rw [hx] at hs; cases hs
    | ok x => rw [hx] at hs; rw [(answer_ok hs).1]; exact h.same rfl rfl (by simp)

theorem Known.run {ops pre : List (Op V)} {s s' : State V} {as : List (Ans V)} (hk : Known pre s)
    (h : run elems print s ops = .ok (s', as)) : Known (pre ++ ops) s' := by
  induction ops generalizing s pre as with
  | nil => cases h; simpa using hk
  | cons op ops ih =>
    obtain ⟨s1, a, as1, h1, h2, h3⟩ := run_cons h
    have := ih (hk.step h1) h2
    simpa using this

theorem Known.mat_iff {ops : List (Op V)} {s : State V} (h : Known ops s) (m : Nat) :
    (∃ x, s.mat m = .ok x) ↔ m < made ops ∧ Op.drop m ∉ ops := by
  rw [← h.len, ← h.dropped]
  unfold State.mat
  by_cases hm : m < s.mats.length
  · have := List.getElem?_eq_getElem hm
    rw [this]
    cases hx : s.mats[m] <;> simp [hm]
  · simp [List.getElem?_eq_none (Nat.le_of_not_lt hm), hm]

theorem Known.dangling {ops : List (Op V)} {s : State V} (h : Known ops s) {m : Nat} {x : Mat V} (hm : s.mat m = .ok x)
    {y : Fault} (hr : x.arg.read s.objs = .error y) :
    y = .unspecified ∨ (y = .dangling ∧ ∃ o, (∃ op ∈ ops, op.refers o) ∧ Op.client (.destroy o) ∈ ops) := by
  cases ha : x.arg with
  | own k v =>
    rw [ha] at hr
    cases v with
    | none => cases hr; exact Or.inl rfl
    | some v => cases hr
  | ref o =>
    obtain ⟨h1, h2⟩ := h.refs m o x (mat_ok hm) ha
    rw [ha] at hr
    have hg := List.getElem?_eq_getElem h2
    simp only [Stored.read, hg] at hr
    generalize s.objs[o] = z at hg hr
    obtain ⟨k, c⟩ := z
    cases c with
    | holds v => cases hr
    | moved => cases hr; exact Or.inl rfl
    | gone =>
      cases hr
      have hd := (h.objs.gone o k .gone hg).mp rfl
      refine Or.inr ⟨rfl, o, h1, ?_⟩
      unfold clients at hd
      obtain ⟨op, hop, he⟩ := List.mem_filterMap.mp hd
      cases op <;> simp only [Option.some.injEq, reduceCtorEq] at he
      subst he
      exact hop

/-- Histories can be put together. -/
theorem run_glue {ops ops' : List (Op V)} {s0 s b : State V} {as bs : List (Ans V)} (h : run elems print s0 ops = .ok (s, as))
    (h' : run elems print s ops' = .ok (b, bs)) : ∃ s' as', run elems print s0 (ops ++ ops') = .ok (s', as') := by
  induction ops generalizing s0 as with
  | nil => cases h; exact ⟨b, bs, h'⟩
  | cons op ops ih =>
    obtain ⟨s1, a, as1, h1, h2, h3⟩ := run_cons h
    obtain ⟨s', as', h4⟩ := ih h2
    exact ⟨s', a :: as', by simp [run, h1, h4, bind, Except.bind, pure, Except.pure]⟩

/-- A history ends where an operation is not carried out. -/
theorem run_stuck {ops rest : List (Op V)} {op : Op V} {s0 s : State V} {as : List (Ans V)} {x : Fault}
    (h : run elems print s0 ops = .ok (s, as)) (hs : s.step elems print op = .error x) :
    run elems print s0 (ops ++ op :: rest) = .error x := by
  induction ops generalizing s0 as with
  | nil => cases h; simp [run, hs, bind, Except.bind]
  | cons p ops ih =>
    obtain ⟨s1, a, as1, h1, h2, h3⟩ := run_cons h
    have := ih h2
    simp [run, h1, this, bind, Except.bind]

/-! ## Finalizers -/

structure FKnown (ops : List (FinOp V)) (s : FinState V) : Prop where
  objs : Tracks (finClients ops) s.objs
  len : s.fins.length = finsMade ops
  refs : ∀ (n o : Nat) x, s.fins[n]? = some x → x.stored = .ref o →
    FinOp.returns (.view o) ∈ ops ∧ o < s.objs.length

theorem FKnown.init : FKnown ([] : List (FinOp V)) FinState.init := ⟨Tracks.init, rfl, by simp [FinState.init]⟩

theorem finClients_append (ops ops' : List (FinOp V)) : finClients (ops ++ ops') = finClients ops ++ finClients ops' := by
  simp [finClients]

/-- The caller changes what it got, or leaves it as it is. -/
theorem FKnown.put {ops : List (FinOp V)} {s : FinState V} (h : FKnown ops s) {f : Nat} {x : Fin V} (hx : s.fins[f]? = some x)
    {v : Ans V} {s1 : FinState V} (hr : answer s ((x.stored.read s.objs).map Ans.value) = .ok (s1, v)) (c : Option V)
    (use : Use V) : FKnown (ops ++ [.call f use]) (s.put f x c) := by
  have hc : finClients (ops ++ [.call f use]) = finClients ops := by simp [finClients]
  have hl : finsMade (ops ++ [.call f use]) = finsMade ops := by simp [finsMade, FinOp.makes]
  have hlt : f < s.fins.length := (List.getElem?_eq_some_iff.mp hx).1
  unfold FinState.put
  cases hst : x.stored with
  | own k w =>
    simp only
    refine ⟨by rw [hc]; exact h.objs, by rw [hl]; simpa using h.len, ?_⟩
    intro n o y hn ho
    by_cases hfn : f = n
    · subst hfn
      simp only [List.getElem?_set_self hlt, Option.some.injEq] at hn
      subst hn
      cases ho
    · simp only [List.getElem?_set_ne hfn] at hn
      obtain ⟨h1, h2⟩ := h.refs n o y hn ho
      exact ⟨List.mem_append_left _ h1, h2⟩
  | ref o =>
    simp only
    obtain ⟨h1, h2⟩ := h.refs f o x hx hst
    have hg := List.getElem?_eq_getElem h2
    rw [hg]
    simp only
    have hgone : object s.objs o = .ok s.objs[o] := by
      rw [hst] at hr
      simp only [Stored.read, hg] at hr
      unfold object
      rw [hg]
      generalize s.objs[o] = z at hr
      obtain ⟨k, cc⟩ := z
      cases cc with
      | gone => simp [Except.map, answer] at hr
      | _ => rfl
    refine ⟨?_, by rw [hl]; exact h.len, ?_⟩
    · rw [hc]
      refine h.objs.set hgone ?_
      cases c <;> simp
    · intro n o' y hn ho
      obtain ⟨h3, h4⟩ := h.refs n o' y hn ho
      exact ⟨List.mem_append_left _ h3, by simpa using h4⟩

theorem FKnown.call {ops : List (FinOp V)} {s s' : FinState V} {a : Ans V} (h : FKnown ops s) {f : Nat} {x : Fin V} {use : Use V}
    (hx : s.fins[f]? = some x) (hs : s.call f x use = .ok (s', a)) : FKnown (ops ++ [.call f use]) s' := by
  have hsame : FKnown (ops ++ [.call f use]) s := by
    refine ⟨by simpa [finClients] using h.objs, by simpa [finsMade, FinOp.makes] using h.len, ?_⟩
    intro n o y hn ho
    obtain ⟨h3, h4⟩ := h.refs n o y hn ho
    exact ⟨List.mem_append_left _ h3, h4⟩
  unfold FinState.call at hs
  split at hs
  · rw [(answer_ok hs).1]; exact hsame
  · cases hr : answer s ((x.stored.read s.objs).map Ans.value) with
    | error y => rw [hr] at hs; cases hs
    | ok r =>
      obtain ⟨s1, b⟩ := r
      have h1 := (answer_ok hr).1
      subst h1
      rw [hr] at hs
      simp only [bind, Except.bind, pure, Except.pure] at hs
      split at hs
      · cases hs; exact hsame
      · cases hs; exact hsame
      · cases hs; exact h.put hx hr _ _
      · cases hs
        split
        · exact h.put hx hr _ _
        · exact hsame

theorem store_false_ref {objs objs' : List (Obj V)} {e : Expr V} {o : Nat} (ha : e.isArray = false)
    (hs : store false objs e = .ok (.ref o, objs')) : e = .view o ∧ o < objs'.length := by
  cases e with
  | named k o' =>
    simp only [store, bind, Except.bind] at hs
    cases hx : object objs o' with
    | error y => rw [hx] at hs; cases hs
    | ok x =>
      obtain ⟨v, hv⟩ := value_of_object hx
      simp only [hx, hv] at hs
      cases k <;> simp_all [Expr.isArray] <;> grind
  | moved k o' =>
    simp only [store, bind, Except.bind] at hs
    cases hx : object objs o' with
    | error y => rw [hx] at hs; cases hs
    | ok x =>
      obtain ⟨v, hv⟩ := value_of_object hx
      simp only [hx, hv] at hs
      cases k <;> simp_all [Expr.isArray] <;> grind
  | temp k v => simp only [store] at hs; grind
  | view o' =>
    simp only [store, bind, Except.bind] at hs
    cases hx : object objs o' with
    | error y => rw [hx] at hs; cases hs
    | ok x =>
      have hlt : o' < objs.length := (List.getElem?_eq_some_iff.mp (object_ok' hx).1).1
      rw [hx] at hs; simp only at hs; grind

theorem isArray_iff (e : Expr V) : e.isArray = false ↔ ∀ o, e ≠ .named .array o ∧ e ≠ .moved .array o := by
  cases e with
  | named k o => cases k <;> simp [Expr.isArray]
  | moved k o => cases k <;> simp [Expr.isArray]
  | _ => simp [Expr.isArray]

theorem FKnown.add {ops : List (FinOp V)} {op : FinOp V} {s s' : FinState V} {a : Ans V} (h : FKnown ops s) {t : Bool} {e : Expr V}
    (hop : op = .returns e ∨ (op = .throws e ∧ ∀ o, e ≠ .view o)) (hs : s.add t e = .ok (s', a)) :
    FKnown (ops ++ [op]) s' := by
  obtain ⟨st, objs, h1, rfl, h2⟩ := add_ok hs
  have hm : op.makes = true := by rcases hop with rfl | ⟨rfl, _⟩ <;> rfl
  have hcl : finClients (ops ++ [op]) = finClients ops := by rcases hop with rfl | ⟨rfl, _⟩ <;> simp [finClients]
  refine ⟨by rw [hcl]; exact h.objs.store h1, ?_, ?_⟩
  · have := h.len
    simp only [finsMade, List.countP_append, List.countP_cons, hm] at *
    simpa using this
  · intro n o y hn ho
    by_cases hnl : n < s.fins.length
    · simp only [List.getElem?_append_left hnl] at hn
      obtain ⟨h3, h4⟩ := h.refs n o y hn ho
      exact ⟨List.mem_append_left _ h3, by simpa [store_length h1] using h4⟩
    · simp only [List.getElem?_append_right (Nat.le_of_not_lt hnl)] at hn
      have : y = ⟨t, st⟩ := by
        generalize n - s.fins.length = k at hn
        cases k with
        | zero => simpa using hn.symm
        | succ k => simp at hn
      subst this
      simp only at ho
      subst ho
      obtain ⟨he, hl⟩ := store_false_ref ((isArray_iff e).mpr h2) h1
      subst he
      rcases hop with rfl | ⟨_, h4⟩
      · exact ⟨List.mem_append_right _ (List.mem_singleton.mpr rfl), hl⟩
      · exact absurd rfl (h4 o)

theorem FKnown.step {ops : List (FinOp V)} {op : FinOp V} {s s' : FinState V} {a : Ans V} (h : FKnown ops s)
    (hs : s.step op = .ok (s', a)) : FKnown (ops ++ [op]) s' := by
  cases op with
  | client c =>
    simp only [FinState.step, bind, Except.bind, pure, Except.pure] at hs
    cases hc : clientStep s.objs c with
    | error y => rw [hc] at hs; cases hs
    | ok objs =>
      rw [hc] at hs; cases hs
      refine ⟨by rw [finClients_append]; exact h.objs.client hc, by simpa [finsMade, FinOp.makes] using h.len, ?_⟩
      intro n o y hn ho
      obtain ⟨h3, h4⟩ := h.refs n o y hn ho
      exact ⟨List.mem_append_left _ h3, Nat.lt_of_lt_of_le h4 (client_length hc)⟩
  | returns e => exact h.add (Or.inl rfl) hs
  | throws e =>
    cases e with
    | view o => cases hs
    | _ => exact h.add (Or.inr ⟨rfl, by simp⟩) hs
  | call f use =>
    simp only [FinState.step] at hs
    cases hx : s.fins[f]? with
    | none => rw [hx] at hs; cases hs
    | some x => rw [hx] at hs; exact h.call hx hs

theorem FKnown.run {ops pre : List (FinOp V)} {s s' : FinState V} {as : List (Ans V)} (hk : FKnown pre s)
    (h : runFins s ops = .ok (s', as)) : FKnown (pre ++ ops) s' := by
  induction ops generalizing s pre as with
  | nil => cases h; simpa using hk
  | cons op ops ih =>
    obtain ⟨s1, a, as1, h1, h2, h3⟩ := fins_cons h
    have := ih (hk.step h1) h2
    simpa using this

end Mimic.Capture
