import Verif.Proofs.MockReports
import Verif.Props.Mocks
import Verif.Props.Reports

/-!
# C61: reports about calls of mocks name the overloads
-/

set_option autoImplicit false

namespace Mimic

variable {τ β : Type}

/-- C61: the words tell all kinds of overloads apart. -/
theorem C61_words (f g : Sig τ) :
    (f.objectsText = g.objectsText ↔ f.objects = g.objects) ∧ (f.constText = g.constText ↔ f.isConst = g.isConst) ∧
    (f.categoryLine = g.categoryLine ↔ f.objects = g.objects) ∧ (f.constLine = g.constLine ↔ f.isConst = g.isConst) := by
  have h1 : f.objectsText = g.objectsText ↔ f.objects = g.objects := by
    unfold Sig.objectsText Sig.objects
    cases f.ref <;> cases g.ref <;> simp [lit] <;> decide
  have h2 : f.constText = g.constText ↔ f.isConst = g.isConst := by
    unfold Sig.constText
    cases f.isConst <;> cases g.isConst <;> simp [lit] <;> decide
  refine ⟨h1, h2, ?_, ?_⟩
  · rw [← h1]; simp [Sig.categoryLine]
  · rw [← h2]; simp [Sig.constLine]

variable [DecidableEq τ]

/-- The expectations that are listed in a report belong to the storage of the call. -/
private theorem listed {tr : Trace (CallInfo β)} {w w' : World (CallInfo β)} (h : Reach tr w) {m : Nat} {a : CallInfo β}
    {ev : List Event} (hs : w.step (.call m a) = .ok (w', ev)) :
    (∀ e, Event.fullMatch e ∈ ev → ∃ d, tr.decl e = some d ∧ d.mock = m) ∧
    (∀ es, Event.inapplicable es ∈ ev → ∀ e ∈ es, ∃ d, tr.decl e = some d ∧ d.mock = m) ∧
    (∀ es, Event.noMatch es ∈ ev → ∀ e ∈ es, ∃ d, tr.decl e = some d ∧ d.mock = m) := by
  obtain ⟨us, last, rfl, _, hl⟩ := C10_outcome h hs
  refine ⟨?_, ?_, ?_⟩
  · intro e he
    have : last = .fullMatch e := by simpa [eq_comm] using he
    rcases hl with ⟨e', ⟨⟨_, d, h1, h2, _⟩, _⟩, h4⟩ | ⟨_, _, es, h4, _⟩ | ⟨_, es, h4, _⟩
    · rw [this] at h4; simp only [Event.fullMatch.injEq] at h4; subst h4; exact ⟨d, h1, h2⟩
    · rw [this] at h4; simp at h4
    · rw [this] at h4; simp at h4
  · intro es he
    have : last = .inapplicable es := by simpa [eq_comm] using he
    rcases hl with ⟨e', _, h4⟩ | ⟨_, _, es', h4, hy⟩ | ⟨_, es', h4, _⟩
    · rw [this] at h4; simp at h4
    · rw [this] at h4; simp only [Event.inapplicable.injEq] at h4; subst h4
      intro e hm
      obtain ⟨_, d, h1, h2, _⟩ := (hy.2 e).mp hm
      exact ⟨d, h1, h2⟩
    · rw [this] at h4; simp at h4
  · intro es he
    have : last = .noMatch es := by simpa [eq_comm] using he
    rcases hl with ⟨e', _, h4⟩ | ⟨_, _, es', h4, hy⟩ | ⟨_, es', h4, hy⟩
    · rw [this] at h4; simp at h4
    · rw [this] at h4; simp at h4
    · rw [this] at h4; simp only [Event.noMatch.injEq] at h4; subst h4
      intro e hm
      obtain ⟨⟨_, d, h1, h2⟩, _⟩ := (hy.2 e).mp hm
      exact ⟨d, h1, h2⟩

/-- C61: the texts about a call of a mock name the constness and the category of the overload that was called, and for every listed
expectation the overload it was created through, among what passed or among what failed; in their places between the conditions on
the arguments and the others. -/
theorem C61_call {tr : MTrace τ β} {mw mw' : MWorld τ β} (h : MReach tr mw) {m j : Nat} {a : β} {ev : List Event}
    (hs : mw.step (.call m j a) = .ok (mw', ev)) (loc : Nat → Text) (what : Nat → Option Text) {site : CallSite}
    {ts : List (Text × Text)} (hc : ts.map (fun p => (p.1, (.ok p.2 : M Text))) = site.args.map (fun p => (p.1, print p.2))) :
    ∃ k sigs f texts, tr.holds m k ∧ tr.sigs k = some sigs ∧ sigs[j]? = some f ∧
      mw.callTexts loc what site m j a = .ok texts ∧
      Each (Tells (tr.matchText loc k j sigs f a) (tr.expectationText loc) what
        (callText site.loc f.constText f.objectsText site.returnType ts)) ev texts := by
  obtain ⟨f, ft, hi⟩ := h.inv
  have hfr : ∃ c cat con, mw.frontend m j = some (some c, cat, con) := by
    simp only [MWorld.step] at hs
    split at hs
    · simp at hs
    · simp at hs
    · exact ⟨_, _, _, by assumption⟩
  obtain ⟨c, cat, con, hfr⟩ := hfr
  obtain ⟨k, g, idx, h1, h2, h3, h4, h5, h6, rfl⟩ := hi.frontend hfr
  obtain ⟨rfl, rfl⟩ := info_of_frontend h5 a
  have h7 : ∃ w', mw.w.step (.call ((f k).1 + idx) (g.info a)) = .ok (w', ev) := by
    simp only [MWorld.step, hfr] at hs
    obtain ⟨w', hw, _⟩ := MWorld.plain_ok hs
    exact ⟨w', hw⟩
  obtain ⟨w', h7⟩ := h7
  obtain ⟨texts, t1, t2⟩ := C51_call hi.reach h7 loc what
    (c := ⟨site.loc, lit (g.info a).constness.word, lit (g.info a).category.word, site.returnType, site.args⟩) hc
  refine ⟨k, _, g, texts, h1, h3, h4, ?_, ?_⟩
  · unfold MWorld.callTexts
    rw [hfr]
    exact t1
  · rw [word_category, word_constness] at t2
    obtain ⟨l1, l2, l3⟩ := listed hi.reach h7
    refine each_imp t2 ?_
    intro x hx t ht
    cases x with
    | fullMatch e =>
      obtain ⟨b, hb, rfl⟩ := ht
      exact ⟨b, hi.matchText h2 h4 h5 h6 (l1 e hx) hb, rfl⟩
    | inapplicable es =>
      obtain ⟨bs, hb, rfl⟩ := ht
      exact ⟨bs, each_imp hb (fun e he b hb => hi.matchText h2 h4 h5 h6 (l2 es hx e he) hb), rfl⟩
    | noMatch es =>
      obtain ⟨bs, hb, rfl⟩ := ht
      exact ⟨bs, each_imp hb (fun e he b hb => hi.matchText h2 h4 h5 h6 (l3 es hx e he) hb), rfl⟩
    | unhandled e =>
      obtain ⟨b, hb, rfl⟩ := ht
      exact ⟨b, hi.expectationText hb, rfl⟩
    | _ => exact ht.elim

/-- C61: there are texts only about calls that take place: of a mock that is there and has not been moved from. -/
theorem C61_takes_place {tr : MTrace τ β} {mw : MWorld τ β} (h : MReach tr mw) {m j : Nat} {a : β} {loc : Nat → Text}
    {what : Nat → Option Text} {site : CallSite} {texts : List Text} (ht : mw.callTexts loc what site m j a = .ok texts) :
    ∃ mw' ev, mw.step (.call m j a) = .ok (mw', ev) := by
  obtain ⟨f, ft, hi⟩ := h.inv
  unfold MWorld.callTexts at ht
  split at ht
  · simp at ht
  · simp at ht
  · rename_i c cat con hfr
    simp only [MWorld.step, hfr, MWorld.plain]
    unfold World.callTexts at ht
    cases hm : mw.w.colls[c]? with
    | none => simp [hm, bind, Except.bind] at ht
    | some es =>
      have hlt : c < mw.w.colls.length := (List.getElem?_eq_some_iff.mp hm).1
      obtain ⟨w', ev, hs⟩ := C10_total hi.reach (m := c) (⟨a, cat, con⟩ : CallInfo β) ((hi.reach.view.2.mocks c).mpr hlt)
      rw [hs]
      exact ⟨_, _, rfl⟩

/-- C61: an expectation in the report of an unmatched call that was created through another overload has at least one of the two
lines among what failed, so that the reader can see why. -/
theorem C61_other {tr : MTrace τ β} {mw mw' : MWorld τ β} (h : MReach tr mw) {m j : Nat} {a : β} {ev : List Event}
    (hs : mw.step (.call m j a) = .ok (mw', ev)) {es : List Nat} (hes : Event.noMatch es ∈ ev) {e : Nat} (he : e ∈ es) :
    ∃ k sigs f i g, tr.holds m k ∧ tr.sigs k = some sigs ∧ sigs[j]? = some f ∧ tr.origin e = some (k, i) ∧ sigs[i]? = some g ∧
      (i ≠ j → overloadLines false f g ≠ []) ∧ (i = j → overloadLines false f g = []) := by
  obtain ⟨f, ft, hi⟩ := h.inv
  obtain ⟨k, g, idx, w', h1, h2, h3, h4, h5, h6, h7⟩ := hi.call hs
  obtain ⟨_, _, l3⟩ := listed hi.reach h7
  obtain ⟨d, t1, u2⟩ := l3 es hes e he
  have hm := hi.decl e
  rw [t1] at hm
  obtain ⟨k', i, g', cat, con, idx', args, extra, a1, a2, a3, a4, a5, a6, a7, a8, a9, a10⟩ := hm
  have hkk : k' = k := hi.sameMock a2 h2 a5 h6 (by omega)
  subst hkk
  refine ⟨k', _, g, i, g', h1, h3, h4, a1, a3, fun hij => hi.lines_ne h2 h4 h5 h6 ⟨d, t1, u2⟩ a1 a3 hij, ?_⟩
  rintro rfl
  rw [h4] at a3
  simp only [Option.some.injEq] at a3
  subst a3
  unfold overloadLines Sig.objects
  cases g.ref <;> simp

/-- C61: the report about an unfulfilled expectation of a mock, which may be dead by then, names the overload, too. -/
theorem C61_unfulfilled {tr : MTrace τ β} {mw mw' : MWorld τ β} (h : MReach tr mw) {e : Nat} {ev : List Event}
    (hs : mw.step (.destroy e) = .ok (mw', ev)) (loc : Nat → Text) :
    ∃ b, mw.w.unfulfilledText loc e = .ok (lit "Unfulfilled expectation:\n" ++ b ++ lit "\n") ∧ tr.expectationText loc e b := by
  obtain ⟨f, ft, hi⟩ := h.inv
  obtain ⟨w', hw, rfl⟩ := MWorld.plain_ok (o := .destroy e) hs
  obtain ⟨b, h1, h2⟩ := C51_unfulfilled hi.reach hw loc
  exact ⟨b, h1, hi.expectationText h2⟩

namespace MockReportExamples

/-- Three overloads that share a storage, with one expectation each; the one through the first is used up. -/
def ops : List (MOp Nat Nat) :=
  [.newMock threeSigs, .expect 0 0 1 1 [] [] [], .expect 0 1 1 1 [] [⟨fun i => some (i.args == 5), true, some "arg[0] == 5"⟩] [],
   .expect 0 2 1 1 [] [] [], .call 0 0 4]

def site : CallSite := ⟨lit "L", lit "void", []⟩

set_option maxRecDepth 20000 in
example : ((MWorld.final ops).1.callTexts (fun e => lit "E" ++ decimal e) (fun _ => none) site 0 1 4).toOption = some
    [(["No match for call from L\n", "constness: const\n", "value category: lvalue\n", "return type: void\n\n",
      "3 available expectation(s):\n", "Unmatched expectation: {\n", "from: E2\n", "failed:\n",
      "\texpect: from rvalue category overload,\n", "\texpect: from mutable qualified overload,\n", "}\n\n",
      "Unmatched expectation: {\n", "from: E1\n", "failed:\n", "\targ[0] == 5,\n", "passed:\n",
      "\texpect: from lvalue category overload,\n", "\texpect: from const qualified overload,\n", "}\n\n",
      "Unmatched expectation: {\n", "from: E0\n", "failed:\n", "\texpect: from mutable qualified overload,\n", "passed:\n",
      "\texpect: from lvalue category overload,\n", "}\n\n"].flatMap lit)] := by decide +kernel

set_option maxRecDepth 20000 in
example : ((MWorld.final (ops ++ [.dropMock 0])).1.w.unfulfilledText (fun e => lit "E" ++ decimal e) 2).toOption = some
    (["Unfulfilled expectation:\n", "Expectation report:\n", "from: E2\n",
      "times: matched never - exactly once is expected\n", "expects:\n", "\texpect: from rvalue category overload,\n",
      "\texpect: from mutable qualified overload,\n\n"].flatMap lit) := by decide +kernel

end MockReportExamples

end Mimic
