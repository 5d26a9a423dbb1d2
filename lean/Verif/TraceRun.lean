import Verif.TraceLemmas

/-!
# Every run of the library has a trace, and leaves the tracker the trace describes
-/

namespace Pest3

/-- A tracker whose contents after some events are `after`, from contents as in `Of`. -/
structure Follows {T : Type} (tk : TrackerOps T) (inp : Str) (Of : T → Prop) (after : T → List Ev → T) : Prop where
  nil : ∀ t, after t [] = t
  append : ∀ t a b, after t (a ++ b) = after (after t a) b
  positive : ∀ t es, tk.positive (after t es) = tk.positive t
  of_after : ∀ {t}, Of t → ∀ es, Of (after t es)
  of_set : ∀ {t}, Of t → ∀ b, Of (tk.setPositive b t)
  set : ∀ b t, tk.positive (tk.setPositive b t) = b
  back : ∀ b t es, tk.setPositive (tk.positive t) (after (tk.setPositive b t) es) = after t es
  of_enter : ∀ {t}, Of t → ∀ r {p : Position}, p.input = inp → Of (tk.enter r p t)
  enter : ∀ r p t, tk.positive (tk.enter r p t) = tk.positive t
  special : ∀ {t}, Of t → ∀ pos e, tk.special ⟨inp, pos⟩ e t = some (after t [.special pos e])
  leave : ∀ {t}, Of t → ∀ r pos ok es, tk.leave r ⟨inp, pos⟩ ok (after (tk.enter r ⟨inp, pos⟩ t) es) =
    some (after t [.rule r pos (tk.positive t) ok es])

/-- The tracker of the library. -/
theorem follows_real (inp : Str) : Follows realTracker inp (Tracker.Of inp) (fun t es => t.after inp es) where
  nil t := Tracker.after_nil t inp
  append t a b := Tracker.after_append t inp a b
  positive _ _ := rfl
  of_after h es := h.after es
  of_set h b := h.setPositive b
  set _ _ := rfl
  back _ _ _ := rfl
  of_enter h r _ hp := h.enter r hp
  enter r p t := by show (t.enter r p).positive = _; unfold Tracker.enter; cases t.stack <;> rfl
  special h pos e := Tracker.special_after h pos e
  leave h r pos ok es := Tracker.leave_after h r pos ok es

/-- Every result of the run has a trace, and the final tracker is the one the trace describes. -/
def TraceOut {S T : Type} (so : StackOps S) (saved : S → List (List Span)) (tk : TrackerOps T) (Of : T → Prop) (after : T → List Ev → T)
    (env : Env) (inp : Str) (item : Item) (p : Position) (st : St S T) (x : Out S T Position) : Prop :=
  ∀ c, Corr so p st c → p.input = inp → Of st.trk → ∀ o st', x = .ok (o, st') →
    ∃ r es, Traces env (tk.positive st.trk) item c r es ∧ CorrOut so saved inp (saved st.stk) o st' r ∧
      st'.trk = after st.trk es

/-- A result of the specification comes from a run of the node. -/
theorem Traces.peg {env : Env} {f item c r es} (h : Traces env f item c r es) : Peg env item c r := by
  induction h with
  | leafOk h1 h2 => exact .leafOk h1 h2
  | leafFail h1 => exact .leafFail h1
  | positiveOk _ ih => exact .positiveOk ih
  | positiveFail _ ih => exact .positiveFail ih
  | negativeOk _ ih => exact .negativeOk ih
  | negativeFail _ ih => exact .negativeFail ih
  | pushOk _ ih => exact .pushOk ih
  | pushFail _ ih => exact .pushFail ih
  | optSome _ ih => exact .optSome ih
  | optNone _ ih => exact .optNone ih
  | rep _ ih => exact .rep ih
  | seq _ ih => exact .seq ih
  | choice _ ih => exact .choice ih
  | rule _ ih => exact .rule ih
  | altsNil => exact .altsNil
  | altsHit _ ih => exact .altsHit ih
  | altsMiss _ _ ih1 ih2 => exact .altsMiss ih1 ih2
  | fieldsNil => exact .fieldsNil
  | fieldsFirst _ _ ih1 ih2 => exact .fieldsFirst ih1 ih2
  | fieldsFirstFail _ ih => exact .fieldsFirstFail ih
  | fieldsNext _ _ _ ih1 ih2 ih3 => exact .fieldsNext ih1 ih2 ih3
  | fieldsTriviaFail _ ih => exact .fieldsTriviaFail ih
  | fieldsNextFail _ _ ih1 ih2 => exact .fieldsNextFail ih1 ih2
  | unitFirst _ ih => exact .unitFirst ih
  | unitNext _ _ ih1 ih2 => exact .unitNext ih1 ih2
  | unitTriviaFail _ ih => exact .unitTriviaFail ih
  | repsMax h => exact .repsMax h
  | repsMore h _ _ ih1 ih2 => exact .repsMore h ih1 ih2
  | repsFew h _ h' ih => exact .repsFew h ih h'
  | repsStop h _ h' ih => exact .repsStop h ih h'

/-- Every derivation of the specification has a trace. -/
theorem Peg.traces {env : Env} {item c r} (h : Peg env item c r) : ∀ f, ∃ es, Traces env f item c r es := by
  induction h with
  | leafOk h1 h2 => exact fun f => ⟨_, .leafOk h1 h2⟩
  | leafFail h1 => exact fun f => ⟨_, .leafFail h1⟩
  | positiveOk _ ih => exact fun f => let ⟨_, h⟩ := ih true; ⟨_, .positiveOk h⟩
  | positiveFail _ ih => exact fun f => let ⟨_, h⟩ := ih true; ⟨_, .positiveFail h⟩
  | negativeOk _ ih => exact fun f => let ⟨_, h⟩ := ih false; ⟨_, .negativeOk h⟩
  | negativeFail _ ih => exact fun f => let ⟨_, h⟩ := ih false; ⟨_, .negativeFail h⟩
  | pushOk _ ih => exact fun f => let ⟨_, h⟩ := ih f; ⟨_, .pushOk h⟩
  | pushFail _ ih => exact fun f => let ⟨_, h⟩ := ih f; ⟨_, .pushFail h⟩
  | optSome _ ih => exact fun f => let ⟨_, h⟩ := ih f; ⟨_, .optSome h⟩
  | optNone _ ih => exact fun f => let ⟨_, h⟩ := ih f; ⟨_, .optNone h⟩
  | rep _ ih => exact fun f => let ⟨_, h⟩ := ih f; ⟨_, .rep h⟩
  | seq _ ih => exact fun f => let ⟨_, h⟩ := ih f; ⟨_, .seq h⟩
  | choice _ ih => exact fun f => let ⟨_, h⟩ := ih f; ⟨_, .choice h⟩
  | rule _ ih => exact fun f => let ⟨_, h⟩ := ih f; ⟨_, .rule h⟩
  | altsNil => exact fun f => ⟨_, .altsNil⟩
  | altsHit _ ih => exact fun f => let ⟨_, h⟩ := ih f; ⟨_, .altsHit h⟩
  | altsMiss _ _ ih1 ih2 => exact fun f => let ⟨_, h⟩ := ih1 f; let ⟨_, h'⟩ := ih2 f; ⟨_, .altsMiss h h'⟩
  | fieldsNil => exact fun f => ⟨_, .fieldsNil⟩
  | fieldsFirst _ _ ih1 ih2 =>
    exact fun f => let ⟨_, h⟩ := ih1 f; let ⟨_, h'⟩ := ih2 f; ⟨_, .fieldsFirst h h'⟩
  | fieldsFirstFail _ ih => exact fun f => let ⟨_, h⟩ := ih f; ⟨_, .fieldsFirstFail h⟩
  | fieldsNext _ _ _ ih1 ih2 ih3 =>
    exact fun f => let ⟨_, h⟩ := ih1 f; let ⟨_, h'⟩ := ih2 f; let ⟨_, h''⟩ := ih3 f; ⟨_, .fieldsNext h h' h''⟩
  | fieldsTriviaFail _ ih => exact fun f => let ⟨_, h⟩ := ih f; ⟨_, .fieldsTriviaFail h⟩
  | fieldsNextFail _ _ ih1 ih2 =>
    exact fun f => let ⟨_, h⟩ := ih1 f; let ⟨_, h'⟩ := ih2 f; ⟨_, .fieldsNextFail h h'⟩
  | unitFirst _ ih => exact fun f => let ⟨_, h⟩ := ih f; ⟨_, .unitFirst h⟩
  | unitNext _ _ ih1 ih2 => exact fun f => let ⟨_, h⟩ := ih1 f; let ⟨_, h'⟩ := ih2 f; ⟨_, .unitNext h h'⟩
  | unitTriviaFail _ ih => exact fun f => let ⟨_, h⟩ := ih f; ⟨_, .unitTriviaFail h⟩
  | repsMax h => exact fun f => ⟨_, .repsMax h⟩
  | repsMore hi _ _ ih1 ih2 =>
    exact fun f => let ⟨_, h⟩ := ih1 f; let ⟨_, h'⟩ := ih2 f; ⟨_, .repsMore hi h h'⟩
  | repsFew hi _ hj ih => exact fun f => let ⟨_, h⟩ := ih f; ⟨_, .repsFew hi h hj⟩
  | repsStop hi _ hj ih => exact fun f => let ⟨_, h⟩ := ih f; ⟨_, .repsStop hi h hj⟩

section Sound
variable {S : Type} {so : StackOps S} {saved : S → List (List Span)} (hl : Lawful so saved)
  {T : Type} {tk : TrackerOps T} {Of : T → Prop} {after : T → List Ev → T}
  {env : Env} {inp : Str} (hf : Follows tk inp Of after) {rec_ : CheckFn S T}
  (hr : ∀ n p st, TraceOut so saved tk Of after env inp (.node n) p st (rec_ n p st))
include hl hf hr

theorem checkAlts_trace (p : Position) : ∀ (l : List Node) (st : St S T),
    TraceOut so saved tk Of after env inp (.alts l) p st (checkAlts so rec_ p l st)
  | [], st, c, hc, hin, ht, o, st', h => by
    cases h; exact ⟨none, [], .altsNil, .fail rfl rfl, (hf.nil _).symm⟩
  | a :: l, st, c, hc, hin, ht, o, st', h => by
    simp only [checkAlts] at h
    obtain ⟨o1, st1, h1, h2⟩ := Out.bind_eq_ok.1 h
    obtain ⟨r, es, hp, hco, e⟩ := hr a p _ c (hc.snapshot hl) hin ht _ _ h1
    have e : st1.trk = after st.trk es := e
    cases hco with
    | fail e1 e2 =>
      subst e1
      obtain ⟨r', es', hp', hco', e'⟩ := checkAlts_trace p l _ c (hc.of_elems (restore_elems hl e2)) hin
        (show Of st1.trk by rw [e]; exact hf.of_after ht es) o st' h2
      have e' : st'.trk = after st1.trk es' := e'
      have hp' : Traces env (tk.positive st1.trk) _ c r' es' := hp'
      rw [restore_saved hl e2] at hco'
      rw [e, ← hf.append] at e'
      rw [e, hf.positive] at hp'
      exact ⟨r', _, .altsMiss hp hp', hco', e'⟩
    | @ok q c' e1 e2 e3 e4 =>
      subst e1
      cases h2
      exact ⟨some c', es, .altsHit hp, .ok rfl e2 (e3.clear hl) (clear_saved hl e4), e⟩

omit hl in
theorem checkFields_trace : ∀ (l : List (Node × Node)) (first : Bool) (p : Position) (st : St S T),
    TraceOut so saved tk Of after env inp (.fields first l) p st (checkFields rec_ first p l st)
  | [], first, p, st, c, hc, hin, ht, o, st', h => by
    cases h; exact ⟨some c, [], .fieldsNil, .ok rfl hin hc rfl, (hf.nil _).symm⟩
  | (tr, n) :: l, true, p, st, c, hc, hin, ht, o, st', h => by
    simp only [checkFields, if_true, Out.andThen_some] at h
    rcases Out.andThen_eq_ok.1 h with ⟨q, st1, h1, h2⟩ | ⟨st1, h1, h2⟩
    · obtain ⟨r, es, hp, hco, e⟩ := hr n p st c hc hin ht _ _ h1
      cases hco with
      | fail e1 _ => cases e1
      | @ok q' c' e1 e2 e3 e4 =>
        cases e1
        obtain ⟨r', es', hp', hco', e'⟩ := checkFields_trace l false q st1 c' e3 e2
          (by rw [e]; exact hf.of_after ht es) o st' h2
        rw [e4] at hco'
        rw [e, ← hf.append] at e'
        rw [e, hf.positive] at hp'
        exact ⟨r', _, .fieldsFirst hp hp', hco', e'⟩
    · obtain ⟨r, es, hp, hco, e⟩ := hr n p st c hc hin ht _ _ h1
      cases h2
      cases hco with
      | fail e1 e2 => exact ⟨none, _, .fieldsFirstFail hp, .fail rfl e2, e⟩
      | ok e1 _ _ _ => cases e1
  | (tr, n) :: l, false, p, st, c, hc, hin, ht, o, st', h => by
    simp only [checkFields, Bool.false_eq_true, if_false] at h
    rcases Out.andThen_eq_ok.1 h with ⟨q, st1, h1, h2⟩ | ⟨st1, h1, h2⟩
    · obtain ⟨r, es, hp, hco, e⟩ := hr tr p st c hc hin ht _ _ h1
      cases hco with
      | fail e1 _ => cases e1
      | @ok q' c' e1 e2 e3 e4 =>
        cases e1
        have ht1 : Of st1.trk := by rw [e]; exact hf.of_after ht es
        rcases Out.andThen_eq_ok.1 h2 with ⟨q2, st2, h3, h4⟩ | ⟨st2, h3, h4⟩
        · obtain ⟨r', es', hp', hco', e'⟩ := hr n q st1 c' e3 e2 ht1 _ _ h3
          cases hco' with
          | fail e1 _ => cases e1
          | @ok q3 c'' f1 f2 f3 f4 =>
            cases f1
            obtain ⟨r'', es'', hp'', hco'', e''⟩ := checkFields_trace l false q2 st2 c'' f3 f2
              (by rw [e']; exact hf.of_after ht1 es') o st' h4
            rw [f4, e4] at hco''
            rw [e', ← hf.append, e, ← hf.append] at e''
            rw [e', e, hf.positive, hf.positive] at hp''
            rw [e, hf.positive] at hp'
            exact ⟨r'', _, .fieldsNext hp hp' hp'', hco'', e''⟩
        · obtain ⟨r', es', hp', hco', e'⟩ := hr n q st1 c' e3 e2 ht1 _ _ h3
          cases h4
          rw [e, ← hf.append] at e'
          rw [e, hf.positive] at hp'
          cases hco' with
          | fail f1 f2 => exact ⟨none, _, .fieldsNextFail hp hp', .fail rfl (f2.trans e4), e'⟩
          | ok f1 _ _ _ => cases f1
    · obtain ⟨r, es, hp, hco, e⟩ := hr tr p st c hc hin ht _ _ h1
      cases h2
      cases hco with
      | fail e1 e2 => exact ⟨none, _, .fieldsTriviaFail hp, .fail rfl e2, e⟩
      | ok e1 _ _ _ => cases e1

omit hl in
theorem checkUnit_trace (n tr : Node) (i : Nat) (p : Position) (st : St S T) :
    TraceOut so saved tk Of after env inp (.unit n tr i) p st (checkUnit rec_ n tr i p st) := by
  intro c hc hin ht o st' h
  cases i with
  | zero =>
    simp only [checkUnit, gt_iff_lt, Nat.lt_irrefl, if_false, Out.andThen_some] at h
    have h' : rec_ n p st = .ok (o, st') := by
      rcases Out.andThen_eq_ok.1 h with ⟨q, st1, h1, h2⟩ | ⟨st1, h1, h2⟩
      · cases h2; exact h1
      · cases h2; exact h1
    obtain ⟨r, es, hp, hco, e⟩ := hr n p st c hc hin ht _ _ h'
    exact ⟨r, _, .unitFirst hp, hco, e⟩
  | succ i =>
    simp only [checkUnit, gt_iff_lt, Nat.zero_lt_succ, if_true] at h
    rcases Out.andThen_eq_ok.1 h with ⟨q, st1, h1, h2⟩ | ⟨st1, h1, h2⟩
    · obtain ⟨r, es, hp, hco, e⟩ := hr tr p st c hc hin ht _ _ h1
      cases hco with
      | fail e1 _ => cases e1
      | @ok q' c' e1 e2 e3 e4 =>
        cases e1
        have h' : rec_ n q st1 = .ok (o, st') := by
          rcases Out.andThen_eq_ok.1 h2 with ⟨q, st1, h1, h2⟩ | ⟨st1, h1, h2⟩
          · cases h2; exact h1
          · cases h2; exact h1
        obtain ⟨r', es', hp', hco', e'⟩ := hr n q st1 c' e3 e2 (by rw [e]; exact hf.of_after ht es) _ _ h'
        rw [e4] at hco'
        rw [e, ← hf.append] at e'
        rw [e, hf.positive] at hp'
        exact ⟨r', _, .unitNext hp hp', hco', e'⟩
    · obtain ⟨r, es, hp, hco, e⟩ := hr tr p st c hc hin ht _ _ h1
      cases h2
      cases hco with
      | fail e1 e2 => exact ⟨none, _, .unitTriviaFail hp, .fail rfl e2, e⟩
      | ok e1 _ _ _ => cases e1

theorem checkRep_trace (n tr : Node) (min max : Nat) : ∀ (k i : Nat) (p : Position) (st : St S T),
    k = max - i → TraceOut so saved tk Of after env inp (.reps n tr min max i) p st (checkRep so rec_ n tr min k i p st)
  | 0, i, p, st, hk, c, hc, hin, ht, o, st', h => by
    cases h; exact ⟨some c, [], .repsMax (by omega), .ok rfl hin hc rfl, (hf.nil _).symm⟩
  | k + 1, i, p, st, hk, c, hc, hin, ht, o, st', h => by
    simp only [checkRep, restoreOnNone] at h
    obtain ⟨o1, st1, h1, h2⟩ := Out.bind_eq_ok.1 h
    obtain ⟨o0, st0, h0, h1⟩ := Out.bind_eq_ok.1 h1
    obtain ⟨r, es, hp, hco, e⟩ := checkUnit_trace hf hr n tr i p _ c (hc.snapshot hl) hin ht _ _ h0
    have e : st0.trk = after st.trk es := e
    have hlt : i < max := by omega
    cases hco with
    | fail e1 e2 =>
      subst e1
      simp only [Res.ok.injEq, Prod.mk.injEq] at h1
      obtain ⟨rfl, rfl⟩ := h1
      simp only at h2
      have hc' := hc.of_elems (restore_elems hl e2)
      have hs' := restore_saved hl e2
      split at h2
      · next hi => cases h2; exact ⟨none, _, .repsFew hlt hp hi, .fail rfl hs', e⟩
      · next hi => cases h2; exact ⟨some c, _, .repsStop hlt hp (by omega), .ok rfl hin hc' hs', e⟩
    | @ok q c' e1 e2 e3 e4 =>
      subst e1
      simp only [Res.ok.injEq, Prod.mk.injEq] at h1
      obtain ⟨rfl, rfl⟩ := h1
      obtain ⟨r', es', hp', hco', e'⟩ := checkRep_trace n tr min max k (i + 1) q _ (by omega) c' (e3.clear hl) e2
        (show Of st0.trk by rw [e]; exact hf.of_after ht es) o st' h2
      have e' : st'.trk = after st0.trk es' := e'
      have hp' : Traces env (tk.positive st0.trk) _ c' r' es' := hp'
      rw [clear_saved hl e4] at hco'
      rw [e, ← hf.append] at e'
      rw [e, hf.positive] at hp'
      exact ⟨r', _, .repsMore hlt hp hp', hco', e'⟩

theorem checkStep_trace (n : Node) (p : Position) (st : St S T) :
    TraceOut so saved tk Of after env inp (.node n) p st (checkStep so tk rec_ env n p st) := by
  intro c hc hin ht o st' h
  cases n with
  | leaf l =>
    simp only [checkStep] at h
    rw [leafCheck_eq hl tk hc.at_ (stk := c.stk) hc.texts] at h
    cases hs : leafSpecial l c.stk.length with
    | some e =>
      rw [hs] at h
      simp only at h
      have hpe : p = ⟨inp, utf8Len c.pre⟩ := by
        have := hc.at_.2
        cases p; simp only at hin this; rw [hin, this]
      have hsp : tk.special p e st.trk = some (after st.trk [.special (utf8Len c.pre) e]) := by
        rw [hpe]; exact hf.special ht _ _
      rw [hsp] at h
      cases h
      refine ⟨none, leafEvents l c, .leafFail (leafSpecial_spec hs), .fail rfl (leafStk_saved hl _ _ _), ?_⟩
      rw [leafEvents, ← leafSpecial_eq, hs]
    | none =>
      rw [hs] at h
      cases h
      cases hls : leafSpec l c with
      | none =>
        refine ⟨none, leafEvents l c, .leafFail hls, .fail rfl (leafStk_saved hl _ _ _), ?_⟩
        rw [leafEvents, ← leafSpecial_eq, hs]
        exact (hf.nil _).symm
      | some m =>
        obtain ⟨m, stk⟩ := m
        obtain ⟨rest, hrest⟩ := leafSpec_prefix hls
        refine ⟨_, [], .leafOk hls hrest, .ok (q := p.after m) rfl hin ?_ (leafStk_saved hl _ _ _),
          (hf.nil _).symm⟩
        have hp : p.At c.pre (m ++ rest) := by rw [← hrest]; exact hc.at_
        refine ⟨hp.advance, ?_⟩
        have he := leafStk_elems hl l true st.stk
        simp only [Option.isSome_some]
        rw [he, leafSpec_stk hls]
        exact hc.texts.leafElems l true
  | positive n =>
    simp only [checkStep] at h
    obtain ⟨o1, st1, h1, h2⟩ := Out.bind_eq_ok.1 h
    obtain ⟨r, es, hp, hco, e⟩ := hr n p ((st.setPositive tk true).snapshot so) c
      (hc.setPositive.snapshot hl) hin (hf.of_set ht true) _ _ h1
    cases h2
    have e' : tk.setPositive (tk.positive st.trk) st1.trk = after st.trk es := by
      rw [e]; exact hf.back _ _ _
    rw [show tk.positive ((st.setPositive tk true).snapshot so).trk = true from hf.set _ _] at hp
    cases hco with
    | fail e1 e2 =>
      subst e1
      exact ⟨none, _, .positiveFail hp, .fail rfl (restore_saved hl e2), e'⟩
    | @ok q c' e1 e2 e3 e4 =>
      subst e1
      exact ⟨some c, _, .positiveOk hp, .ok rfl hin (hc.of_elems (restore_elems hl e4)) (restore_saved hl e4), e'⟩
  | negative n =>
    simp only [checkStep] at h
    obtain ⟨o1, st1, h1, h2⟩ := Out.bind_eq_ok.1 h
    obtain ⟨r, es, hp, hco, e⟩ := hr n p ((st.setPositive tk false).snapshot so) c
      (hc.setPositive.snapshot hl) hin (hf.of_set ht false) _ _ h1
    cases h2
    have e' : tk.setPositive (tk.positive st.trk) st1.trk = after st.trk es := by
      rw [e]; exact hf.back _ _ _
    rw [show tk.positive ((st.setPositive tk false).snapshot so).trk = false from hf.set _ _] at hp
    cases hco with
    | fail e1 e2 =>
      subst e1
      exact ⟨some c, _, .negativeOk hp, .ok rfl hin (hc.of_elems (restore_elems hl e2)) (restore_saved hl e2), e'⟩
    | @ok q c' e1 e2 e3 e4 =>
      subst e1
      exact ⟨none, _, .negativeFail hp, .fail rfl (restore_saved hl e4), e'⟩
  | push n =>
    simp only [checkStep] at h
    rcases Out.andThen_eq_ok.1 h with ⟨q, st1, h1, h2⟩ | ⟨st1, h1, h2⟩
    · obtain ⟨r, es, hp, hco, e⟩ := hr n p st c hc hin ht _ _ h1
      cases hco with
      | fail e1 _ => cases e1
      | @ok q' c' e1 e2 e3 e4 =>
        cases e1
        obtain ⟨m, hm1, hm2⟩ := hp.peg.consumes _ rfl
        obtain ⟨pre', suf', stk'⟩ := c'
        simp only at hm1 hm2
        subst hm1
        obtain ⟨hs, hc'⟩ := Corr.push hl hc.at_ hm2 e3 (e2.trans hin.symm)
        rw [hs] at h2
        cases h2
        exact ⟨_, _, .pushOk hp, .ok rfl e2 hc' ((hl.saved_push _ _).trans e4), e⟩
    · obtain ⟨r, es, hp, hco, e⟩ := hr n p st c hc hin ht _ _ h1
      cases h2
      cases hco with
      | fail e1 e2 => exact ⟨none, _, .pushFail hp, .fail rfl e2, e⟩
      | ok e1 _ _ _ => cases e1
  | opt n =>
    simp only [checkStep] at h
    obtain ⟨o1, st1, h1, h2⟩ := Out.bind_eq_ok.1 h
    obtain ⟨r, es, hp, hco, e⟩ := hr n p _ c (hc.snapshot hl) hin ht _ _ h1
    cases hco with
    | fail e1 e2 =>
      subst e1
      cases h2
      exact ⟨some c, _, .optNone hp, .ok rfl hin (hc.of_elems (restore_elems hl e2)) (restore_saved hl e2), e⟩
    | @ok q c' e1 e2 e3 e4 =>
      subst e1
      cases h2
      exact ⟨some c', _, .optSome hp, .ok rfl e2 (e3.clear hl) (clear_saved hl e4), e⟩
  | rep n tr min max =>
    obtain ⟨r, es, hp, hco, e⟩ := checkRep_trace hl hf hr n tr min max max 0 p st rfl c hc hin ht o st' h
    exact ⟨r, _, .rep hp, hco, e⟩
  | seq fs =>
    obtain ⟨r, es, hp, hco, e⟩ := checkFields_trace hf hr fs true p st c hc hin ht o st' h
    exact ⟨r, _, .seq hp, hco, e⟩
  | choice l =>
    obtain ⟨r, es, hp, hco, e⟩ := checkAlts_trace hl hf hr p l st c hc hin ht o st' h
    exact ⟨r, _, .choice hp, hco, e⟩
  | rule id =>
    simp only [checkStep] at h
    obtain ⟨o1, st1, h1, h2⟩ := Out.bind_eq_ok.1 h
    simp only [St.leave] at h2
    obtain ⟨r, es, hp, hco, e⟩ := hr _ p (st.enter tk (env id).label p) c ⟨hc.at_, hc.texts⟩ hin
      (hf.of_enter ht _ hin) _ _ h1
    have e : st1.trk = after (tk.enter (env id).label p st.trk) es := e
    have hp : Traces env (tk.positive st.trk) (.node (env id).body) c r es := by
      rw [← hf.enter (env id).label p]; exact hp
    have hpe : p = ⟨inp, utf8Len c.pre⟩ := by
      have := hc.at_.2
      cases p; simp only at hin this; rw [hin, this]
    have hrs : o1.isSome = r.isSome := by
      cases hco with
      | fail e1 _ => rw [e1]; rfl
      | ok e1 _ _ _ => rw [e1]; rfl
    have hlv : tk.leave (env id).label p o1.isSome st1.trk =
        some (after st.trk [.rule (env id).label (utf8Len c.pre) (tk.positive st.trk) r.isSome es]) := by
      rw [e, hpe, hrs]
      exact hf.leave ht _ _ _ _
    rw [hlv] at h2
    cases h2
    refine ⟨r, _, .rule hp, ?_, rfl⟩
    cases hco with
    | fail e1 e2 => exact .fail e1 e2
    | ok e1 e2 e3 e4 => exact .ok e1 e2 ⟨e3.at_, e3.texts⟩ e4

end Sound

/-- Every run of `check` has a trace. -/
theorem check_follows {S T : Type} {so : StackOps S} {saved : S → List (List Span)} (hl : Lawful so saved) {tk : TrackerOps T}
    {Of : T → Prop} {after : T → List Ev → T} (env : Env) {inp : Str} (hf : Follows tk inp Of after) : ∀ fuel n p st,
    TraceOut so saved tk Of after env inp (.node n) p st (check so tk env fuel n p st)
  | 0, _, _, _, _, _, _, _, _, _, h => by cases h
  | fuel + 1, n, p, st, c, hc, hin, ht, o, st', h =>
    checkStep_trace hl hf (check_follows hl env hf fuel) n p st c hc hin ht o st' h

/-- The same for the tracker of the library. -/
theorem check_trace {S : Type} {so : StackOps S} {saved : S → List (List Span)} (hl : Lawful so saved)
    (env : Env) (inp : Str) (fuel : Nat) (n : Node) (p : Position) (st : St S Tracker) (c : Cfg) (hc : Corr so p st c)
    (hin : p.input = inp) (ht : Tracker.Of inp st.trk) (o : Option Position) (st' : St S Tracker)
    (h : check so realTracker env fuel n p st = .ok (o, st')) :
    ∃ r es, Traces env st.trk.positive (.node n) c r es ∧ CorrOut so saved inp (saved st.stk) o st' r ∧
      st'.trk = st.trk.after inp es :=
  check_follows hl env (follows_real inp) fuel n p st c hc hin ht o st' h

end Pest3
