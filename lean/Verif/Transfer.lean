import Verif.BuildLemmas

/-!
# Completeness for the library's run; determinism
-/

namespace Pest3

/-- The stack and tracker handed to a parse are usable with input `inp`: all spans on the stack
(and in the stacks saved by open snapshots) are spans of some text, and the tracker
belongs to the same text. -/
structure Ready {S : Type} (so : StackOps S) (saved : S → List (List Span)) (inp : Str) (st : St S Tracker) :
    Prop where
  valid : ∀ x ∈ so.elems st.stk, x.Valid
  svalid : ∀ c ∈ saved st.stk, ∀ x ∈ c, x.Valid
  text : st.trk.position.input.text = inp.text

section
variable {S : Type} {so : StackOps S} {saved : S → List (List Span)}

/-- The bare state corresponding to a state of the library. -/
def bareOf (so : StackOps S) (saved : S → List (List Span)) (st : St S Tracker) : BareSt :=
  ⟨⟨so.elems st.stk, saved st.stk⟩, ()⟩

theorem Ready.rst {inp : Str} {st : St S Tracker} (h : Ready so saved inp st) :
    RSt so saved inp (saved st.stk, st.trk.frames, st.trk.positive) st (bareOf so saved st) :=
  ⟨rfl, rfl, rfl, h.valid, h.svalid, h.text.symm, rfl, rfl⟩

theorem RSt.ready {inp : Str} {w} {st : St S Tracker} {i} (h : RSt so saved inp w st i) :
    Ready so saved inp st :=
  ⟨by rw [h.elems]; exact h.valid, by rw [h.saved]; exact h.svalid, h.text.symm⟩

theorem ready_init (hl : Lawful so saved) (inp : Str) : Ready so saved inp (initSt so inp) :=
  ⟨by simp [initSt, hl.elems_empty], by simp [initSt, hl.saved_empty], rfl⟩

theorem good_start (inp : Str) : Good inp (Position.fromStart inp) :=
  ⟨Position.valid_iff_at.2 ⟨[], inp.text, rfl, rfl⟩, rfl⟩

/-- The configuration at the start of a parse. -/
def startCfg (inp : Str) : Cfg := ⟨[], inp.text, []⟩

theorem corr_start (hl : Lawful so saved) (inp : Str) :
    Corr so (Position.fromStart inp) (initSt so inp) (startCfg inp) :=
  ⟨⟨rfl, rfl⟩, by simp only [initSt, hl.elems_empty, startCfg]; exact .nil⟩

/-- Every valid cursor and stack corresponds to a configuration. -/
theorem corr_exists {inp : Str} {p : Position} {st : St S Tracker} (hp : Good inp p)
    (hr : Ready so saved inp st) : ∃ c, Corr so p st c := by
  obtain ⟨pre, suf, hat⟩ := Position.valid_iff_at.1 hp.1
  obtain ⟨stk, ht⟩ := texts_of_valid hr.valid
  exact ⟨⟨pre, suf, stk⟩, hat, ht⟩

theorem Texts.det {ss : List Span} {ts ts' : List Text} (h : Texts ss ts) (h' : Texts ss ts') : ts = ts' := by
  induction h generalizing ts' with
  | nil => cases h'; rfl
  | cons h1 _ ih =>
    cases h' with
    | cons h2 h3 =>
      unfold Span.Is at h1 h2
      rw [h1] at h2
      cases h2
      rw [ih h3]

theorem Corr.det {T : Type} {p : Position} {st : St S T} {c c' : Cfg} (h : Corr so p st c) (h' : Corr so p st c') :
    c = c' := by
  obtain ⟨pre, suf, stk⟩ := c
  obtain ⟨pre', suf', stk'⟩ := c'
  obtain ⟨rfl, rfl⟩ := h.at_.unique h'.at_
  have := h.texts.det h'.texts
  simp only at this
  rw [this]

/-- A run of the library on usable arguments: what it returns. -/
theorem real_run (hl : Lawful so saved) (env : Env) {inp : Str} {p : Position} {st : St S Tracker} {c : Cfg}
    (hp : Good inp p) (hr : Ready so saved inp st) (hco : Corr so p st c) (fuel : Nat) (n : Node) :
    Run so saved env inp (fun w s => ∃ i, RSt so saved inp w s i) (fun t => [t]) (.node n)
      (saved st.stk, st.trk.frames, st.trk.positive) p (saved st.stk) c (so.elems st.stk)
      (parse so realTracker env fuel n p st) (check so realTracker env fuel n p st) :=
  parse_run hl (closed_real hl inp) env fuel n _ p st c hp ⟨_, hr.rst⟩ hco

/-- Every derivation of the specification is found by the library's `check`. -/
theorem check_complete (hl : Lawful so saved) {env : Env} {inp : Str} {p : Position} {st : St S Tracker} {c : Cfg}
    {n : Node} {r : Option Cfg} (hp : Good inp p) (hr : Ready so saved inp st) (hco : Corr so p st c)
    (h : Peg env (.node n) c r) :
    ∃ N o st', (∀ fuel, N ≤ fuel → check so realTracker env fuel n p st = .ok (o, st')) ∧
      CorrOut so saved inp (saved st.stk) o st' r := by
  have hcb : Corr idealOps p (bareOf so saved st) c := ⟨hco.at_, hco.texts⟩
  obtain ⟨o, st', ⟨N, hN⟩, hcorr⟩ := peg_complete h p (bareOf so saved st) hcb
  have hrel := check_rel (compat_bare hl inp) env (fun _ => node_all_true _) N n (node_all_true n) _ p p st _
    hp.rpos hr.rst
  have hb := hN N (Nat.le_refl _)
  simp only [runItem] at hb
  rw [hb] at hrel
  revert hrel
  generalize hx : check so realTracker env N n p st = x
  intro hrel
  cases hrel with
  | @ok o1 _ s1 _ ho hs =>
    refine ⟨N, o1, s1, fun fuel hf => ?_, ?_⟩
    · rcases check_mono so realTracker env hf n p st with h | h
      · rw [hx] at h; cases h
      · rw [← h, hx]
    · have hsv : saved s1.stk = saved st.stk := hs.saved.trans hs.world
      cases hcorr with
      | fail e1 e2 =>
        subst e1
        cases ho
        exact .fail rfl hsv
      | @ok q c' e1 e2 e3 e4 =>
        subst e1
        cases ho with
        | some ha =>
          obtain ⟨⟨rfl, h1, h2⟩, _, _⟩ := ha
          exact .ok rfl h2 ⟨e3.at_, by rw [hs.elems]; exact e3.texts⟩ hsv

/-- Every derivation of the specification is found by the library's `try_parse_with_partial`. -/
theorem parse_complete (hl : Lawful so saved) {env : Env} {inp : Str} {p : Position} {st : St S Tracker} {c : Cfg}
    {n : Node} {r : Option Cfg} (hp : Good inp p) (hr : Ready so saved inp st) (hco : Corr so p st c)
    (h : Peg env (.node n) c r) :
    ∃ N o st', (∀ fuel, N ≤ fuel → parse so realTracker env fuel n p st = .ok (o, st')) ∧
      CorrOut so saved inp (saved st.stk) (o.map (·.1)) st' r := by
  obtain ⟨N, o, st', hN, hcorr⟩ := check_complete hl hp hr hco h
  have hrun := real_run hl env hp hr hco N n
  rw [hN N (Nat.le_refl _)] at hrun
  revert hrun
  generalize hx : parse so realTracker env N n p st = x
  intro hrun
  cases hrun with
  | fail _ _ _ =>
    refine ⟨N, none, st', fun fuel hf => ?_, hcorr⟩
    rcases parse_mono so realTracker env hf n p st with h | h
    · rw [hx] at h; cases h
    · rw [← h, hx]
  | @ok q t _ _ _ _ _ _ _ _ =>
    refine ⟨N, some (q, t), st', fun fuel hf => ?_, hcorr⟩
    rcases parse_mono so realTracker env hf n p st with h | h
    · rw [hx] at h; cases h
    · rw [← h, hx]

end

/-! ## Determinism of the specification -/

/-- A stack of spans with given texts. -/
theorem texts_realise : ∀ ts : List Text, ∃ ss, Texts ss ts
  | [] => ⟨[], .nil⟩
  | t :: ts => by
    obtain ⟨ss, h⟩ := texts_realise ts
    refine ⟨⟨⟨0, t⟩, 0, 0 + utf8Len t⟩ :: ss, .cons ?_ h⟩
    have : (Position.mk ⟨0, t⟩ 0).At [] (t ++ []) := ⟨by simp, rfl⟩
    exact this.span_is

theorem CorrOut.det {inp : Str} {sv sv' : List (List Span)} {o : Option Position} {st : BareSt} {r r' : Option Cfg}
    (h : CorrOut idealOps IdealStack.saved inp sv o st r)
    (h' : CorrOut idealOps IdealStack.saved inp sv' o st r') : r = r' := by
  cases h with
  | fail e =>
    cases h' with
    | fail _ => rfl
    | ok e' => rw [e] at e'; cases e'
  | ok e _ hc =>
    cases h' with
    | fail e' => rw [e] at e'; cases e'
    | ok e' _ hc' =>
      rw [e] at e'
      cases e'
      rw [hc.det hc']

theorem Peg.det {env : Env} {item : Item} {c : Cfg} {r r' : Option Cfg} (h : Peg env item c r)
    (h' : Peg env item c r') : r = r' := by
  obtain ⟨ss, hss⟩ := texts_realise c.stk
  let p : Position := ⟨⟨0, c.pre ++ c.suf⟩, utf8Len c.pre⟩
  let st : BareSt := ⟨⟨ss, []⟩, ()⟩
  have hco : Corr idealOps p st c := ⟨⟨rfl, rfl⟩, hss⟩
  obtain ⟨o, st', ⟨N, hN⟩, h1⟩ := peg_complete h p st hco
  obtain ⟨o2, st2, ⟨N2, hN2⟩, h2⟩ := peg_complete h' p st hco
  have e1 := hN (max N N2) (Nat.le_max_left _ _)
  have e2 := hN2 (max N N2) (Nat.le_max_right _ _)
  rw [e1] at e2
  cases e2
  exact h1.det h2

theorem split_first {α : Type} {P : α → Prop} {pre pre' post post' : List α} {a a' : α}
    (h : pre ++ a :: post = pre' ++ a' :: post') (h1 : ∀ b ∈ pre, ¬ P b) (h2 : ∀ b ∈ pre', ¬ P b)
    (ha : P a) (ha' : P a') : pre = pre' ∧ a = a' ∧ post = post' := by
  induction pre generalizing pre' with
  | nil =>
    cases pre' with
    | nil => simp only [List.nil_append, List.cons.injEq] at h; exact ⟨rfl, h.1, h.2⟩
    | cons b pre' =>
      simp only [List.nil_append, List.cons_append, List.cons.injEq] at h
      rw [h.1] at ha
      exact absurd ha (h2 b (by simp))
  | cons b pre ih =>
    cases pre' with
    | nil =>
      simp only [List.nil_append, List.cons_append, List.cons.injEq] at h
      rw [← h.1] at ha'
      exact absurd ha' (h1 b (by simp))
    | cons b' pre' =>
      simp only [List.cons_append, List.cons.injEq] at h
      obtain ⟨rfl, h⟩ := h
      obtain ⟨h3, h4, h5⟩ := ih h (fun x hx => h1 x (by simp [hx])) (fun x hx => h2 x (by simp [hx]))
      exact ⟨by rw [h3], h4, h5⟩

theorem Builds.det {env : Env} {inp : Str} {item : Item} {c c' : Cfg} {ss ss' : List Span} {ts : List Tree}
    (h : Builds env inp item c ss c' ss' ts) :
    ∀ {c₂ ss₂ ts₂}, Builds env inp item c ss c₂ ss₂ ts₂ → c' = c₂ ∧ ss' = ss₂ ∧ ts = ts₂ := by
  induction h with
  | leaf h1 h2 h3 =>
    intro c₂ ss₂ ts₂ h
    cases h with
    | leaf g1 g2 g3 =>
      rw [h1] at g1; cases g1
      rw [h2] at g2
      have := List.append_cancel_left g2
      subst this
      rw [h3] at g3; cases g3
      exact ⟨rfl, rfl, rfl⟩
  | positive _ ih =>
    intro c₂ ss₂ ts₂ h
    cases h with
    | positive g =>
      obtain ⟨_, _, e⟩ := ih g
      cases e
      exact ⟨rfl, rfl, rfl⟩
  | negative _ =>
    intro c₂ ss₂ ts₂ h
    cases h with
    | negative g => exact ⟨rfl, rfl, rfl⟩
  | push _ ih =>
    intro c₂ ss₂ ts₂ h
    cases h with
    | push g =>
      obtain ⟨e1, e2, e3⟩ := ih g
      cases e3
      simp only [Cfg.mk.injEq, List.append_cancel_left_eq] at e1
      obtain ⟨rfl, rfl, rfl⟩ := e1
      subst e2
      exact ⟨rfl, rfl, rfl⟩
  | optSome h' ih =>
    intro c₂ ss₂ ts₂ h
    cases h with
    | optSome g =>
      obtain ⟨rfl, rfl, e⟩ := ih g
      cases e
      exact ⟨rfl, rfl, rfl⟩
    | optNone g => cases h'.peg.det g
  | optNone h' =>
    intro c₂ ss₂ ts₂ h
    cases h with
    | optSome g => cases h'.det g.peg
    | optNone g => exact ⟨rfl, rfl, rfl⟩
  | rep _ ih =>
    intro c₂ ss₂ ts₂ h
    cases h with
    | rep g =>
      obtain ⟨rfl, rfl, rfl⟩ := ih g
      exact ⟨rfl, rfl, rfl⟩
  | seq _ ih =>
    intro c₂ ss₂ ts₂ h
    cases h with
    | seq g =>
      obtain ⟨rfl, rfl, rfl⟩ := ih g
      exact ⟨rfl, rfl, rfl⟩
  | @choice pre a post c ss c' ss' t hpre h' ih =>
    intro c₂ ss₂ ts₂ h
    generalize hl : pre ++ a :: post = l at h
    cases h with
    | @choice pre2 a2 post2 _ _ _ _ t2 hpre2 g =>
      obtain ⟨rfl, rfl, rfl⟩ := split_first (P := fun b => ∃ c', Peg env (.node b) c (some c')) hl
        (fun b hb ⟨_, hh⟩ => by cases hh.det (hpre b hb))
        (fun b hb ⟨_, hh⟩ => by cases hh.det (hpre2 b hb)) ⟨_, h'.peg⟩ ⟨_, g.peg⟩
      obtain ⟨rfl, rfl, e⟩ := ih g
      cases e
      exact ⟨rfl, rfl, rfl⟩
  | rule _ ih =>
    intro c₂ ss₂ ts₂ h
    cases h with
    | rule g =>
      obtain ⟨rfl, rfl, e⟩ := ih g
      cases e
      exact ⟨rfl, rfl, rfl⟩
  | fieldsNil =>
    intro c₂ ss₂ ts₂ h
    cases h
    exact ⟨rfl, rfl, rfl⟩
  | fieldsFirst _ _ ih1 ih2 =>
    intro c₂ ss₂ ts₂ h
    cases h with
    | fieldsFirst g1 g2 =>
      obtain ⟨rfl, rfl, e⟩ := ih1 g1
      cases e
      obtain ⟨rfl, rfl, rfl⟩ := ih2 g2
      exact ⟨rfl, rfl, rfl⟩
  | fieldsNext _ _ _ ih1 ih2 ih3 =>
    intro c₂ ss₂ ts₂ h
    cases h with
    | fieldsNext g1 g2 g3 =>
      obtain ⟨rfl, rfl, _⟩ := ih1 g1
      obtain ⟨rfl, rfl, e⟩ := ih2 g2
      cases e
      obtain ⟨rfl, rfl, rfl⟩ := ih3 g3
      exact ⟨rfl, rfl, rfl⟩
  | unitFirst _ ih =>
    intro c₂ ss₂ ts₂ h
    cases h with
    | unitFirst g =>
      obtain ⟨rfl, rfl, e⟩ := ih g
      cases e
      exact ⟨rfl, rfl, rfl⟩
  | unitNext _ _ ih1 ih2 =>
    intro c₂ ss₂ ts₂ h
    cases h with
    | unitNext g1 g2 =>
      obtain ⟨rfl, rfl, _⟩ := ih1 g1
      obtain ⟨rfl, rfl, e⟩ := ih2 g2
      cases e
      exact ⟨rfl, rfl, rfl⟩
  | repsMax hle =>
    intro c₂ ss₂ ts₂ h
    cases h with
    | repsMax _ => exact ⟨rfl, rfl, rfl⟩
    | repsMore hlt _ _ => omega
    | repsStop hlt _ _ => exact ⟨rfl, rfl, rfl⟩
  | repsMore hlt h1 _ ih1 ih2 =>
    intro c₂ ss₂ ts₂ h
    cases h with
    | repsMax _ => omega
    | repsMore _ g1 g2 =>
      obtain ⟨rfl, rfl, e⟩ := ih1 g1
      cases e
      obtain ⟨rfl, rfl, rfl⟩ := ih2 g2
      exact ⟨rfl, rfl, rfl⟩
    | repsStop _ g _ => cases h1.peg.det g
  | repsStop hlt hn _ =>
    intro c₂ ss₂ ts₂ h
    cases h with
    | repsMax _ => exact ⟨rfl, rfl, rfl⟩
    | repsMore _ g1 g2 => cases hn.det g1.peg
    | repsStop _ g _ => exact ⟨rfl, rfl, rfl⟩

end Pest3
