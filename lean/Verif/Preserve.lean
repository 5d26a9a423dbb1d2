import Verif.Compile

namespace Pest3.Gen
open Pest3

section
variable {u : Unicode} {root : Module} {R : Layout} {env : Env}

/-- The three things shown about an expression: alone, as the rest of a sequence, as the rest of a choice. -/
structure FwdE (u : Unicode) (root : Module) (R : Layout) (env : Env) (p : List Name) (σ : List (Name × CTy)) (e : Expr)
    (c : Cfg) (r : Option Cfg) : Prop where
  one : ∀ t, Comp u root p σ (.one e t) → Peg env (.node (nodeOf u R t)) c r
  tail : ∀ tr fs c0, Comp u root p σ (.tail tr e fs) → Peg env (.node (R.triv (p, tr))) c0 (some c) →
    Peg env (.fields false (fieldsOf u R fs)) c0 r
  alts : ∀ l, Comp u root p σ (.alts e l) → Peg env (.alts (nodesOf u R l)) c r

theorem FwdE.mk' {p σ e c r} (h1 : ∀ t, Comp u root p σ (.one e t) → Peg env (.node (nodeOf u R t)) c r)
    (h2 : ∀ l r' t, e = .seq l r' t → ∀ tr tl fs c0, Comp u root p σ (.one l tl) → Comp u root p σ (.tail t r' fs) →
      Peg env (.node (R.triv (p, tr))) c0 (some c) →
      Peg env (.fields false ((R.triv (p, tr), nodeOf u R tl) :: fieldsOf u R fs)) c0 r)
    (h3 : ∀ l r', e = .choice l r' → ∀ tl ts, Comp u root p σ (.one l tl) → Comp u root p σ (.alts r' ts) →
      Peg env (.alts (nodeOf u R tl :: nodesOf u R ts)) c r) : FwdE u root R env p σ e c r where
  one := h1
  tail tr fs c0 h ht := by
    cases h with
    | tailLast _ _ h =>
      cases r with
      | none => exact .fieldsNextFail ht (h1 _ h)
      | some c' => exact .fieldsNext ht (h1 _ h) .fieldsNil
    | tailMore _ hl hr => exact h2 _ _ _ rfl tr _ _ c0 hl hr ht
  alts l h := by
    cases h with
    | altsLast _ h => exact peg_alts1.mpr (h1 _ h)
    | altsMore hl hr => exact h3 _ _ rfl _ _ hl hr

theorem FwdE.plain {p σ e c r} (h1 : ∀ t, Comp u root p σ (.one e t) → Peg env (.node (nodeOf u R t)) c r)
    (h2 : ∀ l r' t, e ≠ .seq l r' t) (h3 : ∀ l r', e ≠ .choice l r') : FwdE u root R env p σ e c r :=
  .mk' h1 (fun l r' t e => absurd e (h2 l r' t)) fun l r' e => absurd e (h3 l r')

/-- What is shown about each item. -/
def Fwd (u : Unicode) (root : Module) (R : Layout) (env : Env) : SItem → Cfg → Option Cfg → Prop
  | .expr (.mk p ρ e), c, r => ∀ σ, CRel u root (.env ρ σ) → FwdE u root R env p σ e c r
  | .trivia p t, c, r => Peg env (.node (R.triv (p, t))) c r
  | .unit e p t i, c, r => ∀ ty, CRel u root (.clo e ty) → Peg env (.unit (nodeOf u R ty) (R.triv (p, t)) i) c r
  | .reps e p t min max i, c, r => ∀ ty, CRel u root (.clo e ty) →
      Peg env (.reps (nodeOf u R ty) (R.triv (p, t)) min max i) c r

theorem Fwd.clo {e c r} (h : Fwd u root R env (.expr e) c r) {ty} (hr : CRel u root (.clo e ty)) :
    Peg env (.node (nodeOf u R ty)) c r := by
  cases hr with
  | clo h1 h2 => exact (h _ h1).one _ h2

theorem comp_literal {p σ e l} (h : literal e = some l) {t} (hc : Comp u root p σ (.one e t)) :
    nodeOf u R t = .leaf l := by
  cases hc with
  | str => simp only [literal, Option.some.injEq] at h; subst h; rfl
  | insens => simp only [literal, Option.some.injEq] at h; subst h; rfl
  | range => simp only [literal, Option.some.injEq] at h; subst h; rfl
  | builtin h1 => cases e <;> simp only [literal, reduceCtorEq] at h <;> simp [plainRef] at h1
  | rep h1 => cases e <;> simp only [literal, reduceCtorEq] at h <;> simp [repetition] at h1
  | _ => simp [literal] at h

theorem comp_builtin {p σ e q full l} (h : plainRef e = some q) (hq : ∀ x, q = [x] → lookupC x σ = none)
    (ht : target u root p q = some (.builtin full)) (hb : builtinLeaf u full = some l) {t}
    (hc : Comp u root p σ (.one e t)) : ∃ k, t = .leaf k ∧ LeafFor u k l := by
  cases hc with
  | param h1 =>
    simp only [plainRef, Option.some.injEq] at h
    rw [hq _ h.symm] at h1; simp at h1
  | builtin h1 _ h3 h4 h5 =>
    rw [h] at h1; simp only [Option.some.injEq] at h1; subst h1
    rw [ht] at h3; simp only [Option.some.injEq, Target.builtin.injEq] at h3; subst h3
    rw [hb] at h4; simp only [Option.some.injEq] at h4; subst h4
    exact ⟨_, rfl, h5⟩
  | rule _ h2 _ =>
    simp only [plainRef, Option.some.injEq] at h
    rw [h, ht] at h2; simp at h2
  | @call _ _ _ es _ _ h2 h3 h4 =>
    cases es with
    | nil => simp only [plainRef, Option.some.injEq] at h; rw [h, ht] at h2; simp at h2
    | cons a es => simp [plainRef] at h
  | rep h1 => cases e <;> simp_all [plainRef, repetition]
  | _ => simp [plainRef] at h

theorem sliceLeaf_node (range : Meta.MetaRange Int) : leafNode u (sliceC range) = .leaf (sliceLeaf range) := by
  unfold sliceC sliceLeaf
  cases range.stop <;> rfl

theorem comp_slice {p σ q range} {t}
    (hc : Comp u root p σ (.one (.slice q range) t)) : t = .leaf (sliceC range) := by
  cases hc with
  | builtin h => simp [plainRef] at h
  | slice _ _ => rfl
  | rep h => simp [repetition] at h

theorem comp_push {p σ q e} (ht : target u root p q = some (.builtin pushPath)) {t}
    (hc : Comp u root p σ (.one (.call q [e]) t)) : ∃ t', t = .push t' ∧ Comp u root p σ (.one e t') := by
  cases hc with
  | builtin h => simp [plainRef] at h
  | push _ _ h => exact ⟨_, rfl, h⟩
  | call _ h => rw [ht] at h; simp at h
  | rep h => simp [repetition] at h

theorem comp_param {p σ x t'} (hx : lookupC x σ = some t') {t} (hc : Comp u root p σ (.one (.path [x]) t)) : t = t' := by
  cases hc with
  | param h => rw [hx] at h; simp only [Option.some.injEq] at h; exact h.symm
  | builtin h1 h2 =>
    simp only [plainRef, Option.some.injEq] at h1
    rw [h2 x h1.symm] at hx; simp at hx
  | rule h => rw [h x rfl] at hx; simp at hx
  | rep h => simp [repetition] at h

theorem comp_rule {p σ q p' r} (hq : ∀ x, q = [x] → lookupC x σ = none) (ht : target u root p q = some (.rule p' r)) {t}
    (hc : Comp u root p σ (.one (.path q) t)) : t = .rule p' r.name [] := by
  cases hc with
  | param h => rw [hq _ rfl] at h; simp at h
  | builtin h1 h2 h3 =>
    simp only [plainRef, Option.some.injEq] at h1
    rw [← h1, ht] at h3; simp at h3
  | rule _ h _ =>
    rw [ht] at h; simp only [Option.some.injEq, Target.rule.injEq] at h
    obtain ⟨rfl, rfl⟩ := h; rfl
  | rep h => simp [repetition] at h

theorem comp_call {p σ q p' r es} (ht : target u root p q = some (.rule p' r)) {t}
    (hc : Comp u root p σ (.one (.call q es) t)) :
    ∃ ts, t = .rule p' r.name ts ∧ Comp u root p σ (.args es ts) ∧ r.args.length = es.length := by
  cases hc with
  | builtin h1 h2 h3 =>
    cases es with
    | nil =>
      simp only [plainRef, Option.some.injEq] at h1
      rw [← h1, ht] at h3; simp at h3
    | cons a es => simp [plainRef] at h1
  | push _ h _ => rw [ht] at h; simp at h
  | call _ h h3 h4 =>
    rw [ht] at h; simp only [Option.some.injEq, Target.rule.injEq] at h
    obtain ⟨rfl, rfl⟩ := h; exact ⟨_, rfl, h4, h3⟩
  | rep h => simp [repetition] at h

theorem comp_rep {p σ e e' min max} (h : repetition e = some (e', min, max)) {t} (hc : Comp u root p σ (.one e t)) :
    ∃ t', t = .rep t' (p, sepTrivia e') min max ∧ Comp u root p σ (.one e' t') ∧ TriviaAt root p (sepTrivia e') := by
  cases hc with
  | rep h1 h2 h3 =>
    rw [h] at h1; simp only [Option.some.injEq, Prod.mk.injEq] at h1
    obtain ⟨rfl, rfl, rfl⟩ := h1
    exact ⟨_, rfl, h3, h2⟩
  | builtin h1 => cases e <;> simp_all [plainRef, repetition]
  | _ => simp [repetition] at h

theorem peg_empty {c : Cfg} : Peg env (.node (.leaf .empty)) c (some c) := by
  have := @Peg.leafOk env .empty c [] c.stk c.suf rfl rfl
  simpa using this

theorem meaning_peg (hc : Compiled u root R env) {item : SItem} {c : Cfg} {r : Option Cfg}
    (h : Meaning u root item c r) : Fwd u root R env item c r := by
  induction h with
  | literalOk h1 h2 h3 =>
    intro σ hr
    exact .plain (fun t ht => by rw [comp_literal h1 ht]; exact .leafOk h2 h3)
      (by rintro _ _ _ rfl; simp [literal] at h1) (by rintro _ _ rfl; simp [literal] at h1)
  | literalFail h1 h2 =>
    intro σ hr
    exact .plain (fun t ht => by rw [comp_literal h1 ht]; exact .leafFail h2)
      (by rintro _ _ _ rfl; simp [literal] at h1) (by rintro _ _ rfl; simp [literal] at h1)
  | builtinOk h1 h2 h3 h4 h5 h6 =>
    intro σ hr
    refine .plain (fun t ht => ?_) (by rintro _ _ _ rfl; simp [plainRef] at h1) (by rintro _ _ rfl; simp [plainRef] at h1)
    obtain ⟨k, rfl, hk⟩ := comp_builtin h1 ((crel_notParam hr).mp h2) h3 h4 ht
    exact (leafFor_peg hk).mpr (.leafOk h5 h6)
  | builtinFail h1 h2 h3 h4 h5 =>
    intro σ hr
    refine .plain (fun t ht => ?_) (by rintro _ _ _ rfl; simp [plainRef] at h1) (by rintro _ _ rfl; simp [plainRef] at h1)
    obtain ⟨k, rfl, hk⟩ := comp_builtin h1 ((crel_notParam hr).mp h2) h3 h4 ht
    exact (leafFor_peg hk).mpr (.leafFail h5)
  | sliceOk h1 h2 h3 h4 h5 =>
    intro σ hr
    refine .plain (fun t ht => ?_) (by simp) (by simp)
    rw [comp_slice ht, nodeOf, sliceLeaf_node]
    subst h3; exact .leafOk h4 h5
  | sliceFail h1 h2 h3 h4 =>
    intro σ hr
    refine .plain (fun t ht => ?_) (by simp) (by simp)
    rw [comp_slice ht, nodeOf, sliceLeaf_node]
    subst h3; exact .leafFail h4
  | pushOk h1 h2 _ ih =>
    intro σ hr
    refine .plain (fun t ht => ?_) (by simp) (by simp)
    obtain ⟨t', rfl, h⟩ := comp_push h2 ht
    rw [nodeOf]; exact .pushOk ((ih σ hr).one _ h)
  | pushFail h1 h2 _ ih =>
    intro σ hr
    refine .plain (fun t ht => ?_) (by simp) (by simp)
    obtain ⟨t', rfl, h⟩ := comp_push h2 ht
    rw [nodeOf]; exact .pushFail ((ih σ hr).one _ h)
  | param h1 _ ih =>
    intro σ hr
    refine .plain (fun t ht => ?_) (by simp) (by simp)
    rcases crel_lookup hr _ with ⟨h, _⟩ | ⟨c', t', h3, h4, h5⟩
    · rw [h1] at h; simp at h
    · rw [h1] at h3; simp only [Option.some.injEq] at h3; subst h3
      rw [comp_param h4 ht]
      exact ih.clo h5
  | rule h1 h2 h3 _ ih =>
    intro σ hr
    refine .plain (fun t ht => ?_) (by simp) (by simp)
    rw [comp_rule ((crel_notParam hr).mp h1) h2 ht, nodeOf]
    obtain ⟨t', hb, hcomp⟩ := hc.rule _ _ _ _ [] h2 (by simp [h3])
    rw [h3] at hcomp
    exact .rule (by rw [hb]; exact (ih _ .nil).one _ hcomp)
  | call h1 h2 h3 _ ih =>
    intro σ hr
    refine .plain (fun t ht => ?_) (by simp) (by simp)
    obtain ⟨ts, rfl, ha, hlen⟩ := comp_call h2 ht
    rw [nodeOf]
    obtain ⟨t', hb, hcomp⟩ := hc.rule _ _ _ _ ts h2 (by rw [hlen, args_length ha])
    exact .rule (by rw [hb]; exact (ih _ (crel_call hr ha _)).one _ hcomp)
  | posOk _ ih =>
    intro σ hr
    refine .plain (fun t ht => ?_) (by simp) (by simp)
    cases ht with
    | pos h => rw [nodeOf]; exact .positiveOk ((ih σ hr).one _ h)
    | builtin h => simp [plainRef] at h
    | rep h => simp [repetition] at h
  | posFail _ ih =>
    intro σ hr
    refine .plain (fun t ht => ?_) (by simp) (by simp)
    cases ht with
    | pos h => rw [nodeOf]; exact .positiveFail ((ih σ hr).one _ h)
    | builtin h => simp [plainRef] at h
    | rep h => simp [repetition] at h
  | negOk _ ih =>
    intro σ hr
    refine .plain (fun t ht => ?_) (by simp) (by simp)
    cases ht with
    | neg h => rw [nodeOf]; exact .negativeOk ((ih σ hr).one _ h)
    | builtin h => simp [plainRef] at h
    | rep h => simp [repetition] at h
  | negFail _ ih =>
    intro σ hr
    refine .plain (fun t ht => ?_) (by simp) (by simp)
    cases ht with
    | neg h => rw [nodeOf]; exact .negativeFail ((ih σ hr).one _ h)
    | builtin h => simp [plainRef] at h
    | rep h => simp [repetition] at h
  | seq _ _ _ ih1 ih2 ih3 =>
    intro σ hr
    refine .mk' (fun t ht => ?_) (fun l r' t' e tr tl fs c0 hl htl htr => ?_) (by simp)
    · cases ht with
      | seq hl htl =>
        rw [nodeOf, fieldsOf]
        exact .seq (.fieldsFirst ((ih1 σ hr).one _ hl) ((ih3 σ hr).tail _ _ _ htl ih2))
      | builtin h => simp [plainRef] at h
      | rep h => simp [repetition] at h
    · cases e
      exact .fieldsNext htr ((ih1 σ hr).one _ hl) ((ih3 σ hr).tail _ _ _ htl ih2)
  | seqFail _ ih1 =>
    intro σ hr
    refine .mk' (fun t ht => ?_) (fun l r' t' e tr tl fs c0 hl htl htr => ?_) (by simp)
    · cases ht with
      | seq hl htl =>
        rw [nodeOf, fieldsOf]
        exact .seq (.fieldsFirstFail ((ih1 σ hr).one _ hl))
      | builtin h => simp [plainRef] at h
      | rep h => simp [repetition] at h
    · cases e
      exact .fieldsNextFail htr ((ih1 σ hr).one _ hl)
  | seqTriviaFail _ _ ih1 ih2 =>
    intro σ hr
    refine .mk' (fun t ht => ?_) (fun l r' t' e tr tl fs c0 hl htl htr => ?_) (by simp)
    · cases ht with
      | seq hl htl =>
        rw [nodeOf, fieldsOf]
        obtain ⟨_, t1, rest, rfl⟩ := tail_head htl
        exact .seq (.fieldsFirst ((ih1 σ hr).one _ hl) (by rw [fieldsOf]; exact .fieldsTriviaFail ih2))
      | builtin h => simp [plainRef] at h
      | rep h => simp [repetition] at h
    · cases e
      obtain ⟨_, t1, rest, rfl⟩ := tail_head htl
      exact .fieldsNext htr ((ih1 σ hr).one _ hl) (by rw [fieldsOf]; exact .fieldsTriviaFail ih2)
  | choiceL _ ih =>
    intro σ hr
    refine .mk' (fun t ht => ?_) (by simp) (fun l r' e tl ts hl hts => ?_)
    · cases ht with
      | choice hl hts => rw [nodeOf, nodesOf]; exact .choice (.altsHit ((ih σ hr).one _ hl))
      | builtin h => simp [plainRef] at h
      | rep h => simp [repetition] at h
    · cases e; exact .altsHit ((ih σ hr).one _ hl)
  | choiceR _ _ ih1 ih2 =>
    intro σ hr
    refine .mk' (fun t ht => ?_) (by simp) (fun l r' e tl ts hl hts => ?_)
    · cases ht with
      | choice hl hts =>
        rw [nodeOf, nodesOf]; exact .choice (.altsMiss ((ih1 σ hr).one _ hl) ((ih2 σ hr).alts _ hts))
      | builtin h => simp [plainRef] at h
      | rep h => simp [repetition] at h
    · cases e; exact .altsMiss ((ih1 σ hr).one _ hl) ((ih2 σ hr).alts _ hts)
  | optSome _ ih =>
    intro σ hr
    refine .plain (fun t ht => ?_) (by simp) (by simp)
    cases ht with
    | opt h => rw [nodeOf]; exact .optSome ((ih σ hr).one _ h)
    | builtin h => simp [plainRef] at h
    | rep h => simp [repetition] at h
  | optNone _ ih =>
    intro σ hr
    refine .plain (fun t ht => ?_) (by simp) (by simp)
    cases ht with
    | opt h => rw [nodeOf]; exact .optNone ((ih σ hr).one _ h)
    | builtin h => simp [plainRef] at h
    | rep h => simp [repetition] at h
  | rep h1 _ ih =>
    intro σ hr
    refine .plain (fun t ht => ?_) (by rintro _ _ _ rfl; simp [repetition] at h1)
      (by rintro _ _ rfl; simp [repetition] at h1)
    obtain ⟨t', rfl, h, _⟩ := comp_rep h1 ht
    rw [nodeOf]; exact .rep (ih _ (.clo hr h))
  | separated _ ih =>
    intro σ hr
    refine .plain (fun t ht => ?_) (by simp) (by simp)
    cases ht with
    | separated h => exact (ih σ hr).one _ h
    | builtin h => simp [plainRef] at h
    | rep h => simp [repetition] at h
  | triviaNone => simp only [Fwd]; rw [hc.noTrivia]; exact peg_empty
  | triviaRule h1 h2 _ ih =>
    obtain ⟨ty, hn, hcomp⟩ := hc.trivia _ _ _ _ h1 h2
    simp only [Fwd]; rw [hn]; exact (ih _ .nil).one _ hcomp
  | unitFirst _ ih => exact fun ty hr => .unitFirst (ih.clo hr)
  | unitNext _ _ ih1 ih2 => exact fun ty hr => .unitNext ih1 (ih2.clo hr)
  | unitTriviaFail _ ih => exact fun ty hr => .unitTriviaFail ih
  | repsMax h => exact fun ty hr => .repsMax h
  | repsMore h _ _ ih1 ih2 => exact fun ty hr => .repsMore h (ih1 _ hr) (ih2 _ hr)
  | repsFew h _ h2 ih => exact fun ty hr => .repsFew h (ih _ hr) h2
  | repsStop h _ h2 ih => exact fun ty hr => .repsStop h (ih _ hr) h2

end
end Pest3.Gen
