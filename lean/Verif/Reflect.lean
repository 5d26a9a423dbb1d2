import Verif.Preserve

namespace Pest3.Gen
open Pest3

section
variable {u : Unicode} {root : Module} {R : Layout} {env : Env}

/-- The expression is neither a parameter nor the item of a separated repetition. -/
def Direct (σ : List (Name × CTy)) (e : Expr) : Prop :=
  (∀ x, e = .path [x] → lookupC x σ = none) ∧ ∀ e' t', e ≠ .separated e' t'

/-- The closure means the same as one whose expression is direct. -/
def Strips (u : Unicode) (root : Module) (clo : Clo) (t : CTy) : Prop :=
  ∃ p ρ σ e, CRel u root (.env ρ σ) ∧ Comp u root p σ (.one e t) ∧ Direct σ e ∧
    ∀ c r, Meaning u root (.expr (.mk p ρ e)) c r → Meaning u root (.expr clo) c r

theorem strips {item : RItem} (h : CRel u root item) : match item with
    | .clo c t => Strips u root c t
    | .env ρ σ => ∀ x c t, lookupClo x ρ = some c → lookupC x σ = some t → Strips u root c t := by
  induction h with
  | @clo p ρ σ e t henv hcomp ih =>
    dsimp only at ih ⊢
    have base : ∀ e : Expr, (∀ x, e ≠ .path [x]) → (∀ e' t', e ≠ .separated e' t') → ∀ t, Comp u root p σ (.one e t) →
        Strips u root (.mk p ρ e) t :=
      fun e h1 h2 t hc => ⟨p, ρ, σ, e, henv, hc, ⟨fun x hx => absurd hx (h1 x), h2⟩, fun _ _ h => h⟩
    revert t
    induction e using Expr.ind with
    | path q =>
      intro t hc
      by_cases hq : ∃ x, q = [x] ∧ (lookupC x σ).isSome
      · obtain ⟨x, rfl, hx⟩ := hq
        obtain ⟨t', hx⟩ := Option.isSome_iff_exists.mp hx
        have e := comp_param hx hc
        subst e
        rcases crel_lookup henv x with ⟨_, h⟩ | ⟨c, t', h1, h2, h3⟩
        · rw [hx] at h; simp at h
        · rw [hx] at h2; simp only [Option.some.injEq] at h2; subst h2
          obtain ⟨p', ρ', σ', e', a1, a2, a3, a4⟩ := ih x c _ h1 hx
          exact ⟨p', ρ', σ', e', a1, a2, a3, fun cc r hm => .param h1 (a4 cc r hm)⟩
      · refine ⟨p, ρ, σ, _, henv, hc, ⟨fun x hx => ?_, by simp⟩, fun _ _ h => h⟩
        simp only [Expr.path.injEq] at hx
        cases hl : lookupC x σ with
        | none => rfl
        | some t' => exact absurd ⟨x, hx, by simp [hl]⟩ hq
    | separated e t' ihe =>
      intro t hc
      cases hc with
      | separated h =>
        obtain ⟨p', ρ', σ', e', a1, a2, a3, a4⟩ := ihe h
        exact ⟨p', ρ', σ', e', a1, a2, a3, fun cc r hm => .separated (a4 cc r hm)⟩
      | builtin h => simp [plainRef] at h
      | rep h => simp [repetition] at h
    | _ => intro t hc; exact base _ (by simp) (by simp) _ hc
  | nil => intro x c t h; simp [lookupClo] at h
  | @cons y c t ρ σ _ _ ih1 ih2 =>
    intro x c' t' h1 h2
    simp only [lookupClo] at h1
    simp only [lookupC] at h2
    by_cases e : y = x
    · rw [if_pos e] at h1 h2
      simp only [Option.some.injEq] at h1 h2
      subst h1 h2; exact ih1
    · rw [if_neg e] at h1 h2; exact ih2 x c' t' h1 h2

theorem meaning_literal {p ρ e l c r} (hl : literal e = some l) (h : Peg env (.node (.leaf l)) c r) :
    Meaning u root (.expr (.mk p ρ e)) c r := by
  cases h with
  | leafOk h1 h2 => exact .literalOk hl h1 h2
  | leafFail h => exact .literalFail hl h

theorem comp_leaf {p ρ σ e k c r} (hr : CRel u root (.env ρ σ)) (hc : Comp u root p σ (.one e (.leaf k)))
    (hd : Direct σ e) (h : Peg env (.node (leafNode u k)) c r) : Meaning u root (.expr (.mk p ρ e)) c r := by
  cases hc with
  | str => exact meaning_literal rfl h
  | insens => exact meaning_literal rfl h
  | range => exact meaning_literal rfl h
  | param hx => rw [hd.1 _ rfl] at hx; simp at hx
  | builtin h1 h2 h3 h4 h5 =>
    have h := (leafFor_peg h5).mp h
    cases h with
    | leafOk a1 a2 => exact .builtinOk h1 ((crel_notParam hr).mpr h2) h3 h4 a1 a2
    | leafFail a => exact .builtinFail h1 ((crel_notParam hr).mpr h2) h3 h4 a
  | slice h1 h2 =>
    rw [sliceLeaf_node] at h
    cases h with
    | leafOk a1 a2 => exact .sliceOk ((crel_notParam hr).mpr h1) h2 rfl a1 a2
    | leafFail a => exact .sliceFail ((crel_notParam hr).mpr h1) h2 rfl a
  | separated _ => exact absurd rfl (hd.2 _ _)

/-- What is shown about a node: the expressions compiled to it, except to a leaf, mean that. -/
def NL (u : Unicode) (root : Module) (R : Layout) (n : Node) (c : Cfg) (r : Option Cfg) : Prop :=
  ∀ p ρ σ e t, CRel u root (.env ρ σ) → Comp u root p σ (.one e t) → Direct σ e → (∀ k, t ≠ .leaf k) →
    n = nodeOf u R t → Meaning u root (.expr (.mk p ρ e)) c r

theorem NL.full {n c r} (hn : NL u root R n c r) (hp : Peg env (.node n) c r) {clo t} (h : CRel u root (.clo clo t))
    (e : n = nodeOf u R t) : Meaning u root (.expr clo) c r := by
  obtain ⟨p, ρ, σ, e', h1, h2, h3, h4⟩ := strips h
  apply h4
  by_cases hl : ∃ k, t = .leaf k
  · obtain ⟨k, rfl⟩ := hl
    rw [e, nodeOf] at hp
    exact comp_leaf h1 h2 h3 hp
  · exact hn p ρ σ e' t h1 h2 h3 (fun k hk => hl ⟨k, hk⟩) e

theorem NL.triv (hc : Compiled u root R env) {n c r} (hn : NL u root R n c r) (hp : Peg env (.node n) c r) {p t}
    (ht : TriviaAt root p t) (e : n = R.triv (p, t)) : Meaning u root (.trivia p t) c r := by
  rcases ht with rfl | ⟨m, ru, h1, h2⟩
  · rw [e, hc.noTrivia] at hp
    cases hp with
    | leafOk h1 h2 =>
      simp only [leafSpec, Option.some.injEq, Prod.mk.injEq] at h1
      obtain ⟨rfl, rfl⟩ := h1
      simp only [List.nil_append] at h2
      subst h2
      simp only [List.append_nil]
      exact .triviaNone
    | leafFail h => simp [leafSpec] at h
  · obtain ⟨ty, h3, h4⟩ := hc.trivia _ _ _ _ h1 h2
    exact .triviaRule h1 h2 (hn.full hp (.clo .nil h4) (e.trans h3))

/-- The trivia and then the expression. -/
def MTail (u : Unicode) (root : Module) (p : List Name) (ρ : List (Name × Clo)) (tr : Trivia) (e : Expr) (c : Cfg)
    (r : Option Cfg) : Prop :=
  (r = none ∧ Meaning u root (.trivia p tr) c none) ∨
  ∃ c', Meaning u root (.trivia p tr) c (some c') ∧ Meaning u root (.expr (.mk p ρ e)) c' r

/-- What is shown about each item. -/
def Bwd (u : Unicode) (root : Module) (R : Layout) : Item → Cfg → Option Cfg → Prop
  | .node n, c, r => NL u root R n c r
  | .alts l, c, r => ∀ p ρ σ e ts, CRel u root (.env ρ σ) → Comp u root p σ (.alts e ts) → l = nodesOf u R ts →
      Meaning u root (.expr (.mk p ρ e)) c r
  | .fields false l, c, r => ∀ p ρ σ tr e fs, CRel u root (.env ρ σ) → Comp u root p σ (.tail tr e fs) →
      l = fieldsOf u R fs → MTail u root p ρ tr e c r
  | .fields true l, c, r => ∀ p ρ σ e1 e2 t tl fs, CRel u root (.env ρ σ) → Comp u root p σ (.one e1 tl) →
      Comp u root p σ (.tail t e2 fs) → l = (R.triv (p, .none), nodeOf u R tl) :: fieldsOf u R fs →
      Meaning u root (.expr (.mk p ρ (.seq e1 e2 t))) c r
  | .unit n tn i, c, r => ∀ clo ty p t, CRel u root (.clo clo ty) → TriviaAt root p t → n = nodeOf u R ty →
      tn = R.triv (p, t) → Meaning u root (.unit clo p t i) c r
  | .reps n tn min max i, c, r => ∀ clo ty p t, CRel u root (.clo clo ty) → TriviaAt root p t → n = nodeOf u R ty →
      tn = R.triv (p, t) → Meaning u root (.reps clo p t min max i) c r

theorem fields_nil_inv {first : Bool} {c : Cfg} {r : Option Cfg} (h : Peg env (.fields first []) c r) : r = some c := by
  cases h; rfl

theorem alts_nil_inv {c : Cfg} {r : Option Cfg} (h : Peg env (.alts []) c r) : r = none := by
  cases h; rfl

theorem peg_meaning (hc : Compiled u root R env) {item : Item} {c : Cfg} {r : Option Cfg}
    (h : Peg env item c r) : Bwd u root R item c r := by
  induction h with
  | leafOk h1 h2 =>
    intro p ρ σ e t hr hcomp hd hl hn
    cases t <;> simp only [nodeOf, reduceCtorEq] at hn
    exact absurd rfl (hl _)
  | leafFail h1 =>
    intro p ρ σ e t hr hcomp hd hl hn
    cases t <;> simp only [nodeOf, reduceCtorEq] at hn
    exact absurd rfl (hl _)
  | positiveOk hp ih =>
    intro p ρ σ e t hr hcomp hd hl hn
    cases hcomp with
    | pos h => rw [nodeOf] at hn; injection hn with hn; exact .posOk (ih.full hp (.clo hr h) hn)
    | param hx => rw [hd.1 _ rfl] at hx; simp at hx
    | separated _ => exact absurd rfl (hd.2 _ _)
    | _ => first | exact absurd rfl (hl _) | simp [nodeOf] at hn
  | positiveFail hp ih =>
    intro p ρ σ e t hr hcomp hd hl hn
    cases hcomp with
    | pos h => rw [nodeOf] at hn; injection hn with hn; exact .posFail (ih.full hp (.clo hr h) hn)
    | param hx => rw [hd.1 _ rfl] at hx; simp at hx
    | separated _ => exact absurd rfl (hd.2 _ _)
    | _ => first | exact absurd rfl (hl _) | simp [nodeOf] at hn
  | negativeOk hp ih =>
    intro p ρ σ e t hr hcomp hd hl hn
    cases hcomp with
    | neg h => rw [nodeOf] at hn; injection hn with hn; exact .negOk (ih.full hp (.clo hr h) hn)
    | param hx => rw [hd.1 _ rfl] at hx; simp at hx
    | separated _ => exact absurd rfl (hd.2 _ _)
    | _ => first | exact absurd rfl (hl _) | simp [nodeOf] at hn
  | negativeFail hp ih =>
    intro p ρ σ e t hr hcomp hd hl hn
    cases hcomp with
    | neg h => rw [nodeOf] at hn; injection hn with hn; exact .negFail (ih.full hp (.clo hr h) hn)
    | param hx => rw [hd.1 _ rfl] at hx; simp at hx
    | separated _ => exact absurd rfl (hd.2 _ _)
    | _ => first | exact absurd rfl (hl _) | simp [nodeOf] at hn
  | pushOk hp ih =>
    intro p ρ σ e t hr hcomp hd hl hn
    cases hcomp with
    | push h1 h2 h =>
      rw [nodeOf] at hn; injection hn with hn
      exact .pushOk ((crel_notParam hr).mpr h1) h2 (ih.full hp (.clo hr h) hn)
    | param hx => rw [hd.1 _ rfl] at hx; simp at hx
    | separated _ => exact absurd rfl (hd.2 _ _)
    | _ => first | exact absurd rfl (hl _) | simp [nodeOf] at hn
  | pushFail hp ih =>
    intro p ρ σ e t hr hcomp hd hl hn
    cases hcomp with
    | push h1 h2 h =>
      rw [nodeOf] at hn; injection hn with hn
      exact .pushFail ((crel_notParam hr).mpr h1) h2 (ih.full hp (.clo hr h) hn)
    | param hx => rw [hd.1 _ rfl] at hx; simp at hx
    | separated _ => exact absurd rfl (hd.2 _ _)
    | _ => first | exact absurd rfl (hl _) | simp [nodeOf] at hn
  | optSome hp ih =>
    intro p ρ σ e t hr hcomp hd hl hn
    cases hcomp with
    | opt h => rw [nodeOf] at hn; injection hn with hn; exact .optSome (ih.full hp (.clo hr h) hn)
    | param hx => rw [hd.1 _ rfl] at hx; simp at hx
    | separated _ => exact absurd rfl (hd.2 _ _)
    | _ => first | exact absurd rfl (hl _) | simp [nodeOf] at hn
  | optNone hp ih =>
    intro p ρ σ e t hr hcomp hd hl hn
    cases hcomp with
    | opt h => rw [nodeOf] at hn; injection hn with hn; exact .optNone (ih.full hp (.clo hr h) hn)
    | param hx => rw [hd.1 _ rfl] at hx; simp at hx
    | separated _ => exact absurd rfl (hd.2 _ _)
    | _ => first | exact absurd rfl (hl _) | simp [nodeOf] at hn
  | rep hp ih =>
    intro p ρ σ e t hr hcomp hd hl hn
    cases hcomp with
    | rep h1 h2 h =>
      rw [nodeOf] at hn; injection hn with e1 e2 e3 e4
      subst e3 e4
      exact .rep h1 (ih _ _ _ _ (.clo hr h) h2 e1 e2)
    | param hx => rw [hd.1 _ rfl] at hx; simp at hx
    | separated _ => exact absurd rfl (hd.2 _ _)
    | _ => first | exact absurd rfl (hl _) | simp [nodeOf] at hn
  | seq hp ih =>
    intro p ρ σ e t hr hcomp hd hl hn
    cases hcomp with
    | seq h1 h2 =>
      rw [nodeOf, fieldsOf] at hn; injection hn with hn
      exact ih p ρ σ _ _ _ _ _ hr h1 h2 hn
    | param hx => rw [hd.1 _ rfl] at hx; simp at hx
    | separated _ => exact absurd rfl (hd.2 _ _)
    | _ => first | exact absurd rfl (hl _) | simp [nodeOf] at hn
  | choice hp ih =>
    intro p ρ σ e t hr hcomp hd hl hn
    cases hcomp with
    | choice h1 h2 =>
      rw [nodeOf] at hn; injection hn with hn
      exact ih p ρ σ _ _ hr (.altsMore h1 h2) hn
    | param hx => rw [hd.1 _ rfl] at hx; simp at hx
    | separated _ => exact absurd rfl (hd.2 _ _)
    | _ => first | exact absurd rfl (hl _) | simp [nodeOf] at hn
  | rule hp ih =>
    intro p ρ σ e t hr hcomp hd hl hn
    cases hcomp with
    | rule h1 h2 h3 =>
      rw [nodeOf] at hn; injection hn with hn
      obtain ⟨t', hb, hcomp⟩ := hc.rule _ _ _ _ [] h2 (by simp [h3])
      rw [h3] at hcomp
      exact .rule ((crel_notParam hr).mpr h1) h2 h3 (ih.full hp (.clo .nil hcomp) (by rw [hn]; exact hb))
    | call h1 h2 h3 h4 =>
      rw [nodeOf] at hn; injection hn with hn
      obtain ⟨t', hb, hcomp⟩ := hc.rule _ _ _ _ _ h2 (by rw [h3, args_length h4])
      exact .call ((crel_notParam hr).mpr h1) h2 h3
        (ih.full hp (.clo (crel_call hr h4 _) hcomp) (by rw [hn]; exact hb))
    | param hx => rw [hd.1 _ rfl] at hx; simp at hx
    | separated _ => exact absurd rfl (hd.2 _ _)
    | _ => first | exact absurd rfl (hl _) | simp [nodeOf] at hn
  | altsNil =>
    intro p ρ σ e ts hr hcomp hn
    cases hcomp <;> simp [nodesOf] at hn
  | altsHit hp ih =>
    intro p ρ σ e ts hr hcomp hn
    cases hcomp with
    | altsLast _ h =>
      rw [nodesOf] at hn; injection hn with e1 e2
      exact ih.full hp (.clo hr h) e1
    | altsMore h1 h2 =>
      rw [nodesOf] at hn; injection hn with e1 e2
      exact .choiceL (ih.full hp (.clo hr h1) e1)
  | altsMiss hp hp2 ih1 ih2 =>
    intro p ρ σ e ts hr hcomp hn
    cases hcomp with
    | altsLast _ h =>
      rw [nodesOf, nodesOf] at hn; injection hn with e1 e2
      subst e2
      have := alts_nil_inv hp2
      subst this
      exact ih1.full hp (.clo hr h) e1
    | altsMore h1 h2 =>
      rw [nodesOf] at hn; injection hn with e1 e2
      exact .choiceR (ih1.full hp (.clo hr h1) e1) (ih2 _ _ _ _ _ hr h2 e2)
  | @fieldsNil first c =>
    cases first with
    | true => intro p ρ σ e1 e2 t tl fs hr h1 h2 hn; simp at hn
    | false =>
      intro p ρ σ tr e fs hr hcomp hn
      obtain ⟨_, t, rest, rfl⟩ := tail_head hcomp
      simp [fieldsOf] at hn
  | fieldsFirst hp hp2 ih1 ih2 =>
    intro p ρ σ e1 e2 t tl fs hr h1 h2 hn
    injection hn with a1 a2
    injection a1 with a0 a1
    have hm := ih1.full hp (.clo hr h1) a1
    rcases ih2 _ _ _ _ _ _ hr h2 a2 with ⟨rfl, h⟩ | ⟨c', h3, h4⟩
    · exact .seqTriviaFail hm h
    · exact .seq hm h3 h4
  | fieldsFirstFail hp ih =>
    intro p ρ σ e1 e2 t tl fs hr h1 h2 hn
    injection hn with a1 a2
    injection a1 with a0 a1
    exact .seqFail (ih.full hp (.clo hr h1) a1)
  | fieldsNext hp1 hp2 hp3 ih1 ih2 ih3 =>
    intro p ρ σ tr e fs hr hcomp hn
    cases hcomp with
    | tailLast _ ht h =>
      rw [fieldsOf, fieldsOf] at hn
      injection hn with a1 a2
      injection a1 with a0 a1
      subst a2
      have := fields_nil_inv hp3
      subst this
      exact .inr ⟨_, ih1.triv hc hp1 ht a0, ih2.full hp2 (.clo hr h) a1⟩
    | tailMore ht h1 h2 =>
      rw [fieldsOf] at hn
      injection hn with a1 a2
      injection a1 with a0 a1
      refine .inr ⟨_, ih1.triv hc hp1 ht a0, ?_⟩
      have hm := ih2.full hp2 (.clo hr h1) a1
      rcases ih3 _ _ _ _ _ _ hr h2 a2 with ⟨rfl, h⟩ | ⟨c', h3, h4⟩
      · exact .seqTriviaFail hm h
      · exact .seq hm h3 h4
  | fieldsTriviaFail hp ih =>
    intro p ρ σ tr e fs hr hcomp hn
    obtain ⟨ht, t, rest, rfl⟩ := tail_head hcomp
    rw [fieldsOf] at hn
    injection hn with a1 a2
    injection a1 with a0 a1
    exact .inl ⟨rfl, ih.triv hc hp ht a0⟩
  | fieldsNextFail hp1 hp2 ih1 ih2 =>
    intro p ρ σ tr e fs hr hcomp hn
    cases hcomp with
    | tailLast _ ht h =>
      rw [fieldsOf, fieldsOf] at hn
      injection hn with a1 a2
      injection a1 with a0 a1
      exact .inr ⟨_, ih1.triv hc hp1 ht a0, ih2.full hp2 (.clo hr h) a1⟩
    | tailMore ht h1 h2 =>
      rw [fieldsOf] at hn
      injection hn with a1 a2
      injection a1 with a0 a1
      exact .inr ⟨_, ih1.triv hc hp1 ht a0, .seqFail (ih2.full hp2 (.clo hr h1) a1)⟩
  | unitFirst hp ih => exact fun clo ty p t hr ht e1 e2 => .unitFirst (ih.full hp hr e1)
  | unitNext hp1 hp2 ih1 ih2 =>
    exact fun clo ty p t hr ht e1 e2 => .unitNext (ih1.triv hc hp1 ht e2) (ih2.full hp2 hr e1)
  | unitTriviaFail hp ih => exact fun clo ty p t hr ht e1 e2 => .unitTriviaFail (ih.triv hc hp ht e2)
  | repsMax h => exact fun clo ty p t hr ht e1 e2 => .repsMax h
  | repsMore h _ _ ih1 ih2 =>
    exact fun clo ty p t hr ht e1 e2 => .repsMore h (ih1 _ _ _ _ hr ht e1 e2) (ih2 _ _ _ _ hr ht e1 e2)
  | repsFew h _ h2 ih => exact fun clo ty p t hr ht e1 e2 => .repsFew h (ih _ _ _ _ hr ht e1 e2) h2
  | repsStop h _ h2 ih => exact fun clo ty p t hr ht e1 e2 => .repsStop h (ih _ _ _ _ hr ht e1 e2) h2

/-- A closure and the closed type it is compiled to mean the same. -/
theorem meaning_iff_peg (hc : Compiled u root R env) {clo : Clo} {t : CTy} (h : CRel u root (.clo clo t)) {c : Cfg}
    {r : Option Cfg} : Meaning u root (.expr clo) c r ↔ Peg env (.node (nodeOf u R t)) c r :=
  ⟨fun hm => (meaning_peg hc hm).clo h, fun hp => NL.full (peg_meaning hc hp) hp h rfl⟩

end
end Pest3.Gen
