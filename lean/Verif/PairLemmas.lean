import Verif.Pairs
import Verif.CombLemmas

/-!
# Specification of token trees, and lemmas
-/

namespace Pest3

/-- Pairs in source order, not overlapping, within `lo..hi`, each with its children within its own range, all
offsets satisfying `B`. -/
inductive Nested {R : Type} (B : Nat → Prop) : Nat → Nat → List (Pair R) → Prop
  | nil {lo hi} : lo ≤ hi → Nested B lo hi []
  | cons {lo hi r a b cs ps} : lo ≤ a → a ≤ b → B a → B b → Nested B a b cs → Nested B b hi ps →
      Nested B lo hi (.mk r a b cs :: ps)

/-- The pairs a match of `item` from `c` to `c'` gives rise to, in terms of the grammar: visible rules are
those that are not silent and not inside a lookahead or a silent rule. -/
inductive Emits {R : Type} (env : Env) (lab : Label → R) : Item → Cfg → Cfg → List (Pair R) → Prop
  | leaf {l c c'} : Peg env (.node (.leaf l)) c (some c') → Emits env lab (.node (.leaf l)) c c' []
  | positive {n c} : Peg env (.node (.positive n)) c (some c) → Emits env lab (.node (.positive n)) c c []
  | negative {n c} : Peg env (.node (.negative n)) c (some c) → Emits env lab (.node (.negative n)) c c []
  | push {n c m rest stk ps} : Emits env lab (.node n) c ⟨c.pre ++ m, rest, stk⟩ ps →
      Emits env lab (.node (.push n)) c ⟨c.pre ++ m, rest, stk ++ [m]⟩ ps
  | optSome {n c c' ps} : Emits env lab (.node n) c c' ps → Emits env lab (.node (.opt n)) c c' ps
  | optNone {n c} : Peg env (.node n) c none → Emits env lab (.node (.opt n)) c c []
  | rep {n tr min max c c' ps} : Emits env lab (.reps n tr min max 0) c c' ps →
      Emits env lab (.node (.rep n tr min max)) c c' ps
  | seq {fs c c' ps} : Emits env lab (.fields true fs) c c' ps → Emits env lab (.node (.seq fs)) c c' ps
  | choice {pre a post c c' ps} : (∀ b ∈ pre, Peg env (.node b) c none) → Emits env lab (.node a) c c' ps →
      Emits env lab (.node (.choice (pre ++ a :: post))) c c' ps
  | visible {id c c' ps} : (env id).silent = false → Emits env lab (.node (env id).body) c c' ps →
      Emits env lab (.node (.rule id)) c c' [.mk (lab (env id).label) (utf8Len c.pre) (utf8Len c'.pre) ps]
  | silent {id c c'} : (env id).silent = true → Peg env (.node (.rule id)) c (some c') →
      Emits env lab (.node (.rule id)) c c' []
  | fieldsNil {first c} : Emits env lab (.fields first []) c c []
  | fieldsFirst {tr n l c c₁ ps c' qs} : Emits env lab (.node n) c c₁ ps → Emits env lab (.fields false l) c₁ c' qs →
      Emits env lab (.fields true ((tr, n) :: l)) c c' (ps ++ qs)
  | fieldsNext {tr n l c c₀ c₁ ps c' qs} : Peg env (.node tr) c (some c₀) → Emits env lab (.node n) c₀ c₁ ps →
      Emits env lab (.fields false l) c₁ c' qs → Emits env lab (.fields false ((tr, n) :: l)) c c' (ps ++ qs)
  | unitFirst {n tr c c' ps} : Emits env lab (.node n) c c' ps → Emits env lab (.unit n tr 0) c c' ps
  | unitNext {n tr i c c₀ c' ps} : Peg env (.node tr) c (some c₀) → Emits env lab (.node n) c₀ c' ps →
      Emits env lab (.unit n tr (i + 1)) c c' ps
  | repsMax {n tr min max i c} : max ≤ i → Emits env lab (.reps n tr min max i) c c []
  | repsMore {n tr min max i c c₁ ps c' qs} : i < max → Emits env lab (.unit n tr i) c c₁ ps →
      Emits env lab (.reps n tr min max (i + 1)) c₁ c' qs → Emits env lab (.reps n tr min max i) c c' (ps ++ qs)
  | repsStop {n tr min max i c} : i < max → Peg env (.unit n tr i) c none → min ≤ i →
      Emits env lab (.reps n tr min max i) c c []

section
variable {R : Type} {env : Env} {lab : Label → R}

theorem Builds.emits {inp : Str} {item : Item} {c c' : Cfg} {ss ss' : List Span} {ts : List Tree}
    (h : Builds env inp item c ss c' ss' ts) : Emits env lab item c c' (Tree.selfPairsList env lab ts) := by
  have one : ∀ t : Tree, Tree.selfPairsList env lab [t] = t.selfPairs env lab := by
    intro t; simp [Tree.selfPairsList]
  induction h with
  | leaf h1 h2 _ => rw [one, Tree.selfPairs]; exact .leaf (.leafOk h1 h2)
  | positive h _ => rw [one, Tree.selfPairs]; exact .positive (.positiveOk h.peg)
  | negative h => rw [one, Tree.selfPairs]; exact .negative (.negativeOk h)
  | push _ ih => rw [one, Tree.selfPairs]; rw [one] at ih; exact .push ih
  | optSome _ ih => rw [one, Tree.selfPairs]; rw [one] at ih; exact .optSome ih
  | optNone h => rw [one, Tree.selfPairs]; exact .optNone h
  | rep _ ih => rw [one, Tree.selfPairs]; exact .rep ih
  | seq _ ih => rw [one, Tree.selfPairs]; exact .seq ih
  | choice h _ ih => rw [one, Tree.selfPairs]; rw [one] at ih; exact .choice h ih
  | @rule id c ss c' ss' t h ih =>
    rw [one, Tree.selfPairs]
    rw [one] at ih
    split
    · rename_i hs; exact .silent hs (.rule h.peg)
    · rename_i hs; exact .visible (by simpa using hs) ih
  | fieldsNil => exact .fieldsNil
  | fieldsFirst _ _ ih1 ih2 =>
    rw [Tree.selfPairsList]
    rw [one] at ih1
    exact .fieldsFirst ih1 ih2
  | fieldsNext h0 _ _ _ ih1 ih2 =>
    rw [Tree.selfPairsList]
    rw [one] at ih1
    exact .fieldsNext h0.peg ih1 ih2
  | unitFirst _ ih => exact .unitFirst ih
  | unitNext h0 _ _ ih => exact .unitNext h0.peg ih
  | repsMax h => exact .repsMax h
  | repsMore hlt _ _ ih1 ih2 =>
    rw [Tree.selfPairsList]
    rw [one] at ih1
    exact .repsMore hlt ih1 ih2
  | repsStop h1 h2 h3 => exact .repsStop h1 h2 h3

/-- Offsets reached from `pre`. -/
theorem Nested.mono {B : Nat → Prop} {lo hi : Nat} {ps : List (Pair R)} (h : Nested B lo hi ps) :
    ∀ {lo'}, lo' ≤ lo → Nested B lo' hi ps := by
  cases h with
  | nil h => intro lo' hlo; exact .nil (by omega)
  | cons h1 h2 h3 h4 h5 h6 => intro lo' hlo; exact .cons (by omega) h2 h3 h4 h5 h6

theorem Nested.le {B : Nat → Prop} {lo hi : Nat} {ps : List (Pair R)} (h : Nested B lo hi ps) : lo ≤ hi := by
  induction h with
  | nil h => exact h
  | cons _ _ _ _ _ _ ih ih' => omega

theorem Nested.append {B : Nat → Prop} {lo mid hi : Nat} {ps qs : List (Pair R)} (h : Nested B lo mid ps)
    (h' : Nested B mid hi qs) : Nested B lo hi (ps ++ qs) := by
  induction h with
  | nil h => exact h'.mono h
  | cons h1 h2 h3 h4 h5 h6 ih ih' => exact .cons h1 h2 h3 h4 h5 (ih' h')

theorem utf8Len_pre_le {item : Item} {c c' : Cfg} (h : Peg env item c (some c')) : utf8Len c.pre ≤ utf8Len c'.pre := by
  obtain ⟨m, h1, _⟩ := h.consumes c' rfl
  rw [h1, utf8Len_append]
  omega

theorem Builds.nested {inp : Str} {item : Item} {c c' : Cfg} {ss ss' : List Span} {ts : List Tree}
    (h : Builds env inp item c ss c' ss' ts) (hin : inp.text = c.pre ++ c.suf) :
    Nested (fun o => ∃ pre suf, inp.text = pre ++ suf ∧ utf8Len pre = o) (utf8Len c.pre) (utf8Len c'.pre)
      (Tree.selfPairsList env lab ts) := by
  have one : ∀ t : Tree, Tree.selfPairsList env lab [t] = t.selfPairs env lab := by
    intro t; simp [Tree.selfPairsList]
  have keep : ∀ {item : Item} {c c' : Cfg}, Peg env item c (some c') → inp.text = c.pre ++ c.suf →
      inp.text = c'.pre ++ c'.suf := by
    intro item c c' h hin
    obtain ⟨m, h1, h2⟩ := h.consumes c' rfl
    rw [hin, h1, h2, List.append_assoc]
  induction h with
  | leaf h1 h2 _ =>
    rw [one, Tree.selfPairs]
    exact .nil (by simp only [utf8Len_append]; omega)
  | positive h _ => rw [one, Tree.selfPairs]; exact .nil (Nat.le_refl _)
  | negative h => rw [one, Tree.selfPairs]; exact .nil (Nat.le_refl _)
  | push _ ih => rw [one, Tree.selfPairs]; rw [one] at ih; exact ih hin
  | optSome _ ih => rw [one, Tree.selfPairs]; rw [one] at ih; exact ih hin
  | optNone h => rw [one, Tree.selfPairs]; exact .nil (Nat.le_refl _)
  | rep _ ih => rw [one, Tree.selfPairs]; exact ih hin
  | seq _ ih => rw [one, Tree.selfPairs]; exact ih hin
  | choice h _ ih => rw [one, Tree.selfPairs]; rw [one] at ih; exact ih hin
  | @rule id c ss c' ss' t h ih =>
    rw [one, Tree.selfPairs]
    rw [one] at ih
    have hle := utf8Len_pre_le h.peg
    split
    · exact .nil hle
    · exact .cons (Nat.le_refl _) hle ⟨_, _, hin, rfl⟩ ⟨_, _, keep h.peg hin, rfl⟩ (ih hin) (.nil (Nat.le_refl _))
  | fieldsNil => exact .nil (Nat.le_refl _)
  | fieldsFirst h1 h2 ih1 ih2 =>
    rw [Tree.selfPairsList]
    rw [one] at ih1
    exact (ih1 hin).append (ih2 (keep h1.peg hin))
  | fieldsNext h0 h1 _ _ ih1 ih2 =>
    rw [Tree.selfPairsList]
    rw [one] at ih1
    have hin0 := keep h0.peg hin
    exact (((ih1 hin0).mono (utf8Len_pre_le h0.peg)).append (ih2 (keep h1.peg hin0)))
  | unitFirst _ ih => exact ih hin
  | unitNext h0 _ _ ih => exact (ih (keep h0.peg hin)).mono (utf8Len_pre_le h0.peg)
  | repsMax h => exact .nil (Nat.le_refl _)
  | repsMore hlt h1 _ ih1 ih2 =>
    rw [Tree.selfPairsList]
    rw [one] at ih1
    exact (ih1 hin).append (ih2 (keep h1.peg hin))
  | repsStop h1 h2 h3 => exact .nil (Nat.le_refl _)

/-! ## Emits is a function -/

theorem Emits.peg {item : Item} {c c' : Cfg} {ps : List (Pair R)} (h : Emits env lab item c c' ps) :
    Peg env item c (some c') := by
  induction h with
  | leaf h => exact h
  | positive h => exact h
  | negative h => exact h
  | push _ ih => exact .pushOk ih
  | optSome _ ih => exact .optSome ih
  | optNone h => exact .optNone h
  | rep _ ih => exact .rep ih
  | seq _ ih => exact .seq ih
  | @choice pre a post c c' ps hpre _ ih => exact .choice (pegAlts_hit post ih pre hpre)
  | visible _ _ ih => exact .rule ih
  | silent _ h => exact h
  | fieldsNil => exact .fieldsNil
  | fieldsFirst _ _ ih1 ih2 => exact .fieldsFirst ih1 ih2
  | fieldsNext h0 _ _ ih1 ih2 => exact .fieldsNext h0 ih1 ih2
  | unitFirst _ ih => exact .unitFirst ih
  | unitNext h0 _ ih => exact .unitNext h0 ih
  | repsMax h => exact .repsMax h
  | repsMore h _ _ ih1 ih2 => exact .repsMore h ih1 ih2
  | repsStop h1 h2 h3 => exact .repsStop h1 h2 h3

theorem Emits.det {item : Item} {c c' : Cfg} {ps : List (Pair R)} (h : Emits env lab item c c' ps) :
    ∀ {c₂ qs}, Emits env lab item c c₂ qs → c' = c₂ ∧ ps = qs := by
  have same : ∀ {item : Item} {c a b : Cfg}, Peg env item c (some a) → Peg env item c (some b) → a = b := by
    intro item c a b h1 h2; cases h1.det h2; rfl
  induction h with
  | leaf h => intro c₂ qs g; exact ⟨same h g.peg, by cases g; rfl⟩
  | positive h => intro c₂ qs g; exact ⟨same h g.peg, by cases g; rfl⟩
  | negative h => intro c₂ qs g; exact ⟨same h g.peg, by cases g; rfl⟩
  | push _ ih =>
    intro c₂ qs g
    cases g with
    | push g =>
      obtain ⟨e1, rfl⟩ := ih g
      simp only [Cfg.mk.injEq, List.append_cancel_left_eq] at e1
      obtain ⟨rfl, rfl, rfl⟩ := e1
      exact ⟨rfl, rfl⟩
  | optSome h ih =>
    intro c₂ qs g
    cases g with
    | optSome g => exact ih g
    | optNone g => cases h.peg.det g
  | optNone h =>
    intro c₂ qs g
    cases g with
    | optSome g => cases h.det g.peg
    | optNone g => exact ⟨rfl, rfl⟩
  | rep _ ih => intro c₂ qs g; cases g with | rep g => exact ih g
  | seq _ ih => intro c₂ qs g; cases g with | seq g => exact ih g
  | @choice pre a post c c' ps hpre h' ih =>
    intro c₂ qs g
    generalize hl : pre ++ a :: post = l at g
    cases g with
    | @choice pre2 a2 post2 _ _ _ hpre2 g =>
      obtain ⟨rfl, rfl, rfl⟩ := split_first (P := fun b => ∃ c', Peg env (.node b) c (some c')) hl
        (fun b hb ⟨_, hh⟩ => by cases hh.det (hpre b hb))
        (fun b hb ⟨_, hh⟩ => by cases hh.det (hpre2 b hb)) ⟨_, h'.peg⟩ ⟨_, g.peg⟩
      exact ih g
  | visible hs _ ih =>
    intro c₂ qs g
    cases g with
    | visible _ g => obtain ⟨rfl, rfl⟩ := ih g; exact ⟨rfl, rfl⟩
    | silent hs' _ => rw [hs] at hs'; cases hs'
  | silent hs h =>
    intro c₂ qs g
    cases g with
    | visible hs' g => rw [hs] at hs'; cases hs'
    | silent _ g => exact ⟨same h g, rfl⟩
  | fieldsNil => intro c₂ qs g; cases g; exact ⟨rfl, rfl⟩
  | fieldsFirst _ _ ih1 ih2 =>
    intro c₂ qs g
    cases g with
    | fieldsFirst g1 g2 =>
      obtain ⟨rfl, rfl⟩ := ih1 g1
      obtain ⟨rfl, rfl⟩ := ih2 g2
      exact ⟨rfl, rfl⟩
  | fieldsNext h0 _ _ ih1 ih2 =>
    intro c₂ qs g
    cases g with
    | fieldsNext g0 g1 g2 =>
      obtain rfl := same h0 g0
      obtain ⟨rfl, rfl⟩ := ih1 g1
      obtain ⟨rfl, rfl⟩ := ih2 g2
      exact ⟨rfl, rfl⟩
  | unitFirst _ ih => intro c₂ qs g; cases g with | unitFirst g => exact ih g
  | unitNext h0 _ ih =>
    intro c₂ qs g
    cases g with
    | unitNext g0 g => obtain rfl := same h0 g0; exact ih g
  | repsMax hle =>
    intro c₂ qs g
    cases g with
    | repsMax _ => exact ⟨rfl, rfl⟩
    | repsMore hlt _ _ => omega
    | repsStop hlt _ _ => omega
  | repsMore hlt h1 _ ih1 ih2 =>
    intro c₂ qs g
    cases g with
    | repsMax _ => omega
    | repsMore _ g1 g2 =>
      obtain ⟨rfl, rfl⟩ := ih1 g1
      obtain ⟨rfl, rfl⟩ := ih2 g2
      exact ⟨rfl, rfl⟩
    | repsStop _ g _ => cases h1.peg.det g
  | repsStop hlt h1 _ =>
    intro c₂ qs g
    cases g with
    | repsMax _ => exact ⟨rfl, rfl⟩
    | repsMore _ g1 g2 => cases h1.det g1.peg
    | repsStop _ g _ => exact ⟨rfl, rfl⟩

end

end Pest3
