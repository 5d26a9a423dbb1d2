import Verif.PairLemmas
import Verif.Props.Combinators

/-!
# Properties C30–C32, C58: token trees and captured values
-/

namespace Pest3.Props

open Pest3

section
variable {S : Type} {so : StackOps S} {saved : S → List (List Span)} (hl : Lawful so saved) (env : Env)
  {inp : Str} {p : Position} {st : St S Tracker} {R : Type} (lab : Label → R)
include hl

/-! ## C30 -/

/-- The pairs of a parsed node lie within the text it matched, in order, without overlap, nested within
their parents, at character boundaries. -/
theorem C30_nested (hp : Good inp p) (hr : Ready so saved inp st) (fuel : Nat) (n : Node) (q : Position) (t : Tree)
    (st' : St S Tracker) (h : parse so realTracker env fuel n p st = .ok (some (q, t), st')) :
    Nested (fun o => ∃ pre suf, inp.text = pre ++ suf ∧ utf8Len pre = o) p.pos q.pos (t.selfPairs env lab) := by
  obtain ⟨c, hco⟩ := corr_exists hp hr
  obtain ⟨_, _, _, _, _, _, c', hco', hb⟩ := parse_ok hl hp hr hco h
  have := hb.nested (lab := lab) (by rw [← hp.2]; exact hco.at_.1)
  rw [← hco.at_.2, ← hco'.at_.2] at this
  simpa [Tree.selfPairsList] using this

/-- The token tree of a parsed rule: it has the rule's label, covers exactly the text matched, and its
descendants are well nested. -/
theorem C30_pair_tree (hp : Good inp p) (hr : Ready so saved inp st) (fuel : Nat) (id : RuleId) (q : Position) (t : Tree)
    (st' : St S Tracker) (h : parse so realTracker env fuel (.rule id) p st = .ok (some (q, t), st'))
    (hs : (env id).silent = false) :
    ∃ cs, t.asPairTree env lab = some (.mk (lab (env id).label) p.pos q.pos cs) ∧
      Nested (fun o => ∃ pre suf, inp.text = pre ++ suf ∧ utf8Len pre = o) p.pos q.pos cs := by
  have hn := C30_nested hl env lab hp hr fuel (.rule id) q t st' h
  obtain ⟨c, hco⟩ := corr_exists hp hr
  obtain ⟨_, _, _, _, _, _, c', hco', hb⟩ := parse_ok hl hp hr hco h
  cases hb with
  | @rule _ _ _ _ _ t' hb =>
    simp only [Tree.selfPairs, hs, Bool.false_eq_true, ↓reduceIte, spanOf] at hn
    rw [← hco.at_.2, ← hco'.at_.2] at hn
    refine ⟨t'.selfPairs env lab, ?_, ?_⟩
    · simp only [Tree.asPairTree, hs, Bool.false_eq_true, ↓reduceIte, spanOf, Tree.vecChildren, Tree.childPairs,
        ← hco.at_.2, ← hco'.at_.2]
    · cases hn with
      | cons _ _ _ _ h5 _ => exact h5

/-! ## C31 -/

/-- The pairs reported for a match are exactly those the grammar prescribes: one for every rule that is
not silent and not inside a lookahead or a silent rule, in order of matching, with the rule's range. -/
theorem C31_emits (hp : Good inp p) (hr : Ready so saved inp st) {c : Cfg} (hco : Corr so p st c) (fuel : Nat) (n : Node)
    (q : Position) (t : Tree) (st' : St S Tracker)
    (h : parse so realTracker env fuel n p st = .ok (some (q, t), st')) (ps : List (Pair R)) :
    t.selfPairs env lab = ps ↔ ∃ c', Emits env lab (.node n) c c' ps := by
  obtain ⟨_, _, _, _, _, _, c', hco', hb⟩ := parse_ok hl hp hr hco h
  have he := hb.emits (lab := lab)
  simp only [Tree.selfPairsList, List.append_nil] at he
  constructor
  · rintro rfl
    exact ⟨c', he⟩
  · rintro ⟨c₂, h2⟩
    exact (he.det h2).2

omit hl in
/-- The three ways to ask a rule for pairs: itself, its children, its token tree. -/
theorem C31_rule (id : RuleId) (t : Tree) (s : Span) :
    ((env id).silent = true → (Tree.rule id t s).selfPairs env lab = [] ∧ (Tree.rule id t s).childPairs env lab = [] ∧
      (Tree.rule id t s).vecChildren env lab = [] ∧ (Tree.rule id t s).asPairTree env lab = none) ∧
    ((env id).silent = false →
      ∃ pair, (Tree.rule id t s).asPairTree env lab = some pair ∧ (Tree.rule id t s).selfPairs env lab = [pair] ∧
        pair.rule = lab (env id).label ∧ pair.start = s.start ∧ pair.stop = s.stop ∧
        pair.children = (Tree.rule id t s).childPairs env lab ∧ pair.children = t.selfPairs env lab ∧
        (Tree.rule id t s).vecChildren env lab = pair.children) := by
  constructor
  · intro h
    simp [Tree.selfPairs, Tree.childPairs, Tree.vecChildren, Tree.asPairTree, h]
  · intro h
    refine ⟨.mk (lab (env id).label) s.start s.stop (t.selfPairs env lab), ?_⟩
    simp [Tree.selfPairs, Tree.childPairs, Tree.vecChildren, Tree.asPairTree, h, Pair.rule, Pair.start, Pair.stop,
      Pair.children]

omit hl in
/-- `vec_children_pairs` lists what `for_each_child_pair` visits, except on a `push` around a rule. -/
theorem C31_vec_children (t : Tree) (ht : ∀ u, t ≠ .push u) :
    t.vecChildren env lab = t.childPairs env lab := by
  cases t <;> first | rfl | exact absurd rfl (ht _)

/-! ## C58 -/

/-- A leaf that stores text stores the text it matched; one that stores a character stores the character
it matched; one that stores a span (other than `POP`) stores the range it matched.  `POP` stores the
span it popped, whose text is the text matched. -/
theorem C58_captured_partial (hp : Good inp p) (hr : Ready so saved inp st) (fuel : Nat) (l : Leaf) (q : Position) (v : LeafVal)
    (st' : St S Tracker) (h : parse so realTracker env fuel (.leaf l) p st = .ok (some (q, .leaf v), st')) :
    ∃ pre m rest, inp.text = pre ++ m ++ rest ∧ utf8Len pre = p.pos ∧ utf8Len pre + utf8Len m = q.pos ∧
      (∀ s, v = .content s → s = m) ∧ (∀ x, v = .chr x → m = [x]) ∧
      (∀ s, v = .span s → l ≠ .pop → s = ⟨inp, p.pos, q.pos⟩) ∧
      (∀ s, v = .span s → l = .pop → s.asStr = some m ∧ (so.elems st.stk).getLast? = some s) ∧
      (∀ k, v = .nl k → m = match k with | .crlf => ['\r', '\n'] | .lf => ['\n'] | .cr => ['\r']) := by
  obtain ⟨c, hco⟩ := corr_exists hp hr
  obtain ⟨_, _, _, _, _, _, c', hco', hb⟩ := parse_ok hl hp hr hco h
  generalize hss' : so.elems st'.stk = ss' at hb
  cases hb with
  | @leaf _ _ _ m stk rest _ h1 h2 h3 =>
    have e1 := hco.at_
    have e2 := hco'.at_.2
    simp only [utf8Len_append] at e2
    refine ⟨c.pre, m, rest, by rw [← hp.2, e1.1, h2, List.append_assoc], e1.2.symm, e2.symm, ?_, ?_, ?_, ?_, ?_⟩
    · rintro s rfl
      cases l <;> simp [leafVal] at h3
      exact h3.symm
    · rintro x rfl
      cases l <;> simp [leafVal, List.head?_eq_some_iff] at h3
      all_goals
        simp only [leafSpec, eatChar] at h1
        cases hs : c.suf with
        | nil => rw [hs] at h1; cases h1
        | cons y ys =>
          rw [hs] at h1
          simp only at h1
          split at h1
          · cases h1; obtain ⟨_, h3⟩ := h3; cases h3; rfl
          · cases h1
    · rintro s rfl hne
      have : spanOf inp c.pre (c.pre ++ m) = ⟨inp, p.pos, q.pos⟩ := by
        simp only [spanOf, utf8Len_append, e1.2, e2]
      cases l <;> simp [leafVal] at h3 hne <;> rw [← h3, this]
    · rintro s rfl rfl
      simp only [leafVal, Option.map_eq_some_iff, LeafVal.span.injEq, exists_eq_right] at h3
      refine ⟨?_, h3⟩
      have ht := hco.texts
      simp only [leafSpec] at h1
      obtain ⟨top, htop, hIs⟩ : ∃ top, c.stk.getLast? = some top ∧ s.Is top := by
        have aux : ∀ {ss : List Span} {ts : List Text}, Texts ss ts → ss.getLast? = some s →
            ∃ top, ts.getLast? = some top ∧ s.Is top := by
          intro ss ts h
          induction h with
          | nil => intro h; cases h
          | @cons s' t' ss ts hi ht ih =>
            intro h
            cases ht with
            | nil => simp at h; subst h; exact ⟨_, rfl, hi⟩
            | cons hi' ht' =>
              rw [List.getLast?_cons_cons] at h
              obtain ⟨top, h1, h2⟩ := ih h
              exact ⟨top, by rw [List.getLast?_cons_cons]; exact h1, h2⟩
        exact aux ht h3
      rw [htop] at h1
      simp only [eatText] at h1
      split at h1
      · cases h1; exact hIs
      · cases h1
    · rintro k rfl
      cases l <;> simp [leafVal] at h3
      simp only [leafSpec] at h1
      split at h1 <;> simp at h1 <;> obtain ⟨rfl, _⟩ := h1 <;> simp at h3 <;> subst h3 <;> rfl

end

/-! ## C32 -/

section
variable {R R' R'' : Type}

mutual
/-- Offsets and structure of a pair. -/
inductive SameShape : Pair R → Pair R' → Prop
  | mk {r r' a b cs cs'} : SameShapes cs cs' → SameShape (.mk r a b cs) (.mk r' a b cs')
inductive SameShapes : List (Pair R) → List (Pair R') → Prop
  | nil : SameShapes [] []
  | cons {p p' ps ps'} : SameShape p p' → SameShapes ps ps' → SameShapes (p :: ps) (p' :: ps')
end

mutual
/-- Labels in preorder. -/
def labels : Pair R → List R
  | .mk r _ _ cs => r :: labelss cs
def labelss : List (Pair R) → List R
  | [] => []
  | p :: ps => labels p ++ labelss ps
end

mutual
theorem C32_shape (f : R → R') : ∀ p : Pair R, SameShape p (p.convert f)
  | .mk r a b cs => by rw [Pair.convert]; exact .mk (shapes f cs)
theorem shapes (f : R → R') : ∀ ps : List (Pair R), SameShapes ps (Pair.converts f ps)
  | [] => .nil
  | p :: ps => .cons (C32_shape f p) (shapes f ps)
end

mutual
theorem C32_labels (f : R → R') : ∀ p : Pair R, labels (p.convert f) = (labels p).map f
  | .mk r a b cs => by rw [Pair.convert, labels, labels, labelss_map f cs]; rfl
theorem labelss_map (f : R → R') : ∀ ps : List (Pair R), labelss (Pair.converts f ps) = (labelss ps).map f
  | [] => rfl
  | p :: ps => by rw [Pair.converts, labelss, labelss, List.map_append, C32_labels f p, labelss_map f ps]
end

mutual
theorem C32_id : ∀ p : Pair R, p.convert (fun r => r) = p
  | .mk r a b cs => by rw [Pair.convert, ids cs]
theorem ids : ∀ ps : List (Pair R), Pair.converts (fun r => r) ps = ps
  | [] => rfl
  | p :: ps => by rw [Pair.converts, C32_id p, ids ps]
end

mutual
theorem C32_comp (f : R → R') (g : R' → R'') : ∀ p : Pair R, (p.convert f).convert g = p.convert (fun r => g (f r))
  | .mk r a b cs => by rw [Pair.convert, Pair.convert, Pair.convert, comps f g cs]
theorem comps (f : R → R') (g : R' → R'') :
    ∀ ps : List (Pair R), Pair.converts g (Pair.converts f ps) = Pair.converts (fun r => g (f r)) ps
  | [] => rfl
  | p :: ps => by rw [Pair.converts, Pair.converts, Pair.converts, C32_comp f g p, comps f g ps]
end

mutual
/-- Shape and labels determine the pair: conversion is the only function with the two properties above. -/
theorem shape_unique (f : R → R') : ∀ (p : Pair R) (q : Pair R'), SameShape p q → labels q = (labels p).map f → q = p.convert f
  | .mk r a b cs, .mk r' a' b' cs', h, hl => by
    cases h with
    | mk h =>
      simp only [labels, List.map_cons, List.cons.injEq] at hl
      rw [Pair.convert, hl.1, shapes_unique f cs cs' h hl.2]
theorem shapes_unique (f : R → R') : ∀ (ps : List (Pair R)) (qs : List (Pair R')), SameShapes ps qs →
    labelss qs = (labelss ps).map f → qs = Pair.converts f ps
  | [], [], _, _ => rfl
  | p :: ps, q :: qs, h, hl => by
    cases h with
    | cons h1 h2 =>
      simp only [labelss, List.map_append] at hl
      have hlen : (labels q).length = ((labels p).map f).length := by
        rw [List.length_map]; exact shape_labels_length p q h1
      obtain ⟨e1, e2⟩ := List.append_inj hl hlen
      rw [Pair.converts, shape_unique f p q h1 e1, shapes_unique f ps qs h2 e2]
  | [], _ :: _, h, _ => by cases h
  | _ :: _, [], h, _ => by cases h
theorem shape_labels_length : ∀ (p : Pair R) (q : Pair R'), SameShape p q → (labels q).length = (labels p).length
  | .mk r a b cs, .mk r' a' b' cs', h => by
    cases h with
    | mk h => simp only [labels, List.length_cons, shapes_labels_length cs cs' h]
theorem shapes_labels_length : ∀ (ps : List (Pair R)) (qs : List (Pair R')), SameShapes ps qs →
    (labelss qs).length = (labelss ps).length
  | [], [], _ => rfl
  | p :: ps, q :: qs, h => by
    cases h with
    | cons h1 h2 =>
      simp only [labelss, List.length_append, shape_labels_length p q h1, shapes_labels_length ps qs h2]
  | [], _ :: _, h => by cases h
  | _ :: _, [], h => by cases h
end

theorem C32_unique (f : R → R') (p : Pair R) (q : Pair R') :
    q = p.convert f ↔ SameShape p q ∧ labels q = (labels p).map f :=
  ⟨fun h => h ▸ ⟨C32_shape f p, C32_labels f p⟩, fun ⟨h1, h2⟩ => shape_unique f p q h1 h2⟩

end

section
variable {R R' : Type} (env : Env) (lab : Label → R) (cvt : R → R')

theorem converts_append (f : R → R') (ps qs : List (Pair R)) :
    Pair.converts f (ps ++ qs) = Pair.converts f ps ++ Pair.converts f qs := by
  induction ps with
  | nil => rfl
  | cons p ps ih => rw [List.cons_append, Pair.converts, Pair.converts, ih]; rfl

mutual
/-- The pairs for a super rule type (`.cvt_into()`) are the converted pairs. -/
theorem C32_super_rule : ∀ t : Tree, t.selfPairs env (fun l => cvt (lab l)) = Pair.converts cvt (t.selfPairs env lab)
  | .leaf _ | .positive _ | .negative | .optNone => by simp [Tree.selfPairs, Pair.converts]
  | .push t | .optSome t | .choice _ t => by rw [Tree.selfPairs, Tree.selfPairs]; exact C32_super_rule t
  | .rep ts | .seq ts => by rw [Tree.selfPairs, Tree.selfPairs]; exact super_rules ts
  | .rule id t s => by
    rw [Tree.selfPairs, Tree.selfPairs]
    split
    · rfl
    · rw [Pair.converts, Pair.convert, C32_super_rule t]; rfl
theorem super_rules : ∀ ts : List Tree,
    Tree.selfPairsList env (fun l => cvt (lab l)) ts = Pair.converts cvt (Tree.selfPairsList env lab ts)
  | [] => rfl
  | t :: ts => by rw [Tree.selfPairsList, Tree.selfPairsList, C32_super_rule t, super_rules ts, converts_append]
end

end

/-! ## Instances and counterexamples -/

/-- The example grammar on `ab ,ab`: a pair `tag` with a child `name`. -/
example : ∃ q t st', parse idealOps realTracker exEnv 20 (.rule 1) (Position.fromStart exInput) (initSt idealOps exInput)
      = .ok (some (q, t), st') ∧
    t.asPairTree exEnv (fun l => l) = some (.mk 1 0 6 [.mk 2 0 2 []]) := ⟨_, _, _, rfl, rfl⟩

/-- `vec_children_pairs` of `PUSH(rule)` skips the rule that `for_each_child_pair` visits. -/
theorem C31_push_differs : ∃ t : Tree, (Tree.push t).childPairs exEnv (fun l => l) ≠ (Tree.push t).vecChildren exEnv (fun l => l) :=
  ⟨.rule 2 (.rep []) ⟨exInput, 0, 2⟩, by
    simp [Tree.childPairs, Tree.vecChildren, Tree.selfPairs, Tree.selfPairsList, exEnv]⟩

/-- `PUSH("a") ~ POP` on `aa`: `POP` matched bytes 1..2 but its `span` is 0..1. -/
theorem C58_pop_span_not_matched : ∃ st',
    parse idealOps realTracker exEnv 5 (.seq [(.leaf .empty, .push (.leaf (.str ['a']))), (.leaf .empty, .leaf .pop)])
      ⟨⟨1, ['a', 'a']⟩, 0⟩ (initSt idealOps ⟨1, ['a', 'a']⟩) =
    .ok (some (⟨⟨1, ['a', 'a']⟩, 2⟩, .seq [.push (.leaf .unit), .leaf (.span ⟨⟨1, ['a', 'a']⟩, 0, 1⟩)]), st') :=
  ⟨_, rfl⟩

/-- Case-insensitive literal: the text as written in the input is captured. -/
example : ∃ st', parse idealOps realTracker exEnv 2 (.leaf (.insens ['a', 'b'])) ⟨⟨1, ['A', 'b', 'c']⟩, 0⟩
    (initSt idealOps ⟨1, ['A', 'b', 'c']⟩) = .ok (some (⟨⟨1, ['A', 'b', 'c']⟩, 2⟩, .leaf (.content ['A', 'b'])), st') :=
  ⟨_, rfl⟩

/-- Conversion of a two-level tree. -/
example : (Pair.mk 1 0 6 [.mk 2 0 2 []]).convert (fun n : Nat => n + 10) = .mk 11 0 6 [.mk 12 0 2 []] := by
  simp [Pair.convert, Pair.converts]

end Pest3.Props
