import Verif.CombLemmas

/-!
# Moving a match to another context: vocabulary and lemmas
-/

namespace Pest3

/-! ## Trees with spans replaced -/

/-- Replace the span held by a leaf. -/
def LeafVal.mapSpan (f : Span → Span) : LeafVal → LeafVal
  | .span s => .span (f s)
  | v => v

mutual
/-- Replace every span in a tree. -/
def Tree.mapSpan (f : Span → Span) : Tree → Tree
  | .leaf v => .leaf (v.mapSpan f)
  | .positive t => .positive (t.mapSpan f)
  | .negative => .negative
  | .push t => .push (t.mapSpan f)
  | .optNone => .optNone
  | .optSome t => .optSome (t.mapSpan f)
  | .rep ts => .rep (Tree.mapSpans f ts)
  | .seq ts => .seq (Tree.mapSpans f ts)
  | .choice i t => .choice i (t.mapSpan f)
  | .rule id t s => .rule id (t.mapSpan f) (f s)
/-- Replace every span in several trees. -/
def Tree.mapSpans (f : Span → Span) : List Tree → List Tree
  | [] => []
  | t :: ts => t.mapSpan f :: Tree.mapSpans f ts
end

/-- A span of `inp₁` at or after offset `d₁`, moved to `inp₂` so that offset `d₁` becomes `d₂`. -/
def moveSpan (inp₁ : Str) (d₁ : Nat) (inp₂ : Str) (d₂ : Nat) (s : Span) : Span :=
  if s.input = inp₁ ∧ d₁ ≤ s.start then ⟨inp₂, s.start - d₁ + d₂, s.stop - d₁ + d₂⟩ else s

theorem moveSpan_spanOf (inp₁ inp₂ : Str) (P₁ P₂ x y : Text) :
    moveSpan inp₁ (utf8Len P₁) inp₂ (utf8Len P₂) (spanOf inp₁ (P₁ ++ x) (P₁ ++ y)) =
      spanOf inp₂ (P₂ ++ x) (P₂ ++ y) := by
  simp only [moveSpan, spanOf, utf8Len_append, true_and, Nat.le_add_right, ↓reduceIte, Span.mk.injEq]
  omega

/-! ## Leaves that do not look behind -/

/-- `SOI` is the only expression that looks at what precedes the cursor. -/
def Leaf.notSoi : Leaf → Prop
  | .soi => False
  | _ => True

/-- No `SOI` in the item. -/
def Item.All (L : Leaf → Prop) : Item → Prop
  | .node n => n.All L
  | .alts l => ∀ a ∈ l, Node.All L a
  | .fields _ l => (∀ f ∈ l, Node.All L f.1) ∧ ∀ f ∈ l, Node.All L f.2
  | .unit n tr _ => n.All L ∧ tr.All L
  | .reps n tr _ _ _ => n.All L ∧ tr.All L

section
variable (P₁ P₂ : Text)

/-- The same place seen after `P₁` and after `P₂`. -/
structure Moved (c d : Cfg) : Prop where
  pre : ∃ x, c.pre = P₁ ++ x ∧ d.pre = P₂ ++ x
  suf : c.suf = d.suf
  stk : c.stk = d.stk

/-- Corresponding results. -/
inductive MovedOut : Option Cfg → Option Cfg → Prop
  | fail : MovedOut none none
  | ok {c d} : Moved P₁ P₂ c d → MovedOut (some c) (some d)

variable {P₁ P₂}

theorem leaf_moved {l : Leaf} (hl : (P₁ = [] ↔ P₂ = []) ∨ l.notSoi) {c d : Cfg} (h : Moved P₁ P₂ c d) :
    leafSpec l d = leafSpec l c := by
  obtain ⟨x, hc, hd⟩ := h.pre
  have h1 := h.suf
  have h2 := h.stk
  cases l
  case soi =>
    have : d.pre = [] ↔ c.pre = [] := by
      rw [hc, hd]
      rcases hl with hl | hl
      · simp [hl]
      · exact hl.elim
    simp only [leafSpec, this, h2]
  all_goals simp only [leafSpec, ← h1, ← h2]

section
variable {env : Env} (henv : ∀ id, (env id).body.All fun l => (P₁ = [] ↔ P₂ = []) ∨ l.notSoi)
include henv

theorem Peg.moved {item : Item} {c : Cfg} {r : Option Cfg} (h : Peg env item c r) :
    item.All (fun l => (P₁ = [] ↔ P₂ = []) ∨ l.notSoi) → ∀ {d}, Moved P₁ P₂ c d →
      ∃ r', MovedOut P₁ P₂ r r' ∧ Peg env item d r' := by
  induction h with
  | @leafOk l c m stk rest h1 h2 =>
    intro hi d hm
    cases hi with
    | leaf hi =>
      have e := leaf_moved hi hm
      obtain ⟨x, hc, hd⟩ := hm.pre
      refine ⟨some ⟨d.pre ++ m, rest, stk⟩, .ok ⟨⟨x ++ m, by simp [hc], by simp [hd]⟩, rfl, rfl⟩, .leafOk (by rw [e, h1]) ?_⟩
      rw [← hm.suf, h2]
  | leafFail h1 =>
    intro hi d hm
    cases hi with
    | leaf hi => exact ⟨none, .fail, .leafFail (by rw [leaf_moved hi hm, h1])⟩
  | positiveOk _ ih =>
    intro hi d hm
    cases hi with
    | positive hi =>
      obtain ⟨_, ho, h⟩ := ih hi hm
      cases ho with
      | ok _ => exact ⟨_, .ok hm, .positiveOk h⟩
  | positiveFail _ ih =>
    intro hi d hm
    cases hi with
    | positive hi =>
      obtain ⟨_, ho, h⟩ := ih hi hm
      cases ho with
      | fail => exact ⟨_, .fail, .positiveFail h⟩
  | negativeOk _ ih =>
    intro hi d hm
    cases hi with
    | negative hi =>
      obtain ⟨_, ho, h⟩ := ih hi hm
      cases ho with
      | fail => exact ⟨_, .ok hm, .negativeOk h⟩
  | negativeFail _ ih =>
    intro hi d hm
    cases hi with
    | negative hi =>
      obtain ⟨_, ho, h⟩ := ih hi hm
      cases ho with
      | ok _ => exact ⟨_, .fail, .negativeFail h⟩
  | @pushOk n c m rest stk _ ih =>
    intro hi d hm
    cases hi with
    | push hi =>
      obtain ⟨_, ho, h⟩ := ih hi hm
      cases ho with
      | @ok _ d' hm' =>
        obtain ⟨x, hc, hd⟩ := hm.pre
        obtain ⟨x', hc', hd'⟩ := hm'.pre
        obtain ⟨dp, ds, dk⟩ := d'
        simp only at hc' hd'
        rw [hc, List.append_assoc, List.append_cancel_left_eq] at hc'
        subst hc'
        rw [← List.append_assoc, ← hd] at hd'
        subst hd'
        have e1 := hm'.suf
        have e2 := hm'.stk
        simp only at e1 e2
        subst e1 e2
        exact ⟨some ⟨d.pre ++ m, _, _⟩, .ok ⟨⟨x ++ m, by simp [hc], by simp [hd]⟩, rfl, rfl⟩, .pushOk h⟩
  | pushFail _ ih =>
    intro hi d hm
    cases hi with
    | push hi =>
      obtain ⟨_, ho, h⟩ := ih hi hm
      cases ho with
      | fail => exact ⟨_, .fail, .pushFail h⟩
  | optSome _ ih =>
    intro hi d hm
    cases hi with
    | opt hi =>
      obtain ⟨_, ho, h⟩ := ih hi hm
      cases ho with
      | ok hm' => exact ⟨_, .ok hm', .optSome h⟩
  | optNone _ ih =>
    intro hi d hm
    cases hi with
    | opt hi =>
      obtain ⟨_, ho, h⟩ := ih hi hm
      cases ho with
      | fail => exact ⟨_, .ok hm, .optNone h⟩
  | rep _ ih =>
    intro hi d hm
    cases hi with
    | rep h1 h2 =>
      obtain ⟨_, ho, h⟩ := ih ⟨h1, h2⟩ hm
      exact ⟨_, ho, .rep h⟩
  | seq _ ih =>
    intro hi d hm
    cases hi with
    | seq h1 h2 =>
      obtain ⟨_, ho, h⟩ := ih ⟨h1, h2⟩ hm
      exact ⟨_, ho, .seq h⟩
  | choice _ ih =>
    intro hi d hm
    cases hi with
    | choice h1 =>
      obtain ⟨_, ho, h⟩ := ih h1 hm
      exact ⟨_, ho, .choice h⟩
  | rule _ ih =>
    intro _ d hm
    obtain ⟨_, ho, h⟩ := ih (henv _) hm
    exact ⟨_, ho, .rule h⟩
  | altsNil => intro _ d hm; exact ⟨_, .fail, .altsNil⟩
  | altsHit _ ih =>
    intro hi d hm
    obtain ⟨_, ho, h⟩ := ih (hi _ (by simp)) hm
    cases ho with
    | ok hm' => exact ⟨_, .ok hm', .altsHit h⟩
  | altsMiss _ _ ih1 ih2 =>
    intro hi d hm
    obtain ⟨_, ho, h⟩ := ih1 (hi _ (by simp)) hm
    cases ho with
    | fail =>
      obtain ⟨_, ho, h'⟩ := ih2 (fun a ha => hi a (by simp [ha])) hm
      exact ⟨_, ho, .altsMiss h h'⟩
  | fieldsNil => intro _ d hm; exact ⟨_, .ok hm, .fieldsNil⟩
  | fieldsFirst _ _ ih1 ih2 =>
    intro hi d hm
    obtain ⟨_, ho, h⟩ := ih1 (hi.2 (_, _) List.mem_cons_self) hm
    cases ho with
    | ok hm' =>
      obtain ⟨_, ho, h'⟩ := ih2 ⟨fun a ha => hi.1 a (by simp [ha]), fun a ha => hi.2 a (by simp [ha])⟩ hm'
      exact ⟨_, ho, .fieldsFirst h h'⟩
  | fieldsFirstFail _ ih1 =>
    intro hi d hm
    obtain ⟨_, ho, h⟩ := ih1 (hi.2 (_, _) List.mem_cons_self) hm
    cases ho with
    | fail => exact ⟨_, .fail, .fieldsFirstFail h⟩
  | fieldsNext _ _ _ ih0 ih1 ih2 =>
    intro hi d hm
    obtain ⟨_, ho, h0⟩ := ih0 (hi.1 (_, _) List.mem_cons_self) hm
    cases ho with
    | ok hm' =>
      obtain ⟨_, ho, h⟩ := ih1 (hi.2 (_, _) List.mem_cons_self) hm'
      cases ho with
      | ok hm' =>
        obtain ⟨_, ho, h'⟩ := ih2 ⟨fun a ha => hi.1 a (by simp [ha]), fun a ha => hi.2 a (by simp [ha])⟩ hm'
        exact ⟨_, ho, .fieldsNext h0 h h'⟩
  | fieldsTriviaFail _ ih0 =>
    intro hi d hm
    obtain ⟨_, ho, h0⟩ := ih0 (hi.1 (_, _) List.mem_cons_self) hm
    cases ho with
    | fail => exact ⟨_, .fail, .fieldsTriviaFail h0⟩
  | fieldsNextFail _ _ ih0 ih1 =>
    intro hi d hm
    obtain ⟨_, ho, h0⟩ := ih0 (hi.1 (_, _) List.mem_cons_self) hm
    cases ho with
    | ok hm' =>
      obtain ⟨_, ho, h⟩ := ih1 (hi.2 (_, _) List.mem_cons_self) hm'
      cases ho with
      | fail => exact ⟨_, .fail, .fieldsNextFail h0 h⟩
  | unitFirst _ ih =>
    intro hi d hm
    obtain ⟨_, ho, h⟩ := ih hi.1 hm
    exact ⟨_, ho, .unitFirst h⟩
  | unitNext _ _ ih0 ih1 =>
    intro hi d hm
    obtain ⟨_, ho, h0⟩ := ih0 hi.2 hm
    cases ho with
    | ok hm' =>
      obtain ⟨_, ho, h⟩ := ih1 hi.1 hm'
      exact ⟨_, ho, .unitNext h0 h⟩
  | unitTriviaFail _ ih0 =>
    intro hi d hm
    obtain ⟨_, ho, h0⟩ := ih0 hi.2 hm
    cases ho with
    | fail => exact ⟨_, .fail, .unitTriviaFail h0⟩
  | repsMax hle => intro _ d hm; exact ⟨_, .ok hm, .repsMax hle⟩
  | repsMore hlt _ _ ih1 ih2 =>
    intro hi d hm
    obtain ⟨_, ho, h⟩ := ih1 hi hm
    cases ho with
    | ok hm' =>
      obtain ⟨_, ho, h'⟩ := ih2 hi hm'
      exact ⟨_, ho, .repsMore hlt h h'⟩
  | repsFew hlt _ hmin ih1 =>
    intro hi d hm
    obtain ⟨_, ho, h⟩ := ih1 hi hm
    cases ho with
    | fail => exact ⟨_, .fail, .repsFew hlt h hmin⟩
  | repsStop hlt _ hmin ih1 =>
    intro hi d hm
    obtain ⟨_, ho, h⟩ := ih1 hi hm
    cases ho with
    | fail => exact ⟨_, .ok hm, .repsStop hlt h hmin⟩

theorem Peg.moved_none {item : Item} {c d : Cfg} (h : Peg env item c none)
    (hi : item.All (fun l => (P₁ = [] ↔ P₂ = []) ∨ l.notSoi)) (hm : Moved P₁ P₂ c d) : Peg env item d none := by
  obtain ⟨_, ho, h⟩ := h.moved henv hi hm
  cases ho
  exact h

variable {inp₁ inp₂ : Str} {f : Span → Span}
  (hf : ∀ x y, f (spanOf inp₁ (P₁ ++ x) (P₁ ++ y)) = spanOf inp₂ (P₂ ++ x) (P₂ ++ y))
include hf

omit henv in
theorem leafVal_moved {l : Leaf} {c d : Cfg} (hm : Moved P₁ P₂ c d) {m : Text} {ss : List Span} {v : LeafVal}
    (h : leafVal inp₁ l c.pre m ss = some v) :
    leafVal inp₂ l d.pre m (ss.map f) = some (v.mapSpan f) := by
  obtain ⟨x, hc, hd⟩ := hm.pre
  have hs : f (spanOf inp₁ c.pre (c.pre ++ m)) = spanOf inp₂ d.pre (d.pre ++ m) := by
    rw [hc, hd, List.append_assoc, List.append_assoc, hf]
  cases l <;> simp only [leafVal] at h ⊢
  case pop =>
    rw [List.getLast?_map]
    obtain ⟨s, h1, rfl⟩ := Option.map_eq_some_iff.1 h
    rw [h1]
    rfl
  case range | prop | any =>
    obtain ⟨s, h1, rfl⟩ := Option.map_eq_some_iff.1 h
    rw [h1]
    rfl
  all_goals
    cases h
    simp [LeafVal.mapSpan, hs]

theorem Builds.moved {item : Item} {c c' : Cfg} {ss ss' : List Span} {ts : List Tree}
    (h : Builds env inp₁ item c ss c' ss' ts) :
    item.All (fun l => (P₁ = [] ↔ P₂ = []) ∨ l.notSoi) → ∀ {d}, Moved P₁ P₂ c d →
      ∃ d', Moved P₁ P₂ c' d' ∧ Builds env inp₂ item d (ss.map f) d' (ss'.map f) (ts.map (Tree.mapSpan f)) := by
  have mapSpans_eq : ∀ ts : List Tree, Tree.mapSpans f ts = ts.map (Tree.mapSpan f) := by
    intro ts
    induction ts with
    | nil => rfl
    | cons t ts ih => rw [Tree.mapSpans, ih]; rfl
  induction h with
  | @leaf l c ss m stk rest v h1 h2 h3 =>
    intro hi d hm
    cases hi with
    | leaf hi =>
      have e := leaf_moved hi hm
      obtain ⟨x, hc, hd⟩ := hm.pre
      have hspans : (leafSpans l ss).map f = leafSpans l (ss.map f) := by
        cases l <;> simp [leafSpans]
      rw [hspans]
      exact ⟨⟨d.pre ++ m, rest, stk⟩, ⟨⟨x ++ m, by simp [hc], by simp [hd]⟩, rfl, rfl⟩,
        .leaf (by rw [e, h1]) (by rw [← hm.suf, h2]) (leafVal_moved hf hm h3)⟩
  | positive _ ih =>
    intro hi d hm
    cases hi with
    | positive hi =>
      obtain ⟨d', hm', h⟩ := ih hi hm
      exact ⟨d, hm, .positive h⟩
  | negative h =>
    intro hi d hm
    cases hi with
    | negative hi => exact ⟨d, hm, .negative (h.moved_none henv hi hm)⟩
  | @push n c ss m rest stk ss' t _ ih =>
    intro hi d hm
    cases hi with
    | push hi =>
      obtain ⟨d', hm', h⟩ := ih hi hm
      obtain ⟨x, hc, hd⟩ := hm.pre
      obtain ⟨x', hc', hd'⟩ := hm'.pre
      obtain ⟨dp, ds, dk⟩ := d'
      simp only at hc' hd'
      rw [hc, List.append_assoc, List.append_cancel_left_eq] at hc'
      subst hc'
      rw [← List.append_assoc, ← hd] at hd'
      subst hd'
      have e1 := hm'.suf
      have e2 := hm'.stk
      simp only at e1 e2
      subst e1 e2
      refine ⟨⟨d.pre ++ m, _, _⟩, ⟨⟨x ++ m, by simp [hc], by simp [hd]⟩, rfl, rfl⟩, ?_⟩
      have hs : f (spanOf inp₁ c.pre (c.pre ++ m)) = spanOf inp₂ d.pre (d.pre ++ m) := by
        rw [hc, hd, List.append_assoc, List.append_assoc, hf]
      rw [List.map_append, List.map_singleton, hs]
      exact .push h
  | optSome _ ih =>
    intro hi d hm
    cases hi with
    | opt hi =>
      obtain ⟨d', hm', h⟩ := ih hi hm
      exact ⟨d', hm', .optSome h⟩
  | optNone h =>
    intro hi d hm
    cases hi with
    | opt hi => exact ⟨d, hm, .optNone (h.moved_none henv hi hm)⟩
  | rep _ ih =>
    intro hi d hm
    cases hi with
    | rep h1 h2 =>
      obtain ⟨d', hm', h⟩ := ih ⟨h1, h2⟩ hm
      refine ⟨d', hm', ?_⟩
      simp only [List.map_singleton, Tree.mapSpan, mapSpans_eq]
      exact .rep h
  | seq _ ih =>
    intro hi d hm
    cases hi with
    | seq h1 h2 =>
      obtain ⟨d', hm', h⟩ := ih ⟨h1, h2⟩ hm
      refine ⟨d', hm', ?_⟩
      simp only [List.map_singleton, Tree.mapSpan, mapSpans_eq]
      exact .seq h
  | choice hpre _ ih =>
    intro hi d hm
    cases hi with
    | choice h1 =>
      obtain ⟨d', hm', h⟩ := ih (h1 _ (by simp)) hm
      exact ⟨d', hm', .choice (fun b hb => (hpre b hb).moved_none henv (h1 b (by simp [hb])) hm) h⟩
  | @rule id c ss c' ss' t _ ih =>
    intro _ d hm
    obtain ⟨d', hm', h⟩ := ih (henv _) hm
    refine ⟨d', hm', ?_⟩
    obtain ⟨x, hc, hd⟩ := hm.pre
    obtain ⟨x', hc', hd'⟩ := hm'.pre
    have hs : f (spanOf inp₁ c.pre c'.pre) = spanOf inp₂ d.pre d'.pre := by
      rw [hc, hd, hc', hd', hf]
    simp only [List.map_singleton, Tree.mapSpan, hs]
    exact .rule h
  | fieldsNil => intro _ d hm; exact ⟨d, hm, .fieldsNil⟩
  | fieldsFirst _ _ ih1 ih2 =>
    intro hi d hm
    obtain ⟨d', hm', h⟩ := ih1 (hi.2 (_, _) List.mem_cons_self) hm
    obtain ⟨d'', hm'', h'⟩ := ih2 ⟨fun a ha => hi.1 a (by simp [ha]), fun a ha => hi.2 a (by simp [ha])⟩ hm'
    exact ⟨d'', hm'', .fieldsFirst h h'⟩
  | fieldsNext _ _ _ ih0 ih1 ih2 =>
    intro hi d hm
    obtain ⟨d₁, hm₁, h0⟩ := ih0 (hi.1 (_, _) List.mem_cons_self) hm
    obtain ⟨d', hm', h⟩ := ih1 (hi.2 (_, _) List.mem_cons_self) hm₁
    obtain ⟨d'', hm'', h'⟩ := ih2 ⟨fun a ha => hi.1 a (by simp [ha]), fun a ha => hi.2 a (by simp [ha])⟩ hm'
    exact ⟨d'', hm'', .fieldsNext h0 h h'⟩
  | unitFirst _ ih =>
    intro hi d hm
    obtain ⟨d', hm', h⟩ := ih hi.1 hm
    exact ⟨d', hm', .unitFirst h⟩
  | unitNext _ _ ih0 ih1 =>
    intro hi d hm
    obtain ⟨d₁, hm₁, h0⟩ := ih0 hi.2 hm
    obtain ⟨d', hm', h⟩ := ih1 hi.1 hm₁
    exact ⟨d', hm', .unitNext h0 h⟩
  | repsMax hle => intro _ d hm; exact ⟨d, hm, .repsMax hle⟩
  | repsMore hlt _ _ ih1 ih2 =>
    intro hi d hm
    obtain ⟨d', hm', h⟩ := ih1 hi hm
    obtain ⟨d'', hm'', h'⟩ := ih2 hi hm'
    exact ⟨d'', hm'', .repsMore hlt h h'⟩
  | repsStop hlt h hmin =>
    intro hi d hm
    exact ⟨d, hm, .repsStop hlt (h.moved_none henv hi hm) hmin⟩

end
end

end Pest3
