import Verif.ForwardTerm

/-!
# Deriving that the recogniser accepts: expressions
-/

namespace Pest3.Gen
open Pest3 Pest3.Load
open Pest3.Meta (MetaRule MetaRange Denotes charText decimal)

/-! ## What follows -/

/-- An operator and a term. -/
def infixTerm : PE := .seq (.ref .infixOperator) (.ref .term)

/-- Neither a path nor what is applied to it goes on here. -/
structure PrimStop (r : Text) : Prop where
  skips : Skips r r
  colons : No colonName r
  args : No (.choice (.ref .call) (.ref .slice)) r

/-- … and no term goes on here … -/
structure TermStop (r : Text) : Prop extends PrimStop r where
  post : No (.ref .postfixOperator) r

/-- … and no expression. -/
structure ChainStop (r : Text) : Prop extends TermStop r where
  inf : No infixTerm r
  bar : No (.ref .choiceOperator) r

theorem stop_close {s : Text} : ChainStop (')' :: s) :=
  ⟨⟨⟨skips_solid rfl, No.head 9 rfl, No.head 9 rfl⟩, No.head 9 rfl⟩, No.head 15 rfl, No.head 9 rfl⟩

theorem stop_comma {s : Text} : ChainStop (',' :: s) :=
  ⟨⟨⟨skips_solid rfl, No.head 9 rfl, No.head 9 rfl⟩, No.head 9 rfl⟩, No.head 15 rfl, No.head 9 rfl⟩

theorem stop_brace {s : Text} : ChainStop ('}' :: s) :=
  ⟨⟨⟨skips_solid rfl, No.head 9 rfl, No.head 9 rfl⟩, No.head 9 rfl⟩, No.head 15 rfl, No.head 9 rfl⟩

theorem stop_bar {s : Text} : TermStop ('|' :: s) :=
  ⟨⟨skips_solid rfl, No.head 9 rfl, No.head 9 rfl⟩, No.head 9 rfl⟩

/-- No postfix operator and no bar where a term begins. -/
theorem term_no {t : Text} (h : Starts TermHead t) : No (alts [.ref .optionalOperator, .ref .repeatOperator, .ref .repeatOnceOperator, .ref .boundedRepeat]) t ∧
    No (lit "|") t ∧ No (.ref .choiceOperator) t := by
  have h1 := h.ne (y := '?') (by decide)
  have h2 := h.ne (y := '*') (by decide)
  have h3 := h.ne (y := '+') (by decide)
  have h4 := h.ne (y := '{') (by decide)
  have h5 := h.ne (y := '|') (by decide)
  have h6 := h.ne (y := '~') (by decide)
  have h7 := h.ne (y := '^') (by decide)
  have hs : solidHead t.head? = true := solid_of_ne ⟨h.ne (by decide), h.ne (by decide), h.ne (by decide), h.ne (by decide), h.ne (by decide)⟩
  refine ⟨No.head 9 ?_, No.head 9 ?_, No.head 9 ?_⟩
  · simp [mayStart, alts, metaGrammar, lit, seqs, h1, h2, h3, h4]
  · simp [mayStart, lit, h5]
  · simp [mayStart, metaGrammar, lit, h5, h6, h7, hs]

/-- The operators of sequences are no postfix operators and no bars. -/
theorem stop_join {tr : Trivia} {o : Char} {h b : Text} (hj : JoinText tr o) (hh : Gap h) (hb : Starts TermHead b) :
    TermStop (o :: (h ++ b)) ∧ No (.ref .choiceOperator) (o :: (h ++ b)) ∧
      At (.ref .infixOperator) (o :: (h ++ b)) b (fun ts => ∃ x, ts = [x] ∧ joins x.rule = some tr) := by
  obtain ⟨n1, n2, _⟩ := term_no hb
  have hsk := gap_skips hh hb.term
  cases hj with
  | none =>
    refine ⟨⟨⟨skips_solid rfl, No.head 9 rfl, No.head 9 rfl⟩, No.head 9 rfl⟩, No.head 9 rfl, At.silent rfl ?_⟩
    exact (At.choice1 (At.tok (k := .sequenceOperator) "-" rfl hsk)).mono (by rintro _ rfl; exact ⟨_, rfl, rfl⟩)
  | optional =>
    have ov : At (.opt (.ref .overridableOperator)) ('~' :: (h ++ b)) b _ :=
      At.opt (At.silent rfl (At.choice1 (At.tok (k := .tildeOperator) "~" rfl hsk)))
    refine ⟨⟨⟨skips_solid rfl, No.head 9 rfl, No.head 9 rfl⟩, No.ref (.inr rfl) (No.seq2 ov n1)⟩, No.ref (.inl rfl) (No.seq2 ov n2), At.silent rfl ?_⟩
    exact (At.choice2 (No.head 9 rfl) (At.choice1 (At.tok (k := .tildeOperator) "~" rfl hsk))).mono (by rintro _ rfl; exact ⟨_, rfl, rfl⟩)
  | mandatory =>
    have ov : At (.opt (.ref .overridableOperator)) ('^' :: (h ++ b)) b _ :=
      At.opt (At.silent rfl (At.choice2 (No.head 9 rfl) (At.tok (k := .caretOperator) "^" rfl hsk)))
    refine ⟨⟨⟨skips_solid rfl, No.head 9 rfl, No.head 9 rfl⟩, No.ref (.inr rfl) (No.seq2 ov n1)⟩, No.ref (.inl rfl) (No.seq2 ov n2), At.silent rfl ?_⟩
    exact (At.choice2 (No.head 9 rfl) (At.choice2 (No.head 9 rfl) (At.choice1 (At.tok (k := .caretOperator) "^" rfl hsk)))).mono
      (by rintro _ rfl; exact ⟨_, rfl, rfl⟩)

/-- A bar. -/
def IsBar (ts : List PTree) : Prop := ∃ x, ts = [x] ∧ x.rule = .choiceOperator

theorem bar_at {s r : Text} (hs : Skips s r) : At (.ref .choiceOperator) ('|' :: s) r IsBar := by
  refine (At.normal rfl (At.seq (At.optNone (No.head 9 rfl) (skips_solid rfl)) (At.lit "|" hs))).mono ?_
  rintro _ ⟨x, us, rfl, _⟩
  exact ⟨_, rfl, rfl⟩

theorem bar_infix {s r : Text} (hs : Skips s r) : At (.ref .infixOperator) ('|' :: s) r IsBar :=
  At.silent rfl (At.choice2 (No.head 9 rfl) (At.choice2 (No.head 9 rfl) (At.choice2 (No.head 9 rfl) (bar_at hs))))

/-! ## What texts begin with -/

def HeadOk : NItem → Text → Prop
  | .expr .primary _, t => Starts NodeHead t
  | .expr .postfixed _, t => Starts NodeHead t
  | .expr .whole _, t => Starts (fun x => x = '|' ∨ TermHead x) t
  | .expr _ _, t => Starts TermHead t
  | .args _, _ => True

theorem note_head {i : NItem} {t : Text} (h : Note i t) : HeadOk i t := by
  induction h with
  | whole _ ih => exact Starts.mono ih fun _ h => .inr h
  | leading => exact ⟨_, _, rfl, .inl rfl⟩
  | alternative _ ih => exact ih
  | choice _ _ _ _ ih _ => exact Starts.append ih _
  | single _ ih => exact ih
  | seq _ _ _ _ _ ih _ => exact Starts.append ih _
  | unprefixed _ ih => exact Starts.node ih
  | pos => exact ⟨_, _, rfl, by decide⟩
  | neg => exact ⟨_, _, rfl, by decide⟩
  | unpostfixed _ ih => exact ih
  | post _ _ _ _ _ ih => exact Starts.append ih _
  | paren => exact ⟨_, _, rfl, by decide⟩
  | str => exact ⟨_, _, rfl, by decide⟩
  | insens => exact ⟨_, _, rfl, by decide⟩
  | raw => exact ⟨_, _, rfl, by decide⟩
  | range => exact ⟨_, _, rfl, by decide⟩
  | path h => exact (path_starts h).mono fun _ h => .inr (.inr (.inr h))
  | call h => exact ((path_starts h).mono fun _ h => .inr (.inr (.inr h))).append _
  | slice h => exact ((path_starts h).mono fun _ h => .inr (.inr (.inr h))).append _
  | noArgs => trivial
  | lastArg => trivial
  | trailing => trivial
  | moreArgs => trivial

/-! ## Terms -/

/-- The text of something that stands alone. -/
def PrimP (t : Text) (e : Expr) : Prop := ∀ s r, WordEnd s → Skips s r → PrimStop r → At (.ref .node) (t ++ s) r (fun ts => Written (.primary ts) (some e))

/-- The text of postfix operators. -/
def PostsP (posts : List Post) (p : Text) : Prop := ∀ s r r' Q, WordEnd s → Skips s r → PrimStop r → Loops (.ref .postfixOperator) r r' Q →
  ∃ r0, WordEnd (p ++ s) ∧ Skips (p ++ s) r0 ∧ PrimStop r0 ∧ Loops (.ref .postfixOperator) r0 r' (App (PostTrees posts) Q)

def PostP (t : Text) (e : Expr) : Prop := ∃ n p e0 posts, t = n ++ p ∧ PrimP n e0 ∧ applyPosts posts e0 = some e ∧ PostsP posts p

def PreP (t : Text) (e : Expr) : Prop := ∃ pres tp t0 e0, t = tp ++ t0 ∧ e = applyPres pres e0 ∧ PostP t0 e0 ∧ Starts NodeHead t0 ∧
  ∀ u, Starts NodeHead u → Skips (tp ++ u) (tp ++ u) ∧ Loops (.ref .prefixOperator) (tp ++ u) u (· = pres.map Pre.tree)

/-- The text of a term. -/
def TermP (t : Text) (e : Expr) : Prop := ∀ s r, WordEnd s → Skips s r → TermStop r →
  At (.ref .term) (t ++ s) r (fun ts => ∃ x, ts = [x] ∧ Written (.term x) (some e))

theorem PostTrees.append {a b : List Post} {us vs : List PTree} (h : PostTrees a us) (k : PostTrees b vs) : PostTrees (a ++ b) (us ++ vs) := by
  induction h with
  | nil => exact k
  | cons h1 h2 _ ih => simpa using PostTrees.cons h1 h2 ih

theorem applyPosts_append {a : List Post} {p : Post} {e e1 e2 : Expr} (h : applyPosts a e = some e1) (k : p.apply e1 = some e2) :
    applyPosts (a ++ [p]) e = some e2 := by
  induction a generalizing e with
  | nil => cases h; simp [applyPosts, k]
  | cons q a ih =>
    simp only [applyPosts, List.cons_append] at h ⊢
    cases hq : q.apply e with
    | none => rw [hq] at h; cases h
    | some e' => rw [hq] at h; exact ih h

theorem PrimP.post {t : Text} {e : Expr} (h : PrimP t e) : PostP t e := by
  refine ⟨t, [], e, [], by simp, h, rfl, fun s r r' Q hw hs hr hl => ⟨r, hw, hs, hr, hl.mono fun ts h => ⟨[], ts, rfl, .nil, h⟩⟩⟩

theorem PostP.post {t g s o : Text} {e e' : Expr} {p : Post} (h : PostP t e) (hg : Gap g) (hs : SepText (Post.sep p) s) (ho : OpText p.op o)
    (ha : p.apply e = some e') : PostP (t ++ (g ++ (s ++ o))) e' := by
  obtain ⟨n, q, e0, posts, rfl, h1, h2, h3⟩ := h
  refine ⟨n, q ++ (g ++ (s ++ o)), e0, posts ++ [p], by simp, h1, applyPosts_append h2 ha, fun s' r r' Q hw hk hr hl => ?_⟩
  have hst := (sep_starts hs ho).append s'
  have h4 := Loops.cons (post_at hs ho hk) hl
  rw [← List.append_assoc] at h4
  have hsk : Skips (s ++ o ++ s') (s ++ o ++ s') := hst.solid (by decide)
  obtain ⟨x, hx, hc⟩ := hst.some
  have hwd : WordEnd (s ++ o ++ s') := by
    intro y hy
    rw [hx] at hy; cases hy
    rcases hc with rfl | rfl | rfl | rfl | rfl | rfl <;> decide
  have hst : PrimStop (s ++ o ++ s') := by
    refine ⟨hsk, No.head 9 ?_, No.head 9 ?_⟩ <;>
      (rw [hx]; rcases hc with rfl | rfl | rfl | rfl | rfl | rfl <;> rfl)
  obtain ⟨r0, k1, k2, k3, k4⟩ := h3 (g ++ (s ++ o ++ s')) _ r' _ (wordEnd_gap hg hwd) (gap_skips hg hsk) hst h4
  refine ⟨r0, by simpa using k1, by simpa using k2, k3, k4.mono ?_⟩
  rintro _ ⟨us, _, rfl, hu, vs, ws, rfl, hv, hw⟩
  exact ⟨us ++ vs, ws, by simp, hu.append hv, hw⟩

theorem PostP.pre {t : Text} {e : Expr} (h : PostP t e) (hh : Starts NodeHead t) : PreP t e := by
  refine ⟨[], [], t, e, rfl, rfl, h, hh, fun u hu => ⟨hu.node.term, ?_⟩⟩
  refine Loops.nil hu.node.term (No.head 9 ?_)
  simp [mayStart, metaGrammar, lit, hu.ne (y := '&') (by decide), hu.ne (y := '!') (by decide)]

theorem PreP.pos {t g : Text} {e : Expr} (h : PreP t e) (hg : Gap g) : PreP ('&' :: (g ++ t)) (.pos e) := by
  obtain ⟨pres, tp, t0, e0, rfl, rfl, h1, h2, h3⟩ := h
  refine ⟨.pos :: pres, '&' :: (g ++ tp), t0, e0, by simp, rfl, h1, h2, fun u hu => ⟨skips_solid rfl, ?_⟩⟩
  obtain ⟨k1, k2⟩ := h3 u hu
  have := (Loops.cons (At.silent (k := .prefixOperator) rfl (At.choice1 (At.tok (k := .positivePredicate) "&" rfl (gap_skips hg k1)))) k2).mono
    (R := (· = (Pre.pos :: pres).map Pre.tree)) (by rintro _ ⟨_, _, rfl, rfl, rfl⟩; rfl)
  simpa using this

theorem PreP.neg {t g : Text} {e : Expr} (h : PreP t e) (hg : Gap g) : PreP ('!' :: (g ++ t)) (.neg e) := by
  obtain ⟨pres, tp, t0, e0, rfl, rfl, h1, h2, h3⟩ := h
  refine ⟨.neg :: pres, '!' :: (g ++ tp), t0, e0, by simp, rfl, h1, h2, fun u hu => ⟨skips_solid rfl, ?_⟩⟩
  obtain ⟨k1, k2⟩ := h3 u hu
  have := (Loops.cons (At.silent (k := .prefixOperator) rfl (At.choice2 (No.head 9 rfl) (At.tok (k := .negativePredicate) "!" rfl (gap_skips hg k1)))) k2).mono
    (R := (· = (Pre.neg :: pres).map Pre.tree)) (by rintro _ ⟨_, _, rfl, rfl, rfl⟩; rfl)
  simpa using this

theorem PreP.term {t : Text} {e : Expr} (h : PreP t e) : TermP t e := by
  obtain ⟨pres, tp, t0, e0, rfl, rfl, ⟨n, p, e1, posts, rfl, h1, h2, h3⟩, h4, h5⟩ := h
  intro s r hw hs hr
  obtain ⟨r0, k1, k2, k3, k4⟩ := h3 s r r _ hw hs hr.toPrimStop (Loops.nil hr.skips hr.post)
  have k5 := h1 (p ++ s) r0 k1 k2 k3
  rw [← List.append_assoc] at k5
  obtain ⟨k6, k7⟩ := h5 _ (h4.append s)
  have := (At.normal (k := .term) rfl (At.seq k7.1 (At.seq k5 k4.1))).mono (R := fun ts => ∃ x, ts = [x] ∧ Written (.term x) (some (applyPres pres e0))) ?_
  · simpa using this
  · rintro _ ⟨x, _, rfl, _, _, rfl, rfl, prim, _, rfl, hp, ps, _, rfl, hps, rfl⟩
    refine ⟨_, rfl, ?_⟩
    have := WrittenBy.term (raw := RawPlain) (x := x) (pres := pres) hp hps
    simpa [h2] using this

/-! ## Sequences and choices -/

/-- The rest of a sequence that begins with a term for `x`. -/
def SeqRest (x e : Expr) (ts : List PTree) : Prop := ∀ t, Written (.term t) (some x) → Written (.sequence (t :: ts)) (some e)

def ChoiceRest (x e : Expr) (ts : List PTree) : Prop := ∀ t, Written (.term t) (some x) → Written (.choices (t :: ts)) (some e)

def SeqP (t : Text) (e : Expr) : Prop := ∃ t1 t2 x, t = t1 ++ t2 ∧ TermP t1 x ∧ ((t2 = [] ∧ x = e) ∨
  ∀ s r r' Q, WordEnd s → Skips s r → TermStop r → Loops infixTerm r r' Q →
    ∃ r0, WordEnd (t2 ++ s) ∧ Skips (t2 ++ s) r0 ∧ TermStop r0 ∧ No (.ref .choiceOperator) r0 ∧ Loops infixTerm r0 r' (App (SeqRest x e) Q))

/-- A chain of terms. -/
def chain : PE := .seq (.ref .term) (.rep infixTerm)

def ChoiceP (t : Text) (e : Expr) : Prop := ∃ t1 t2 x, t = t1 ++ t2 ∧ TermP t1 x ∧ ∀ s r, WordEnd s → Skips s r → ChainStop r →
  ∃ r0, WordEnd (t2 ++ s) ∧ Skips (t2 ++ s) r0 ∧ TermStop r0 ∧ Loops infixTerm r0 r (ChoiceRest x e) ∧
    (No (.ref .choiceOperator) r0 ∨ ∃ r1 y, e = .choice x y ∧ At (.ref .choiceOperator) r0 r1 IsBar ∧
      At chain r1 r (fun ts => Written (.choices ts) (some y)))

/-- The pair of an expression. -/
def ExprTree (e : Expr) (ts : List PTree) : Prop := ∃ x us, ts = [.node .expression x us] ∧ Written (.expr (.node .expression x us)) (some e)

def WholeP (t : Text) (e : Expr) : Prop := ∀ s r, WordEnd s → Skips s r → ChainStop r → At (.ref .expression) (t ++ s) r (ExprTree e)

theorem TermP.seq {t : Text} {e : Expr} (h : TermP t e) : SeqP t e := ⟨t, [], e, by simp, h, .inl ⟨rfl, rfl⟩⟩

theorem SeqP.cont {t2 : Text} {x e : Expr} (h : (t2 = [] ∧ x = e) ∨
    ∀ s r r' Q, WordEnd s → Skips s r → TermStop r → Loops infixTerm r r' Q →
      ∃ r0, WordEnd (t2 ++ s) ∧ Skips (t2 ++ s) r0 ∧ TermStop r0 ∧ No (.ref .choiceOperator) r0 ∧ Loops infixTerm r0 r' (App (SeqRest x e) Q))
    {s r r' : Text} {Q : List PTree → Prop} (hw : WordEnd s) (hs : Skips s r) (hr : TermStop r) (hl : Loops infixTerm r r' Q) :
    ∃ r0, WordEnd (t2 ++ s) ∧ Skips (t2 ++ s) r0 ∧ TermStop r0 ∧ Loops infixTerm r0 r' (App (SeqRest x e) Q) := by
  rcases h with ⟨rfl, rfl⟩ | h
  · exact ⟨r, hw, hs, hr, hl.mono fun ts h => ⟨[], ts, rfl, fun t ht => .single ht, h⟩⟩
  · obtain ⟨r0, k1, k2, k3, _, k4⟩ := h s r r' Q hw hs hr hl
    exact ⟨r0, k1, k2, k3, k4⟩

theorem SeqP.join {a b g h : Text} {x y : Expr} {tr : Trivia} {o : Char} (ha : TermP a x) (hg : Gap g) (hj : JoinText tr o) (hh : Gap h)
    (hb : SeqP b y) (hst : Starts TermHead b) : SeqP (a ++ (g ++ o :: (h ++ b))) (.seq x y tr) := by
  obtain ⟨b1, b2, y1, rfl, h1, h2⟩ := hb
  refine ⟨a, g ++ o :: (h ++ (b1 ++ b2)), x, rfl, ha, .inr fun s r r' Q hw hs hr hl => ?_⟩
  obtain ⟨r0, k1, k2, k3, k4⟩ := SeqP.cont h2 hw hs hr hl
  have k5 := h1 (b2 ++ s) r0 k1 k2 k3
  rw [← List.append_assoc] at k5
  obtain ⟨j1, j2, j3⟩ := stop_join hj hh (hst.append s)
  refine ⟨o :: (h ++ (b1 ++ b2 ++ s)), ?_, ?_, j1, j2, (Loops.cons (At.seq j3 k5) k4).mono ?_⟩
  · have : WordEnd (o :: (h ++ (b1 ++ b2 ++ s))) := wordEnd_cons (by cases hj <;> decide)
    simpa using wordEnd_gap hg this
  · simpa using gap_skips hg j1.skips
  · rintro _ ⟨_, _, rfl, ⟨_, _, rfl, ⟨op, rfl, hop⟩, t, rfl, ht⟩, us, vs, rfl, hu, hv⟩
    refine ⟨op :: t :: us, vs, rfl, fun t' ht' => ?_, hv⟩
    have := WrittenBy.seq ht' hop (hu t ht)
    simpa using this

theorem SeqP.choice {t : Text} {e : Expr} (h : SeqP t e) : ChoiceP t e := by
  obtain ⟨t1, t2, x, rfl, h1, h2⟩ := h
  refine ⟨t1, t2, x, rfl, h1, fun s r hw hs hr => ?_⟩
  have fin : ∀ ts, App (SeqRest x e) (· = []) ts → ChoiceRest x e ts := by
    rintro _ ⟨us, _, rfl, hu, rfl⟩
    intro t ht
    simpa using WrittenBy.alternative (hu t ht)
  have hl := Loops.nil hr.skips hr.inf
  rcases h2 with ⟨rfl, rfl⟩ | h2
  · exact ⟨r, hw, hs, hr.toTermStop, hl.mono (by rintro _ rfl; exact fun t ht => .alternative (.single ht)), .inl hr.bar⟩
  · obtain ⟨r0, k1, k2, k3, k4, k5⟩ := h2 s r r _ hw hs hr.toTermStop hl
    exact ⟨r0, k1, k2, k3, k5.mono fin, .inl k4⟩

theorem ChoiceP.chain {t : Text} {e : Expr} (h : ChoiceP t e) {s r : Text} (hw : WordEnd s) (hs : Skips s r) (hr : ChainStop r) :
    At chain (t ++ s) r (fun ts => Written (.choices ts) (some e)) := by
  obtain ⟨t1, t2, x, rfl, h1, h2⟩ := h
  obtain ⟨r0, k1, k2, k3, k4, _⟩ := h2 s r hw hs hr
  have := (At.seq (h1 _ r0 k1 k2 k3) k4.1).mono (R := fun ts => Written (.choices ts) (some e)) (by
    rintro _ ⟨_, us, rfl, ⟨t, rfl, ht⟩, hu⟩
    exact hu t ht)
  simpa [Gen.chain] using this

theorem ChoiceP.or {a b g h : Text} {x y : Expr} (ha : SeqP a x) (hg : Gap g) (hh : Gap h) (hb : ChoiceP b y) (hst : Starts TermHead b) :
    ChoiceP (a ++ (g ++ '|' :: (h ++ b))) (.choice x y) := by
  obtain ⟨a1, a2, x1, rfl, h1, h2⟩ := ha
  have hb' := hb
  obtain ⟨b1, b2, y1, rfl, h3, h4⟩ := hb
  refine ⟨a1, a2 ++ (g ++ '|' :: (h ++ (b1 ++ b2))), x1, by simp, h1, fun s r hw hs hr => ?_⟩
  obtain ⟨r0, k1, k2, k3, k4, _⟩ := h4 s r hw hs hr
  have k5 := h3 (b2 ++ s) r0 k1 k2 k3
  rw [← List.append_assoc] at k5
  have hsk : Skips (h ++ (b1 ++ b2 ++ s)) (b1 ++ b2 ++ s) := gap_skips hh (hst.append s).term
  have hl := Loops.cons (At.seq (bar_infix hsk) k5) k4
  have hbar : Skips ('|' :: (h ++ (b1 ++ b2 ++ s))) ('|' :: (h ++ (b1 ++ b2 ++ s))) := skips_solid rfl
  have hwd : WordEnd (g ++ '|' :: (h ++ (b1 ++ b2 ++ s))) := wordEnd_gap hg (wordEnd_cons (by decide))
  have fin : ∀ ts us, SeqRest x1 x us → App (App IsBar fun ts => ∃ x, ts = [x] ∧ Written (.term x) (some y1)) (ChoiceRest y1 y) ts →
      ChoiceRest x1 (.choice x y) (us ++ ts) := by
    rintro _ us hu ⟨_, vs, rfl, ⟨_, _, rfl, ⟨bar, rfl, hbar⟩, t, rfl, ht⟩, hv⟩ t' ht'
    have := WrittenBy.choice (hu t' ht') hbar (hv t ht)
    simpa using this
  rcases h2 with ⟨rfl, rfl⟩ | h2
  · refine ⟨_, by simpa using hwd, by simpa using gap_skips hg hbar, stop_bar, hl.mono fun ts ht => ?_, .inr ⟨_, y, rfl, bar_at hsk, ?_⟩⟩
    · exact fin ts [] (fun t ht => .single ht) ht
    · exact hb'.chain hw hs hr
  · obtain ⟨r0, l1, l2, l3, l4, l5⟩ := h2 _ _ _ _ hwd (gap_skips hg hbar) stop_bar hl
    refine ⟨r0, by simpa using l1, by simpa using l2, l3, l5.mono ?_, .inl l4⟩
    rintro _ ⟨us, vs, rfl, hu, hv⟩
    exact fin vs us hu hv

/-- The optional beginning of an expression. -/
def firstAlt : PE := .seq (.opt (.ref .choiceOperator)) (.seq (.ref .term) (.ref .choiceOperator))

theorem expression_rule : metaGrammar .expression = (.normal, .seq (.opt firstAlt) chain) := rfl

theorem ChoiceP.whole {t : Text} {e : Expr} (h : ChoiceP t e) (hst : Starts TermHead t) : WholeP t e := by
  intro s r hw hs hr
  have hch := h.chain hw hs hr
  obtain ⟨t1, t2, x, rfl, h1, h2⟩ := h
  obtain ⟨r0, k1, k2, k3, k4, k5⟩ := h2 s r hw hs hr
  have hsk := (hst.append s).term
  have k6 := h1 _ r0 k1 k2 k3
  rw [← List.append_assoc] at k6
  have hopt := At.optNone (term_no (hst.append s)).2.2 hsk
  rcases k5 with k5 | ⟨r1, y, rfl, k5, k7⟩
  · refine (At.normal expression_rule (At.seq (At.optNone (No.seq2 hopt (No.seq2 k6 k5)) hsk) hch)).mono ?_
    rintro _ ⟨z, _, rfl, _, us, rfl, rfl, hu⟩
    exact ⟨z, us, rfl, .expression hu⟩
  · refine (At.normal expression_rule (At.seq (At.opt (At.seq hopt (At.seq k6 k5))) k7)).mono ?_
    rintro _ ⟨z, _, rfl, _, us, rfl, ⟨_, _, rfl, rfl, _, _, rfl, ⟨t, rfl, ht⟩, bar, rfl, hbar⟩, hu⟩
    refine ⟨z, _, rfl, .expression ?_⟩
    have := WrittenBy.choice (.single ht) hbar hu
    simpa using this

theorem WholeP.leading {a b f g h : Text} {x y : Expr} (hf : Gap f) (ha : TermP a x) (hsa : Starts TermHead a) (hg : Gap g) (hh : Gap h)
    (hb : ChoiceP b y) (hsb : Starts TermHead b) : WholeP ('|' :: (f ++ (a ++ (g ++ '|' :: (h ++ b))))) (.choice x y) := by
  intro s r hw hs hr
  have hch := hb.chain hw hs hr
  have hbar : Skips ('|' :: (h ++ (b ++ s))) ('|' :: (h ++ (b ++ s))) := skips_solid rfl
  have k1 := ha (g ++ '|' :: (h ++ (b ++ s))) _ (wordEnd_gap hg (wordEnd_cons (by decide))) (gap_skips hg hbar) stop_bar
  have k2 := bar_at (gap_skips hh (hsb.append s).term)
  have k3 := bar_at (gap_skips hf (hsa.append (g ++ '|' :: (h ++ (b ++ s)))).term)
  have := (At.normal expression_rule (At.seq (At.opt (At.seq (At.opt k3) (At.seq k1 k2))) hch)).mono (R := ExprTree (.choice x y)) ?_
  · simpa using this
  · rintro _ ⟨z, _, rfl, _, us, rfl, ⟨_, _, rfl, ⟨bar, rfl, hbar⟩, _, _, rfl, ⟨t, rfl, ht⟩, bar', rfl, hbar'⟩, hu⟩
    refine ⟨z, _, rfl, .leading hbar ?_⟩
    have := WrittenBy.choice (.single ht) hbar' hu
    simpa using this

/-! ## What stands alone -/

theorem no_raw {x : Char} {r : Text} (h1 : r.head? ≠ some '"') (h2 : r.head? ≠ some '#') : No (.ref .rawString) (x :: r) := by
  by_cases hx : x = 'r'
  · subst hx
    intro c hc
    obtain ⟨c1, k1, k2, k3⟩ := eats_str (m := .compoundAtomic) (s := ['r']) (r := r) hc
    have hp : MRec .compoundAtomic (.push (.rep (.ref .pound))) c1 (some ({ c1 with stk := c1.stk ++ [[]] }, [])) := by
      have := Rec.push (g := metaGrammar) (m := .compoundAtomic) (Rec.repNone (fails (m := .compoundAtomic) (c := c1) (e := .ref .pound) 3 (by
        rw [k3]; simp [mayStart, metaGrammar, lit, h2])))
      simpa [between] using this
    refine ref_fail rfl (.seqFail2 k1 (.noSkip (by simp [RKind.inside])) (.seqFail2 hp (.noSkip (by simp [RKind.inside])) (.seqFail (fails 3 ?_))))
    show mayStart 3 _ c1.suf.head? = false
    rw [k3]
    simp [mayStart, metaGrammar, lit, h1]
  · refine No.head 9 ?_
    simp [mayStart, metaGrammar, seqs, lit, hx]

theorem no_insens {x : Char} {r : Text} (h1 : r.head? ≠ some '"') : No (.ref .insensitiveString) (x :: r) := by
  by_cases hx : x = 'i'
  · subst hx
    intro c hc
    obtain ⟨c1, k1, k2, k3⟩ := eats_str (m := .compoundAtomic) (s := ['i']) (r := r) hc
    refine ref_fail rfl (.seqFail2 k1 (.noSkip (by simp [RKind.inside])) (fails 9 ?_))
    rw [k3]
    simp [mayStart, metaGrammar, lit, seqs, h1]
  · refine No.head 9 ?_
    simp [mayStart, metaGrammar, lit, hx]

/-- Where an identifier that is not the beginning of a string is, there is a path or nothing. -/
theorem path_node {q : List Name} {t s r : Text} {Q : List PTree → Prop} (ht : PathText q t) (hs : WordEnd s) (h : At (.ref .path) (t ++ s) r Q) :
    At (.ref .node) (t ++ s) r Q := by
  have hst := (path_starts ht).append s
  have p1 := hst.ne (y := '(') (by decide)
  have p2 := hst.ne (y := '"') (by decide)
  refine At.silent rfl (At.choice2 (No.head 9 ?_) (At.silent rfl (At.choice2 (No.head 9 ?_) ?_)))
  · generalize (t ++ s).head? = o at p1
    simp [mayStart, metaGrammar, seqs, lit, p1]
  · generalize (t ++ s).head? = o at p2
    simp [mayStart, metaGrammar, seqs, lit, p2]
  · obtain ⟨x, u, hxu, _, k1, k2⟩ := path_second ht hs
    refine At.choice2 (by rw [hxu]; exact no_raw k1 k2) (At.choice2 (by rw [hxu]; exact no_insens k1) (At.choice1 h))

theorem path_prim {q : List Name} {t : Text} (h : PathText q t) : PrimP t (.path q) := by
  intro s r hw hs hr
  obtain ⟨x, r0, h1, h2⟩ := path_parts h hw.ident hs hr.skips hr.colons
  refine path_node h hw ((At.normal (k := .path) rfl (At.seq h1 (At.seq h2.1 (At.optNone hr.args hr.skips)))).mono ?_)
  rintro _ ⟨x, _, rfl, _, _, rfl, rfl, us, _, rfl, hu, rfl⟩
  have := WrittenBy.path (raw := RawPlain) (x := x) (path_ne h)
  rw [← hu] at this
  simpa using this

/-- A path with something applied to it. -/
theorem path_with {q : List Name} {t g u r : Text} {Q : List PTree → Prop} (h : PathText q t) (hg : Gap g) (hu : Starts (fun x => x = '(' ∨ x = '[') u)
    (ha : At (.choice (.ref .call) (.ref .slice)) u r Q) :
    At (.ref .node) (t ++ (g ++ u)) r (fun ts => ∃ x us, ts = [.node .path x (pathTrees q ++ us)] ∧ Q us) := by
  have hsk : Skips u u := hu.solid (by decide)
  have hw : WordEnd (g ++ u) := wordEnd_gap hg (by
    intro y hy
    obtain ⟨x, hx, hc⟩ := hu.some
    rw [hx] at hy; cases hy
    rcases hc with rfl | rfl <;> decide)
  have hc : No colonName u := by
    refine No.head 9 ?_
    obtain ⟨x, hx, hc⟩ := hu.some
    rw [hx]
    rcases hc with rfl | rfl <;> rfl
  obtain ⟨x, r0, h1, h2⟩ := path_parts h hw.ident (gap_skips hg hsk) hsk hc
  refine path_node h hw ((At.normal (k := .path) rfl (At.seq h1 (At.seq h2.1 (At.opt ha)))).mono ?_)
  rintro _ ⟨x, _, rfl, _, _, rfl, rfl, us, vs, rfl, hu, hv⟩
  exact ⟨x, vs, by rw [← hu]; rfl, hv⟩

/-! ## Arguments -/

inductive AllWritten : List PTree → List Expr → Prop where
  | nil : AllWritten [] []
  | cons {t e ts es} : Written (.expr t) (some e) → AllWritten ts es → AllWritten (t :: ts) (e :: es)

def ArgsRest (es : List Expr) (ts : List PTree) : Prop := ∃ l, ts = l.flatMap (fun a => [tok .comma ",", a]) ∧ AllWritten l es

def commaExpr : PE := .seq (.ref .comma) (.ref .expression)

def IsTrailing (ts : List PTree) : Prop := ts = [] ∨ ts = [tok .comma ","]

def ArgsP (u : Text) (es : List Expr) : Prop := ∀ s, match es with
  | [] => Skips (u ++ ')' :: s) (')' :: s)
  | e :: es => ∃ r0 r1 r2, Skips (u ++ ')' :: s) r0 ∧ At (.ref .expression) r0 r1 (ExprTree e) ∧ Loops commaExpr r1 r2 (ArgsRest es) ∧
      At (.opt (.ref .comma)) r2 (')' :: s) IsTrailing

theorem whole_solid {t : Text} (h : Starts (fun x => x = '|' ∨ TermHead x) t) (s : Text) : Skips (t ++ s) (t ++ s) :=
  (h.append s).solid (by decide)

theorem args_last {g t h : Text} {e : Expr} (hg : Gap g) (ht : WholeP t e) (hst : Starts (fun x => x = '|' ∨ TermHead x) t) (hh : Gap h) :
    ArgsP (g ++ (t ++ h)) [e] := by
  intro s
  have hsk : Skips (')' :: s) (')' :: s) := skips_solid rfl
  refine ⟨t ++ (h ++ ')' :: s), ')' :: s, ')' :: s, by simpa using gap_skips hg (whole_solid hst _), ht _ _ (wordEnd_gap hh (wordEnd_cons (by decide)))
    (gap_skips hh hsk) stop_close, (Loops.nil hsk (No.head 9 rfl)).mono ?_, (At.optNone (No.head 9 rfl) hsk).mono fun _ h => .inl h⟩
  rintro _ rfl
  exact ⟨[], rfl, .nil⟩

theorem args_trailing {g t h k : Text} {e : Expr} (hg : Gap g) (ht : WholeP t e) (hst : Starts (fun x => x = '|' ∨ TermHead x) t) (hh : Gap h) (hk : Gap k) :
    ArgsP (g ++ (t ++ (h ++ ',' :: k))) [e] := by
  intro s
  have hsk : Skips (')' :: s) (')' :: s) := skips_solid rfl
  have hc : Skips (',' :: (k ++ ')' :: s)) (',' :: (k ++ ')' :: s)) := skips_solid rfl
  have hcomma : At (.ref .comma) (',' :: (k ++ ')' :: s)) (')' :: s) (· = [tok .comma ","]) := At.tok "," rfl (gap_skips hk hsk)
  refine ⟨t ++ (h ++ ',' :: (k ++ ')' :: s)), ',' :: (k ++ ')' :: s), ',' :: (k ++ ')' :: s), by simpa using gap_skips hg (whole_solid hst _),
    ht _ _ (wordEnd_gap hh (wordEnd_cons (by decide))) (gap_skips hh hc) stop_comma, (Loops.nil hc (No.seq2 hcomma (No.head 30 rfl))).mono ?_,
    (At.opt hcomma).mono fun _ h => .inr h⟩
  rintro _ rfl
  exact ⟨[], rfl, .nil⟩

theorem args_more {g t h u : Text} {e f : Expr} {es : List Expr} (hg : Gap g) (ht : WholeP t e) (hst : Starts (fun x => x = '|' ∨ TermHead x) t) (hh : Gap h)
    (hu : ArgsP u (f :: es)) : ArgsP (g ++ (t ++ (h ++ ',' :: u))) (e :: f :: es) := by
  intro s
  obtain ⟨r0, r1, r2, h1, h2, h3, h4⟩ := hu s
  have hc : Skips (',' :: (u ++ ')' :: s)) (',' :: (u ++ ')' :: s)) := skips_solid rfl
  refine ⟨t ++ (h ++ ',' :: (u ++ ')' :: s)), ',' :: (u ++ ')' :: s), r2, by simpa using gap_skips hg (whole_solid hst _),
    ht _ _ (wordEnd_gap hh (wordEnd_cons (by decide))) (gap_skips hh hc) stop_comma, (Loops.cons (At.seq (At.tok (k := .comma) "," rfl h1) h2) h3).mono ?_, h4⟩
  rintro _ ⟨_, _, rfl, ⟨_, _, rfl, rfl, x, us, rfl, hx⟩, l, rfl, hl⟩
  exact ⟨_ :: l, rfl, .cons hx hl⟩

theorem commaTrees_flat (a : PTree) (l : List PTree) : ∀ (ts : List PTree), IsTrailing ts →
    ∃ tr, a :: (l.flatMap (fun a => [tok .comma ",", a]) ++ ts) = commaTrees tr (a :: l) := by
  induction l generalizing a with
  | nil =>
    rintro _ (rfl | rfl)
    · exact ⟨false, rfl⟩
    · exact ⟨true, rfl⟩
  | cons b l ih =>
    intro ts hts
    obtain ⟨tr, h⟩ := ih b ts hts
    exact ⟨tr, by simp [commaTrees, ← h]⟩

theorem AllWritten.zip {ts : List PTree} {es : List Expr} (h : AllWritten ts es) :
    ts.length = (es.map some).length ∧ ∀ p ∈ ts.zip (es.map some), Written (.expr p.1) p.2 := by
  induction h with
  | nil => simp
  | cons h _ ih =>
    refine ⟨by simpa using ih.1, fun p hp => ?_⟩
    simp only [List.map_cons, List.zip_cons_cons] at hp
    rcases List.mem_cons.1 hp with rfl | hp
    · exact h
    · exact ih.2 p hp

theorem allOf_some (es : List Expr) : allOf (es.map some) = some es := by
  induction es with
  | nil => rfl
  | cons e es ih => simp [allOf, ih]

theorem call_prim {q : List Name} {t g u : Text} {es : List Expr} (h : PathText q t) (hg : Gap g) (hu : ArgsP u es) :
    PrimP (t ++ (g ++ '(' :: (u ++ [')']))) (.call q es) := by
  intro s r hw hs hr
  have key : At (.ref .call) ('(' :: (u ++ ')' :: s)) r (fun ts => ∃ y args tr, ts = [.node .call y (tok .openingParen "(" :: (commaTrees tr args ++ [tok .closingParen ")"]))] ∧
      AllWritten args es) := by
    have hclose : At (.ref .closingParen) (')' :: s) r (· = [tok .closingParen ")"]) := At.tok ")" rfl hs
    cases es with
    | nil =>
      refine (At.normal rfl (At.seq (At.tok (k := .openingParen) "(" rfl (hu s)) (At.seq (At.optNone (No.seq1 (No.head 30 rfl)) (skips_solid rfl)) hclose))).mono ?_
      rintro _ ⟨y, _, rfl, _, _, rfl, rfl, _, _, rfl, rfl, rfl⟩
      exact ⟨y, [], false, rfl, .nil⟩
    | cons e es =>
      obtain ⟨r0, r1, r2, h1, h2, h3, h4⟩ := hu s
      refine (At.normal rfl (At.seq (At.tok (k := .openingParen) "(" rfl h1) (At.seq (At.opt (At.seq h2 (At.seq h3.1 h4))) hclose))).mono ?_
      rintro _ ⟨y, _, rfl, _, _, rfl, rfl, _, _, rfl, ⟨_, _, rfl, ⟨x, us, rfl, hx⟩, _, _, rfl, ⟨l, rfl, hl⟩, ht⟩, rfl⟩
      obtain ⟨tr, htr⟩ := commaTrees_flat (.node .expression x us) l _ ht
      exact ⟨y, .node .expression x us :: l, tr, by simp [← htr], .cons hx hl⟩
  have := (path_with h hg ⟨_, _, rfl, .inl rfl⟩ (At.choice1 key)).mono (R := fun ts => Written (.primary ts) (some (.call q es))) ?_
  · simpa using this
  · rintro _ ⟨x, _, rfl, y, args, tr, rfl, hargs⟩
    have := WrittenBy.call (raw := RawPlain) (x := x) (y := y) (tr := tr) (path_ne h) hargs.zip.1 hargs.zip.2
    simpa [allOf_some] using this

theorem slice_prim {q : List Name} {t g u v : Text} {a b : Option IntLit} {z : MetaRange Int} (h : PathText q t) (hg : Gap g)
    (hu : Perhaps (a.map IntLit.text) u) (hv : Perhaps (b.map IntLit.text) v) (hz : Gen.sliceSpec a b = some z) :
    PrimP (t ++ (g ++ '[' :: (u ++ '.' :: '.' :: (v ++ [']'])))) (.slice q z) := by
  intro s r hw hs hr
  obtain ⟨r1, k1, k2, k3⟩ := integers (s := ']' :: s) hv (skips_solid rfl) (by intro x hx; cases hx; decide)
  obtain ⟨r0, h1, h2, h3⟩ := integers (s := '.' :: '.' :: (v ++ ']' :: s)) hu (skips_solid rfl) (by intro x hx; cases hx; decide)
  have key : At (.ref .slice) ('[' :: (u ++ '.' :: '.' :: (v ++ ']' :: s))) r (fun ts => ∃ x, ts = [x] ∧ x.Spells (Meta.slicePair (a.map IntLit.text) (b.map IntLit.text))) := by
    refine (At.normal rfl (At.seq (At.tok (k := .openingBrack) "[" rfl h1) (At.seq h3 (At.seq (At.tok (k := .rangeOperator) ".." rfl k1) (At.seq k3
      (At.tok (k := .closingBrack) "]" rfl hs)))))).mono ?_
    rintro _ ⟨y, _, rfl, _, _, rfl, rfl, _, _, rfl, rfl, _, _, rfl, rfl, _, _, rfl, rfl, rfl⟩
    refine ⟨_, rfl, rfl, ?_⟩
    cases a <;> cases b <;> rfl
  have := (path_with h hg ⟨_, _, rfl, .inr rfl⟩ (At.choice2 (No.head 9 rfl) key)).mono (R := fun ts => Written (.primary ts) (some (.slice q z))) ?_
  · simpa using this
  · rintro _ ⟨x, _, rfl, y, rfl, hy⟩
    have := WrittenBy.slice (raw := RawPlain) (x := x) (path_ne h) hy
    rw [hz] at this
    exact this

theorem paren_prim {g t h : Text} {e : Expr} (hg : Gap g) (ht : WholeP t e) (hst : Starts (fun x => x = '|' ∨ TermHead x) t) (hh : Gap h) :
    PrimP ('(' :: (g ++ (t ++ (h ++ [')'])))) e := by
  intro s r hw hs hr
  have hsk : Skips (')' :: s) (')' :: s) := skips_solid rfl
  have h1 := ht (h ++ ')' :: s) _ (wordEnd_gap hh (wordEnd_cons (by decide))) (gap_skips hh hsk) stop_close
  have := (At.silent (k := .node) rfl (At.choice1 (At.seq (At.tok (k := .openingParen) "(" rfl (gap_skips hg (whole_solid hst _)))
    (At.seq h1 (At.tok (k := .closingParen) ")" rfl hs))))).mono (R := fun ts => Written (.primary ts) (some e)) ?_
  · simpa using this
  · rintro _ ⟨_, _, rfl, rfl, _, _, rfl, ⟨x, us, rfl, hx⟩, rfl⟩
    exact .paren hx

theorem str_prim {x v : Text} (hx : Denotes x (some v)) : PrimP ('"' :: (x ++ ['"'])) (.str v) := by
  intro s r hw hs hr
  have := (At.silent (k := .node) rfl (At.choice2 (No.head 9 rfl) (At.silent rfl (At.choice1 (At.string hx hs))))).mono
    (R := fun ts => Written (.primary ts) (some (.str v))) ?_
  · simpa using this
  · rintro _ ⟨y, rfl, hy⟩
    exact WrittenBy.str hy hx

theorem insens_prim {x v : Text} (hx : Denotes x (some v)) : PrimP ('i' :: '"' :: (x ++ ['"'])) (.insens v) := by
  intro s r hw hs hr
  have := (At.silent (k := .node) rfl (At.choice2 (No.head 9 rfl) (At.silent rfl (At.choice2 (No.head 9 rfl) (At.choice2 (No.head 9 rfl)
    (At.choice1 (At.insensitive hx hs))))))).mono (R := fun ts => Written (.primary ts) (some (.insens v))) ?_
  · simpa using this
  · rintro _ ⟨y, rfl, hy⟩
    exact WrittenBy.insens hy hx

theorem raw_prim {x : Text} (hx : '"' ∉ x) : PrimP ('r' :: '"' :: (x ++ ['"'])) (.str x) := by
  intro s r hw hs hr
  have := (At.silent (k := .node) rfl (At.choice2 (No.head 9 rfl) (At.silent rfl (At.choice2 (No.head 9 rfl) (At.choice1 (At.raw hx hs)))))).mono
    (R := fun ts => Written (.primary ts) (some (.str x))) ?_
  · simpa using this
  · rintro _ ⟨y, rfl, hy⟩
    exact WrittenBy.raw hy ⟨rfl, rfl⟩

theorem range_prim {a b g h : Text} {x y : Char} (ha : CharLit a (some x)) (hg : Gap g) (hh : Gap h) (hb : CharLit b (some y)) :
    PrimP (charText a ++ (g ++ '.' :: '.' :: (h ++ charText b))) (.range x y) := by
  intro s r hw hs hr
  have hd : Skips ('.' :: '.' :: (h ++ (charText b ++ s))) ('.' :: '.' :: (h ++ (charText b ++ s))) := skips_solid rfl
  have hq : Skips (charText b ++ s) (charText b ++ s) := skips_solid rfl
  have h1 := At.character ha (gap_skips hg hd)
  have := (At.silent (k := .node) rfl (At.choice2 (No.head 9 rfl) (At.silent rfl (At.choice2 (No.head 9 rfl) (At.choice2 (No.head 9 rfl)
    (At.choice2 (No.head 9 rfl) (At.choice2 (No.head 9 rfl) (At.normal (k := .range) rfl (At.seq h1 (At.seq
      (At.tok (k := .rangeOperator) ".." rfl (gap_skips hh hq)) (At.character hb hs))))))))))).mono (R := fun ts => Written (.primary ts) (some (.range x y))) ?_
  · simpa using this
  · rintro _ ⟨z, _, rfl, _, _, rfl, ⟨us, rfl⟩, _, _, rfl, rfl, vs, rfl⟩
    exact WrittenBy.range (a := a) (b := b) ⟨rfl, rfl⟩ ha hb

/-! ## All together -/

def NoteP : NItem → Text → Prop
  | .expr .whole e, t => WholeP t e
  | .expr .choice e, t => ChoiceP t e
  | .expr .sequence e, t => SeqP t e
  | .expr .prefixed e, t => PreP t e
  | .expr .postfixed e, t => PostP t e
  | .expr .primary e, t => PrimP t e
  | .args es, t => ArgsP t es

/-- What is written according to `Note` is accepted, and its pairs mean what was written. -/
theorem note_at {i : NItem} {t : Text} (h : Note i t) : NoteP i t := by
  induction h with
  | whole h ih => exact ChoiceP.whole ih (note_head h)
  | leading hf ha hg hh hb iha ihb => exact WholeP.leading hf (PreP.term iha) (note_head ha) hg hh ihb (note_head hb)
  | alternative _ ih => exact SeqP.choice ih
  | choice ha hg hh hb iha ihb => exact ChoiceP.or iha hg hh ihb (note_head hb)
  | single _ ih => exact TermP.seq (PreP.term ih)
  | seq ha hg hj hh hb iha ihb => exact SeqP.join (PreP.term iha) hg hj hh ihb (note_head hb)
  | unprefixed h ih => exact PostP.pre ih (note_head h)
  | pos hg _ ih => exact PreP.pos ih hg
  | neg hg _ ih => exact PreP.neg ih hg
  | unpostfixed _ ih => exact PrimP.post ih
  | post _ hg hs ho ha ih => exact PostP.post ih hg hs ho ha
  | paren hg h hh ih => exact paren_prim hg ih (note_head h) hh
  | str h => exact str_prim h
  | insens h => exact insens_prim h
  | raw h => exact raw_prim h
  | range ha hg hh hb => exact range_prim ha hg hh hb
  | path h => exact path_prim h
  | call h hg _ ih => exact call_prim h hg ih
  | slice h hg hu hv hz => exact slice_prim h hg hu hv hz
  | noArgs hg => exact fun s => gap_skips hg (skips_solid rfl)
  | lastArg hg h hh ih => exact args_last hg ih (note_head h) hh
  | trailing hg h hh hk ih => exact args_trailing hg ih (note_head h) hh hk
  | moreArgs hg h hh _ ih ih' => exact args_more hg ih (note_head h) hh ih'

end Pest3.Gen
