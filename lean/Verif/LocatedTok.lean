import Verif.LocatedRel
import Verif.MetaExprLemmas
import Verif.SnippetLemmas

/-!
# Places of operators and literals
-/

namespace Pest3.Gen
open Pest3 Pest3.Load
open Pest3.Meta (MetaRule MetaRange decimal charText)

section
variable {inp : Text} {c c' : Cfg} {ls : List LTree}

theorem tokS {r : MetaRule} (s : String) (hr : metaGrammar r = (.normal, lit s)) (hne : s.toList ≠ []) (h : LRec .nonAtomic (.ref r) c c' ls) (hc : On inp c) :
    Stands inp (pos c) s.toList (pos c') ∧ c.suf ≠ [] ∧ ls = [.node r s.toList ⟨pos c, pos c'⟩ []] := by
  obtain ⟨e, h⟩ := linv_tok hr h
  exact ⟨e.stands hc, takes_ne e hne, h⟩

theorem bar_atL (hs : Skipped c) (hc : On inp c) (h : LRec .nonAtomic (.ref .choiceOperator) c c' ls) :
    ∃ o, ls = [o] ∧ o.rule = .choiceOperator ∧ BarAt inp (pos c) (pos c') ∧ c.suf ≠ [] := by
  obtain ⟨us, h0, rfl⟩ := linv_pair rfl rfl h
  obtain ⟨c1, c2, _, _, h1, o1, h2, -⟩ := linv_seqO h0
  have e2 : Takes c2 ['|'] c' := (inv_str h2.bare).1.takes
  have hne2 : c2.suf ≠ [] := takes_ne e2 (by simp)
  refine ⟨_, rfl, rfl, ?_⟩
  rcases linv_opt h1 with h1 | ⟨rfl, -⟩
  · have hc1 := h1.on hc
    have hb := o1.blanks hc1 hne2
    rcases linv_choice (linv_silent rfl h1) with h1 | h1
    · obtain ⟨s1, n1, -⟩ := tokS "~" rfl (by decide) h1 hc
      exact ⟨.trivia (.inl rfl) s1 hb (e2.stands (o1.on hc1)), n1⟩
    · obtain ⟨s1, n1, -⟩ := tokS "^" rfl (by decide) h1 hc
      exact ⟨.trivia (.inr rfl) s1 hb (e2.stands (o1.on hc1)), n1⟩
  · cases o1.stays hs
    exact ⟨.bar (e2.stands hc), hne2⟩

/-! ## Bounds -/

/-- The pairs of a number that may be missing. -/
def NumTrees {α : Type} (r : MetaRule) (text : α → Text) : Option (α × Loc) → List LTree → Prop
  | none, us => us = []
  | some x, us => ∃ w, us = [.node r (text x.1) x.2 w]

theorem maybe_at {α : Type} {r : MetaRule} {text : α → Text} {c1 c2 : Cfg}
    (tok : ∀ {c c' ls}, LRec .nonAtomic (.ref r) c c' ls → ∃ n us, Takes c (text n) c' ∧ ls = [.node r (text n) ⟨pos c, pos c'⟩ us])
    (hne : ∀ n, text n ≠ []) (hc : On inp c) (o1 : Over c c1) (h : LRec .nonAtomic (.opt (.ref r)) c1 c2 ls) (o2 : Over c2 c') (hs : c'.suf ≠ []) :
    ∃ a, NumTrees r text a ls ∧ MaybeAt inp text a (pos c) (pos c') := by
  have hc1 := o1.on hc
  rcases linv_opt h with h | ⟨rfl, rfl⟩
  · obtain ⟨n, us, e, rfl⟩ := tok h
    exact ⟨some (n, ⟨pos c1, pos c2⟩), ⟨us, rfl⟩, .some (o1.blanks hc (takes_ne e (hne n))) (e.stands hc1) (o2.blanks (h.on hc1) hs)⟩
  · exact ⟨none, rfl, .none ((((Rests.here hc).over hc o1).over hc1 o2).blanks hs)⟩

theorem range_located {α β : Type} {r : MetaRule} (hr : r = .number ∨ r = .integer) {text : α → Text} {fromStr : Text → Option β} {f : α × Loc → Except LErr β}
    (hf : ∀ x l w, pairTo fromStr (.node r (text x) l w) = .ok (f (x, l))) {a b : Option (α × Loc)} {us vs : List LTree} {o d z : LTree}
    (hd : d.rule = .rangeOperator) (hz : z.rule ≠ .number ∧ z.rule ≠ .integer) (hz' : z.rule ≠ .rangeOperator)
    (ha : NumTrees r text a us) (hb : NumTrees r text b vs) :
    rangeL fromStr (o :: (us ++ d :: (vs ++ [z]))) = .ok (both MetaRange.mk (maybe f a) (maybe f b)) := by
  have hr' : r ≠ .rangeOperator := by rcases hr with rfl | rfl <;> simp
  have h1 : ∀ x l w, (LTree.node r (text x) l w).rule = r := fun _ _ _ => rfl
  have hnd : ¬ (d.rule = .number ∨ d.rule = .integer) := by rw [hd]; simp
  have hnz : ¬ (z.rule = .number ∨ z.rule = .integer) := fun h => h.elim hz.1 hz.2
  cases a with
  | none =>
    cases ha
    cases b with
    | none =>
      cases hb
      simp [rangeL, numbersL, hd, hnz, tryL, andThen, hz', both, maybe]
    | some y =>
      obtain ⟨y, ly⟩ := y
      obtain ⟨w, rfl⟩ := hb
      simp only [rangeL, numbersL, hnd, hnz, if_false, h1, if_pos hr, hf, List.nil_append, List.singleton_append, List.map_cons, List.map_nil, hd, if_neg hr', maybe]
      cases f (y, ly) <;> simp [tryL, andThen, both]
  | some x =>
    obtain ⟨x, lx⟩ := x
    obtain ⟨v, rfl⟩ := ha
    cases b with
    | none =>
      cases hb
      simp only [rangeL, numbersL, hnd, hnz, if_false, h1, if_pos hr, hf, List.nil_append, List.singleton_append, List.map_cons, List.map_nil, hd, maybe]
      cases f (x, lx) <;> simp [tryL, andThen, both]
    | some y =>
      obtain ⟨y, ly⟩ := y
      obtain ⟨w, rfl⟩ := hb
      simp only [rangeL, numbersL, hnd, hnz, if_false, h1, if_pos hr, hf, List.nil_append, List.singleton_append, List.cons_append, List.map_cons, List.map_nil, hd, maybe]
      cases f (x, lx) <;> cases f (y, ly) <;> simp [tryL, andThen, both]

theorem natAt_read (x : Nat) (l : Loc) (w : List LTree) : pairTo Meta.usizeFromStr (.node .number (decimal x) l w) = .ok (natAt (x, l)) := by
  unfold pairTo natAt
  simp only [LTree.text, Meta.usizeFromStr_decimal]
  by_cases h : x < 2 ^ 64
  · simp only [if_pos h]
  · simp only [if_neg h]; rfl

theorem intAt_read (x : IntLit) (l : Loc) (w : List LTree) : pairTo Meta.isizeFromStr (.node .integer x.text l w) = .ok (intAt (x, l)) := by
  unfold pairTo intAt
  simp only [LTree.text, IntLit.read]
  by_cases h : -2 ^ 63 ≤ x.value ∧ x.value < 2 ^ 63
  · simp only [if_pos h]
  · simp only [if_neg h]; rfl

/-- The checks after the bounds are read. -/
def checked (l : Loc) : Except LErr (MetaRange Nat) → Except LErr (MetaRange Nat)
  | .ok r => checkBounds l r
  | .error e => .error e

/-- `boundedL` with other messages. -/
def boundedW (m0 : Text) (m1 : Nat → Nat → Text) (p : LTree) : LRes (MetaRange Nat) :=
  tryL (rangeL Meta.usizeFromStr p.inner) fun range =>
    let fail (message : Text) : LRes (MetaRange Nat) := andThen (innerSpan p) fun l => .ok (.error ⟨message, l⟩)
    match range.start, range.stop with
    | some a, some b => if a > b then fail (m1 a b) else if b = 0 then fail m0 else .ok (.ok range)
    | _, some b => if b = 0 then fail m0 else .ok (.ok range)
    | _, none => .ok (.ok range)

/-- `checkBounds` with other messages. -/
def checkW (m0 : Text) (m1 : Nat → Nat → Text) (l : Loc) (r : MetaRange Nat) : Except LErr (MetaRange Nat) :=
  match r.start, r.stop with
  | some a, some b => if b < a then .error ⟨m1 a b, l⟩ else if b = 0 then .error ⟨m0, l⟩ else .ok r
  | none, some b => if b = 0 then .error ⟨m0, l⟩ else .ok r
  | _, none => .ok r

theorem boundedW_check {m0 : Text} {m1 : Nat → Nat → Text} {p : LTree} {l : Loc} {r : MetaRange Nat}
    (hr : rangeL Meta.usizeFromStr p.inner = .ok (.ok r)) (hl : innerSpan p = .ok l) : boundedW m0 m1 p = .ok (checkW m0 m1 l r) := by
  unfold boundedW
  rw [hr]
  obtain ⟨a, b⟩ := r
  cases b with
  | none => cases a <;> rfl
  | some b =>
    cases a with
    | none => by_cases h : b = 0 <;> simp [tryL, andThen, hl, checkW, h]
    | some a =>
      by_cases h : b < a
      · simp [tryL, andThen, hl, checkW, h]
      · by_cases h' : b = 0
        · subst h'
          have : a = 0 := by omega
          subst this
          simp [tryL, andThen, hl, checkW]
        · simp [tryL, andThen, hl, checkW, h, h']

theorem bounded_check {p : LTree} {l : Loc} {r : Except LErr (MetaRange Nat)} (hr : rangeL Meta.usizeFromStr p.inner = .ok r) (hl : innerSpan p = .ok l) :
    boundedL p = .ok (checked l r) := by
  cases r with
  | error e =>
    unfold boundedL
    rw [hr]
    rfl
  | ok r =>
    have hv : Load.void = fun a b => "repetition range void (".toList ++ (showNat a ++ (" > ".toList ++ (showNat b ++ ")".toList))) := by
      funext a b
      rw [show showNat a = decimal a from showNat_eq a, show showNat b = decimal b from showNat_eq b]
      unfold Load.void
      generalize "repetition range void (".toList = x
      generalize " > ".toList = y
      generalize ")".toList = z
      rfl
    have h1 : boundedL p = boundedW zeroTimes Load.void p := by
      rw [hv]
      unfold boundedL boundedW zeroTimes
      rfl
    have h2 : checked l (.ok r) = checkW zeroTimes Load.void l r := by
      unfold checked checkBounds checkW
      rfl
    rw [h1, h2]
    exact boundedW_check hr hl

theorem innerSpan_eq {a b : Option (Nat × Loc)} {us vs inner : List LTree} {o d z : LTree} {r : MetaRule} {x : Text} {l : Loc}
    (ha : NumTrees .number decimal a us) (hb : NumTrees .number decimal b vs) (hi : inner = o :: (us ++ d :: (vs ++ [z]))) :
    innerSpan (.node r x l inner) = .ok ⟨(a.map fun x => x.2.start).getD d.loc.start, (b.map fun x => x.2.stop).getD d.loc.stop⟩ := by
  subst hi
  cases a with
  | none =>
    cases ha
    cases b with
    | none => cases hb; rfl
    | some y => obtain ⟨w, rfl⟩ := hb; rfl
  | some x =>
    obtain ⟨v, rfl⟩ := ha
    cases b with
    | none => cases hb; rfl
    | some y => obtain ⟨w, rfl⟩ := hb; rfl

/-! ## Repetitions -/

/-- What a pair for a way to repeat does to an expression. -/
def Does (p : LTree) (stop : Nat) (o : Except LErr Repeat) : Prop :=
  ∀ e : SExpr, postfixL p e = .ok (both (repeated stop) (.ok e) o)

theorem decimal_ne (n : Nat) : decimal n ≠ [] := Nat.toDigits_ne_nil

theorem int_ne (n : IntLit) : n.text ≠ [] := by
  cases n
  · exact decimal_ne _
  · simp [IntLit.text]
  · simp [IntLit.text]

theorem does_bounded {x : Text} {l : Loc} {us : List LTree} {r : Except LErr (MetaRange Nat)}
    (h : boundedL (.node .boundedRepeat x l us) = .ok r) : Does (.node .boundedRepeat x l us) l.stop (r.map .range) := by
  intro e
  show tryL (boundedL (.node .boundedRepeat x l us)) _ = _
  rw [h]
  cases r <;> rfl

theorem repeat_bounded (hc : On inp c) (h : LRec .nonAtomic (.ref .boundedRepeat) c c' ls) :
    ∃ p o, ls = [p] ∧ p.rule = .boundedRepeat ∧ Does p (pos c') o ∧ RepeatAt inp (pos c) (pos c') o ∧ c.suf ≠ [] := by
  obtain ⟨us, h0, rfl⟩ := linv_pair rfl rfl h
  obtain ⟨c1, c2, _, _, h1, o1, g1, hu1⟩ := linv_seqO h0
  obtain ⟨c3, c4, _, _, h2, o2, h3, hu2⟩ := linv_seqO g1
  have hc1 := h1.on hc
  have hc2 := o1.on hc1
  have hc3 := h2.on hc2
  have hc4 := o2.on hc3
  obtain ⟨s1, n1, rfl⟩ := tokS "{" rfl (by decide) h1 hc
  obtain ⟨s3, n3, rfl⟩ := tokS "}" rfl (by decide) h3 hc4
  rcases linv_choice h2 with h2 | h2
  · obtain ⟨d1, d2, us1, _, k1, p1, l1, hv1⟩ := linv_seqO h2
    obtain ⟨d3, d4, _, us2, k2, p2, k3, hv2⟩ := linv_seqO l1
    have hd1 := k1.on hc2
    have hd2 := p1.on hd1
    have hd3 := k2.on hd2
    obtain ⟨s2, n2, rfl⟩ := tokS ".." rfl (by decide) k2 hd2
    obtain ⟨a, ha, ma⟩ := maybe_at linv_number decimal_ne hc1 o1 k1 p1 n2
    obtain ⟨b, hb, mb⟩ := maybe_at linv_number decimal_ne hd3 p2 k3 o2 n3
    have hin : us = LTree.node .openingBrace "{".toList ⟨pos c, pos c1⟩ [] :: (us1 ++ LTree.node .rangeOperator "..".toList ⟨pos d2, pos d3⟩ [] ::
        (us2 ++ [LTree.node .closingBrace "}".toList ⟨pos c4, pos c'⟩ []])) := by rw [hu1, hu2, hv1, hv2]; simp
    have hr := range_located (Or.inl rfl) natAt_read (o := LTree.node .openingBrace "{".toList ⟨pos c, pos c1⟩ [])
      (d := LTree.node .rangeOperator "..".toList ⟨pos d2, pos d3⟩ []) (z := LTree.node .closingBrace "}".toList ⟨pos c4, pos c'⟩ [])
      rfl (by simp [LTree.rule]) (by simp [LTree.rule]) ha hb
    rw [← hin] at hr
    have hb' := bounded_check (p := .node .boundedRepeat (between c c') ⟨pos c, pos c'⟩ us) hr (innerSpan_eq ha hb hin)
    exact ⟨_, _, rfl, rfl, does_bounded hb', .bounds s1 ma s2 mb s3, n1⟩
  · obtain ⟨n, w, e, rfl⟩ := linv_number h2
    have hin : us = LTree.node .openingBrace "{".toList ⟨pos c, pos c1⟩ [] :: LTree.node .number (decimal n) ⟨pos c2, pos c3⟩ w ::
        [LTree.node .closingBrace "}".toList ⟨pos c4, pos c'⟩ []] := by rw [hu1, hu2]; rfl
    have hr : rangeL Meta.usizeFromStr us = .ok (both MetaRange.mk (maybe natAt (some (n, ⟨pos c2, pos c3⟩))) (maybe natAt (some (n, ⟨pos c2, pos c3⟩)))) := by
      rw [hin]
      simp only [rangeL, numbersL, LTree.rule, List.map_cons, List.map_nil, natAt_read]
      simp only [maybe]
      cases natAt (n, ⟨pos c2, pos c3⟩) <;> simp [tryL, andThen, both]
    have hl : innerSpan (.node .boundedRepeat (between c c') ⟨pos c, pos c'⟩ us) = .ok ⟨pos c2, pos c3⟩ := by rw [hin]; rfl
    have hb' := bounded_check (p := .node .boundedRepeat (between c c') ⟨pos c, pos c'⟩ us) hr hl
    exact ⟨_, _, rfl, rfl, does_bounded hb', .exact s1 (o1.blanks hc1 (takes_ne e (decimal_ne n))) (e.stands hc2) (o2.blanks hc3 n3) s3, n1⟩

/-- The rules of postfix operators. -/
def IsPost (r : MetaRule) : Prop := r = .optionalOperator ∨ r = .tildeOperator ∨ r = .caretOperator ∨ r = .repeatOperator ∨ r = .repeatOnceOperator ∨ r = .boundedRepeat

theorem repeat_at (hc : On inp c)
    (h : LRec .nonAtomic (alts [.ref .optionalOperator, .ref .repeatOperator, .ref .repeatOnceOperator, .ref .boundedRepeat]) c c' ls) :
    ∃ p o, ls = [p] ∧ IsPost p.rule ∧ Does p (pos c') o ∧ RepeatAt inp (pos c) (pos c') o ∧ c.suf ≠ [] := by
  rcases linv_choice h with h | h
  · obtain ⟨s, n, rfl⟩ := tokS "?" rfl (by decide) h hc
    exact ⟨_, _, rfl, .inl rfl, fun e => rfl, .opt s, n⟩
  rcases linv_choice h with h | h
  · obtain ⟨s, n, rfl⟩ := tokS "*" rfl (by decide) h hc
    exact ⟨_, _, rfl, .inr (.inr (.inr (.inl rfl))), fun e => rfl, .star s, n⟩
  rcases linv_choice h with h | h
  · obtain ⟨s, n, rfl⟩ := tokS "+" rfl (by decide) h hc
    exact ⟨_, _, rfl, .inr (.inr (.inr (.inr (.inl rfl)))), fun e => rfl, .plus s, n⟩
  · obtain ⟨p, o, h1, h2, h3, h4, h5⟩ := repeat_bounded hc h
    exact ⟨p, o, h1, .inr (.inr (.inr (.inr (.inr h2)))), h3, h4, h5⟩

end

end Pest3.Gen
