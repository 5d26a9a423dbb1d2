import Verif.Located

/-!
# Without positions, the functions of `Located` are those of `MetaExpr` and `MetaFile`
-/

namespace Pest3.Gen
open Pest3
open Pest3.Meta (MetaRange MetaRule MetaPair)

/-! ## The recogniser -/

/-- Without positions. -/
def bare : Option (Cfg × List LTree) → Option (Cfg × List PTree) := Option.map fun x => (x.1, LTree.eraseAll x.2)

/-- Without positions. -/
def bareRes (r : Res (Option (Cfg × List LTree))) : Res (Option (Cfg × List PTree)) := andThen r fun x => .ok (bare x)

theorem eraseAll_append (l k : List LTree) : LTree.eraseAll (l ++ k) = LTree.eraseAll l ++ LTree.eraseAll k := by
  induction l with
  | nil => rfl
  | cons t l ih => simp only [List.cons_append, LTree.eraseAll, ih]

theorem eraseAll_map (l : List LTree) : LTree.eraseAll l = l.map LTree.erase := by
  induction l with
  | nil => rfl
  | cons t l ih => simp only [LTree.eraseAll, ih, List.map_cons]

theorem wrap_erase (k : RKind) (m : Mode) (r : MetaRule) (c c' : Cfg) (ts : List LTree) :
    LTree.eraseAll (wrapL k m r c c' ts) = wrap k m r c c' (LTree.eraseAll ts) := by
  unfold wrapL wrap
  split
  · rfl
  · rfl

theorem bare_try {r : Res (Option (Cfg × List LTree))} {k : Cfg × List LTree → Res (Option (Cfg × List LTree))}
    {k' : Cfg × List PTree → Res (Option (Cfg × List PTree))} (h : ∀ x, bareRes (k x) = k' (x.1, LTree.eraseAll x.2)) :
    bareRes (tryThen r k) = tryThen (bareRes r) k' := by
  match r with
  | .panic => rfl
  | .oof => rfl
  | .ok none => rfl
  | .ok (some x) => exact h x

theorem bare_or {r : Res (Option (Cfg × List LTree))} {k : Option (Cfg × List LTree) → Res (Option (Cfg × List LTree))}
    {k' : Option (Cfg × List PTree) → Res (Option (Cfg × List PTree))} (h : ∀ x, bareRes (k x) = k' (bare x)) :
    bareRes (andThen r k) = andThen (bareRes r) k' := by
  match r with
  | .panic => rfl
  | .oof => rfl
  | .ok x => exact h x

theorem bare_none {o : Option Cfg} : bareRes (.ok (o.map (·, []))) = .ok (o.map (·, [])) := by cases o <;> rfl

/-- The recogniser without positions. -/
theorem recog_erase (g : Gram) (fuel : Nat) : ∀ m e c, recog g fuel m e c = bareRes (recogL g fuel m e c) := by
  induction fuel with
  | zero => intro m e c; rfl
  | succ n ih =>
    intro m e c
    cases e with
    | str s => exact bare_none.symm
    | range a b => exact bare_none.symm
    | any => exact bare_none.symm
    | soi =>
      by_cases h : c.pre = []
      · simp only [recog, recogL, h, if_true]; rfl
      · simp only [recog, recogL, h, if_false]; rfl
    | eoi =>
      by_cases h : c.suf = []
      · simp only [recog, recogL, h, if_true]; rfl
      · simp only [recog, recogL, h, if_false]; rfl
    | ref r =>
      simp only [recog, recogL, ih]
      exact (bare_try fun x => by simp only [bareRes, andThen, bare, Option.map, wrap_erase]).symm
    | seq e f =>
      simp only [recog, recogL, ih]
      refine (bare_try fun x => bare_try fun y => bare_try fun z => ?_).symm
      simp only [bareRes, andThen, bare, Option.map, eraseAll_append]
    | choice e f =>
      simp only [recog, recogL, ih]
      refine (bare_or fun x => ?_).symm
      cases x <;> rfl
    | opt e =>
      simp only [recog, recogL, ih]
      refine (bare_or fun x => ?_).symm
      cases x <;> rfl
    | rep e =>
      simp only [recog, recogL, ih]
      refine (bare_or fun x => ?_).symm
      cases x with
      | none => rfl
      | some x => exact bare_try fun y => by simp only [bareRes, andThen, bare, Option.map, eraseAll_append]
    | more e =>
      simp only [recog, recogL, ih]
      refine (bare_try fun s => bare_or fun x => ?_).symm
      cases x with
      | none => rfl
      | some x => exact bare_try fun y => by simp only [bareRes, andThen, bare, Option.map, eraseAll_append]
    | pos e =>
      simp only [recog, recogL, ih]
      exact (bare_try fun x => rfl).symm
    | neg e =>
      simp only [recog, recogL, ih]
      refine (bare_or fun x => ?_).symm
      cases x <;> rfl
    | push e =>
      simp only [recog, recogL, ih]
      exact (bare_try fun x => rfl).symm
    | peek =>
      unfold recog recogL
      simp only
      cases c.stk.getLast? with
      | none => rfl
      | some s => exact bare_none.symm
    | pop =>
      unfold recog recogL
      simp only
      cases c.stk.getLast? with
      | none => rfl
      | some s =>
        simp only
        cases eat s c <;> rfl
    | skip =>
      cases m with
      | nonAtomic =>
        simp only [recog, recogL, ih]
        exact (bare_try fun x => rfl).symm
      | compoundAtomic => rfl
      | atomic => rfl

/-! ## Results -/

/-- Without positions. -/
def er {α β : Type} (f : α → β) : LRes α → Res (Option β)
  | .ok (.ok a) => .ok (some (f a))
  | .ok (.error _) => .ok none
  | .panic => .panic
  | .oof => .oof

theorem er_try {α β γ δ : Type} {f : α → β} {g : γ → δ} {r : LRes α} {k : α → LRes γ} {k' : β → Res (Option δ)}
    (h : ∀ a, er g (k a) = k' (f a)) : er g (tryL r k) = tryThen (er f r) k' := by
  match r with
  | .ok (.ok a) => exact h a
  | .ok (.error _) => rfl
  | .panic => rfl
  | .oof => rfl

theorem er_meta {α β : Type} (f : α → β) (e : LErr) (r : Meta.Res α) : er f (ofMetaL e r) = tryThen (ofMeta r) fun a => .ok (some (f a)) := by
  cases r <;> rfl

theorem er_id {α : Type} (e : LErr) (r : Meta.Res α) : er id (ofMetaL e r) = ofMeta r := by cases r <;> rfl

/-! ## Trees -/

theorem erase_rule (t : LTree) : t.erase.rule = t.rule := by cases t; rfl
theorem erase_text (t : LTree) : t.erase.text = t.text := by cases t; rfl
theorem erase_inner (t : LTree) : t.erase.inner = LTree.eraseAll t.inner := by cases t; rfl

theorem erase_pairs (l : List LTree) :
    (LTree.eraseAll l).map (fun c => (PTree.rule c, PTree.text c)) = l.map fun c => (LTree.rule c, LTree.text c) := by
  induction l with
  | nil => rfl
  | cons t l ih => simp only [LTree.eraseAll, List.map_cons, ih, erase_rule, erase_text]

theorem erase_pair (t : LTree) : t.erase.pair = t.pair := by
  unfold PTree.pair LTree.pair
  rw [erase_rule, erase_text, erase_inner, erase_pairs]

theorem skip_erase (r : MetaRule) (l : List LTree) : LTree.eraseAll (skipL r l) = skip r (LTree.eraseAll l) := by
  cases l with
  | nil => rfl
  | cons t l =>
    simp only [skipL, skip, LTree.eraseAll, erase_rule]
    split
    · rfl
    · rfl

/-! ## Literals -/

theorem string_erase (p : LTree) :
    er SExpr.erase (stringL p) = tryThen (ofMeta (Meta.parseString p.erase.pair)) fun s => .ok (some (.str s)) := by
  rw [erase_pair]
  unfold stringL
  cases Meta.parseString p.pair <;> rfl

theorem rawString_erase (p : LTree) :
    er SExpr.erase (rawStringL p) = tryThen (ofMeta (Meta.parseRawString p.erase.pair)) fun s => .ok (some (.str s)) := by
  rw [erase_pair]
  unfold rawStringL
  cases Meta.parseRawString p.pair <;> rfl

theorem insensitive_erase (p : LTree) :
    er SExpr.erase (insensitiveL p) = tryThen (ofMeta (Meta.parseInsensitiveString p.erase.pair)) fun s => .ok (some (.insens s)) := by
  rw [erase_pair]
  unfold insensitiveL
  cases Meta.parseInsensitiveString p.pair <;> rfl

theorem charRange_erase (p : LTree) :
    er SExpr.erase (charRangeL p) = tryThen (ofMeta (Meta.parseCharRange p.erase.pair)) fun r => .ok (some (.range r.1 r.2)) := by
  rw [erase_pair]
  unfold charRangeL Meta.parseCharRange LTree.pair
  match p.inner with
  | [] => rfl
  | [_] => rfl
  | [_, _] => rfl
  | a :: _ :: b :: _ =>
    simp only [List.map_cons, characterL]
    cases Meta.slice a.text 1 1 with
    | none => rfl
    | some sa =>
      simp only
      cases Meta.unescape sa with
      | none => rfl
      | some ca =>
        simp only [tryL, andThen]
        cases Meta.slice b.text 1 1 with
        | none => rfl
        | some sb =>
          simp only
          cases Meta.unescape sb with
          | none => rfl
          | some cb =>
            simp only
            cases ca with
            | nil => rfl
            | cons x ca => cases cb <;> rfl

theorem ofMeta_bind {α β : Type} (r : Meta.Res α) (k : α → Meta.Res β) : ofMeta (r.bind k) = tryThen (ofMeta r) fun a => ofMeta (k a) := by
  cases r <;> rfl

theorem numbers_erase {α : Type} (fromStr : Text → Option α) (l : List LTree) :
    er id (numbersL fromStr l) = ofMeta (Meta.parseNumbers fromStr (l.map fun c => (c.rule, c.text))) := by
  induction l with
  | nil => rfl
  | cons p l ih =>
    simp only [numbersL, List.map_cons, Meta.parseNumbers, pairTo]
    split
    · cases fromStr p.text with
      | none => rfl
      | some n =>
        show er id (tryL (numbersL fromStr l) fun ns => .ok (.ok (n :: ns))) = ofMeta (Meta.Res.bind _ _)
        rw [ofMeta_bind, ← ih]
        exact er_try fun _ => rfl
    · exact ih

theorem range_erase {α : Type} (fromStr : Text → Option α) (l : List LTree) :
    er id (rangeL fromStr l) = ofMeta (Meta.parseRange fromStr (l.map fun c => (c.rule, c.text))) := by
  cases l with
  | nil => rfl
  | cons p l =>
    simp only [rangeL, Meta.parseRange, List.map_cons]
    rw [ofMeta_bind, ← numbers_erase]
    refine er_try fun ns => ?_
    simp only [List.map_map, Function.comp_def, id]
    match l with
    | [] => rfl
    | [_] => rfl
    | [a, _] =>
      simp only [List.map_cons, List.map_nil]
      split
      · rfl
      · cases ns <;> rfl
    | [a, b, _] =>
      simp only [List.map_cons, List.map_nil]
      split
      · cases ns <;> rfl
      · split
        · cases ns <;> rfl
        · rfl
    | [_, a, _, _] =>
      simp only [List.map_cons, List.map_nil]
      split
      · match ns with
        | [] => rfl
        | [_] => rfl
        | _ :: _ :: _ => rfl
      · rfl
    | _ :: _ :: _ :: _ :: _ :: _ => rfl

/-- The pairs of a bounded repetition: at least one between the braces. -/
theorem range_inner {α : Type} {fromStr : Text → Option α} {l : List LTree} {r : MetaRange α} (h : rangeL fromStr l = .ok (.ok r)) :
    ∃ a b c rest, l = a :: b :: c :: rest := by
  match l with
  | [] => cases h
  | [_] => simp [rangeL, numbersL, tryL, andThen] at h
  | [_, b] =>
    simp only [rangeL] at h
    exfalso
    revert h
    match numbersL fromStr [b] with
    | .ok (.ok _) => intro h; cases h
    | .ok (.error _) => intro h; cases h
    | .panic => intro h; cases h
    | .oof => intro h; cases h
  | a :: b :: c :: rest => exact ⟨_, _, _, _, rfl⟩

theorem innerSpan_some {p : LTree} {a b c : LTree} {rest : List LTree} (h : p.inner = a :: b :: c :: rest) : ∃ l, innerSpan p = .ok l := by
  unfold innerSpan
  rw [h]
  simp only [List.reverse_cons, List.append_assoc]
  generalize hr : rest.reverse = k
  match k with
  | [] => exact ⟨_, rfl⟩
  | [_] => exact ⟨_, rfl⟩
  | _ :: _ :: _ => exact ⟨_, rfl⟩

theorem bounded_erase (p : LTree) : er id (boundedL p) = ofMeta (Meta.parseBoundedRepeat p.erase.pair) := by
  rw [erase_pair]
  have hr := range_erase Meta.usizeFromStr p.inner
  unfold boundedL Meta.parseBoundedRepeat
  rw [ofMeta_bind]
  show _ = tryThen (ofMeta (Meta.parseRange Meta.usizeFromStr (p.inner.map fun c => (c.rule, c.text)))) _
  rw [← hr]
  generalize hg : rangeL Meta.usizeFromStr p.inner = r
  match r with
  | .panic => rfl
  | .oof => rfl
  | .ok (.error _) => rfl
  | .ok (.ok range) =>
    obtain ⟨a, b, c, rest, hp⟩ := range_inner hg
    obtain ⟨l, hl⟩ := innerSpan_some hp
    simp only [tryL, andThen, er, tryThen, id, hl]
    match range.start, range.stop with
    | none, none => rfl
    | some _, none => rfl
    | none, some b =>
      by_cases h : b = 0
      · simp only [if_pos h]; rfl
      · simp only [if_neg h]; rfl
    | some a, some b =>
      by_cases h : a > b
      · simp only [if_pos h]; rfl
      by_cases h' : b = 0
      · simp only [if_neg h, if_pos h']; rfl
      · simp only [if_neg h, if_neg h']; rfl

/-! ## Expressions -/

/-- A result without positions. -/
def exOpt {α β : Type} (f : α → β) : Except LErr α → Option β
  | .ok a => some (f a)
  | .error _ => none

theorem er_eq {α β : Type} (f : α → β) (r : LRes α) : er f r = andThen r fun x => .ok (exOpt f x) := by
  match r with
  | .ok (.ok _) => rfl
  | .ok (.error _) => rfl
  | .panic => rfl
  | .oof => rfl

theorem infix_erase (a : Except LErr SExpr) (op : LTree) (b : Except LErr SExpr) :
    er SExpr.erase (infixL a op b) = infixNode (exOpt SExpr.erase a) op.erase (exOpt SExpr.erase b) := by
  unfold infixL infixNode
  cases a with
  | error e => cases b <;> rfl
  | ok a => cases b with
    | error e => rfl
    | ok b =>
      simp only [exOpt, erase_rule]
      cases op.rule <;> rfl

/-- The outcome of the Pratt parser without positions. -/
def bareP (r : Res (Except LErr SExpr × List LTree)) : Res (Option Expr × List PTree) :=
  andThen r fun x => .ok (exOpt SExpr.erase x.1, LTree.eraseAll x.2)

theorem pratt_erase {ops : Ops} {f : LTree → LRes SExpr} {f' : PTree → Res (Option Expr)} (hf : ∀ t, er SExpr.erase (f t) = f' t.erase) (fuel : Nat) :
    (∀ rbp l, bareP (prattExprL ops f fuel rbp l) = prattExpr ops f' fuel rbp (LTree.eraseAll l)) ∧
    (∀ rbp a l, bareP (prattLoopL ops f fuel rbp a l) = prattLoop ops f' fuel rbp (exOpt SExpr.erase a) (LTree.eraseAll l)) := by
  induction fuel with
  | zero => exact ⟨fun _ _ => rfl, fun _ _ _ => rfl⟩
  | succ n ih =>
    obtain ⟨ih1, ih2⟩ := ih
    constructor
    · intro rbp l
      cases l with
      | nil => rfl
      | cons p l =>
        simp only [prattExprL, prattExpr, LTree.eraseAll, erase_rule]
        cases ops p.rule with
        | some _ => rfl
        | none =>
          simp only
          rw [← hf, er_eq]
          generalize f p = r
          cases r with
          | panic => rfl
          | oof => rfl
          | ok r => exact ih2 rbp r l
    · intro rbp a l
      cases l with
      | nil => rfl
      | cons p l =>
        simp only [prattLoopL, prattLoop, LTree.eraseAll, erase_rule]
        cases ops p.rule with
        | none => rfl
        | some prec =>
          simp only
          split
          · rw [← ih1]
            generalize prattExprL ops f n (prec - 1) l = r
            cases r with
            | panic => rfl
            | oof => rfl
            | ok r =>
              simp only [andThen, bareP]
              rw [← infix_erase, er_eq]
              generalize infixL a p r.1 = e
              cases e with
              | panic => rfl
              | oof => rfl
              | ok e => exact ih2 rbp e r.2
          · rfl

theorem pathNames_erase (l : List LTree) :
    pathNames (LTree.eraseAll l) = ((pathNamesL l).1, LTree.eraseAll (pathNamesL l).2) := by
  fun_induction pathNamesL l with
  | case1 p q rest hp hq ih => simp [LTree.eraseAll, pathNames, erase_rule, erase_text, hp, hq, ih]
  | case2 p q rest hp hq ih =>
    simp only [LTree.eraseAll] at ih
    simp [LTree.eraseAll, pathNames, erase_rule, erase_text, hp, hq, ih]
  | case3 p q rest hp => simp [LTree.eraseAll, pathNames, erase_rule, hp]
  | case4 p hp => simp [LTree.eraseAll, pathNames, erase_rule, erase_text, hp]
  | case5 p hp => simp [LTree.eraseAll, pathNames, erase_rule, hp]
  | case6 => rfl

section
variable {f : LTree → LRes SExpr} {f' : PTree → Res (Option Expr)} (hf : ∀ t, er SExpr.erase (f t) = f' t.erase)
include hf

theorem callArgs_erase (l : List LTree) : er SExpr.eraseAll (callArgsL f l) = callArgs f' (LTree.eraseAll l) := by
  fun_induction callArgsL f l with
  | case1 p q rest hp hq ih =>
    simp only [LTree.eraseAll, callArgs, erase_rule, hp, hq, if_true]
    rw [← hf, ← ih]
    exact er_try fun a => er_try fun b => rfl
  | case2 p q rest hp hq ih =>
    simp only [LTree.eraseAll] at ih
    simp only [LTree.eraseAll, callArgs, erase_rule, hp, hq, if_true, if_false]
    rw [← hf, ← ih]
    exact er_try fun a => er_try fun b => rfl
  | case3 p q rest hp => simp only [LTree.eraseAll, callArgs, erase_rule, hp, if_false]; rfl
  | case4 p hp =>
    simp only [LTree.eraseAll, callArgs, erase_rule, hp, if_true]
    rw [← hf]
    exact er_try fun a => rfl
  | case5 p hp => simp only [LTree.eraseAll, callArgs, erase_rule, hp, if_false]; rfl
  | case6 => rfl

theorem path_erase (p : LTree) : er SExpr.erase (pathL f p) = parsePath f' p.erase := by
  unfold pathL parsePath
  rw [erase_inner, pathNames_erase]
  generalize pathNamesL p.inner = x
  obtain ⟨q, l⟩ := x
  cases l with
  | nil => rfl
  | cons a l =>
    simp only [LTree.eraseAll, erase_rule]
    generalize a.rule = r
    cases r <;> simp only
    case call =>
      rw [erase_inner]
      cases a.inner with
      | nil => rfl
      | cons b k =>
        simp only [LTree.eraseAll]
        rw [← callArgs_erase hf]
        exact er_try fun _ => rfl
    case slice =>
      have := range_erase Meta.isizeFromStr a.inner
      simp only [Meta.parseSlice, erase_pair]
      rw [show a.pair.inner = a.inner.map fun c => (c.rule, c.text) from rfl, ← this]
      exact er_try fun _ => rfl
    all_goals rfl

theorem postfix_erase (p : LTree) (e : SExpr) : er SExpr.erase (postfixL p e) = parsePostfix p.erase e.erase := by
  unfold postfixL parsePostfix
  simp only [erase_rule]
  generalize p.rule = r
  cases r <;> simp only
  case boundedRepeat =>
    rw [← bounded_erase]
    exact er_try fun _ => rfl
  all_goals rfl

omit hf in
theorem prefix_erase (p : LTree) (e : SExpr) : andThen (prefixL p e) (fun e => .ok e.erase) = parsePrefix p.erase e.erase := by
  unfold prefixL parsePrefix
  rw [erase_rule]
  cases p.rule <;> rfl

theorem foldPostfix_erase (l : List LTree) (e : SExpr) :
    er SExpr.erase (foldPostfixL l e) = foldPostfix (LTree.eraseAll l) e.erase := by
  induction l generalizing e with
  | nil => rfl
  | cons p l ih =>
    simp only [foldPostfixL, foldPostfix, LTree.eraseAll]
    rw [← postfix_erase hf]
    exact er_try fun a => ih a

omit hf in
theorem foldPrefix_erase (l : List LTree) (e : SExpr) :
    andThen (foldPrefixL l e) (fun e => .ok e.erase) = foldPrefix (LTree.eraseAll l) e.erase := by
  induction l with
  | nil => rfl
  | cons p l ih =>
    simp only [foldPrefixL, foldPrefix, LTree.eraseAll]
    rw [← ih]
    generalize foldPrefixL l e = r
    cases r with
    | panic => rfl
    | oof => rfl
    | ok e => exact prefix_erase p e

/-- The variables of `parse_term` without positions. -/
def TermStL.erase (st : TermStL) : TermSt := ⟨LTree.eraseAll st.pre, LTree.eraseAll st.post, st.expression.map SExpr.erase⟩

theorem termStep_erase (p : LTree) (st : TermStL) : er TermStL.erase (termStepL f p st) = termStep f' p.erase st.erase := by
  unfold termStepL termStep
  simp only [erase_rule]
  cases p.rule <;> simp only
  case positivePredicate | negativePredicate | optionalOperator | tildeOperator | caretOperator | repeatOperator | repeatOnceOperator | boundedRepeat =>
    simp only [er, TermStL.erase, eraseAll_append]; rfl
  case expression => rw [← hf]; exact er_try fun _ => rfl
  case path => rw [← path_erase hf]; exact er_try fun _ => rfl
  case string =>
    refine (er_try (f := SExpr.erase) (k' := fun e => .ok (some { st.erase with expression := some e })) fun _ => rfl).trans ?_
    rw [string_erase]
    cases Meta.parseString p.erase.pair <;> rfl
  case rawString =>
    refine (er_try (f := SExpr.erase) (k' := fun e => .ok (some { st.erase with expression := some e })) fun _ => rfl).trans ?_
    rw [rawString_erase]
    cases Meta.parseRawString p.erase.pair <;> rfl
  case insensitiveString =>
    refine (er_try (f := SExpr.erase) (k' := fun e => .ok (some { st.erase with expression := some e })) fun _ => rfl).trans ?_
    rw [insensitive_erase]
    cases Meta.parseInsensitiveString p.erase.pair <;> rfl
  case range =>
    refine (er_try (f := SExpr.erase) (k' := fun e => .ok (some { st.erase with expression := some e })) fun _ => rfl).trans ?_
    rw [charRange_erase]
    cases Meta.parseCharRange p.erase.pair <;> rfl
  all_goals rfl

theorem termLoop_erase (l : List LTree) (st : TermStL) : er TermStL.erase (termLoopL f l st) = termLoop f' (LTree.eraseAll l) st.erase := by
  induction l generalizing st with
  | nil => rfl
  | cons p l ih =>
    simp only [termLoopL, termLoop, LTree.eraseAll]
    rw [← termStep_erase hf]
    exact er_try fun a => ih a

theorem term_erase (t : LTree) : er SExpr.erase (termL f t) = parseTerm f' t.erase := by
  unfold termL parseTerm
  rw [erase_inner]
  have h := termLoop_erase hf t.inner ⟨[], [], none⟩
  rw [show (⟨[], [], none⟩ : TermSt) = TermStL.erase ⟨[], [], none⟩ from rfl, ← h]
  refine er_try fun st => ?_
  obtain ⟨pre, post, o⟩ := st
  cases o with
  | none => rfl
  | some e =>
    simp only [TermStL.erase, Option.map_some, unwrap, andThen]
    rw [← foldPostfix_erase hf]
    refine er_try fun e => ?_
    rw [← foldPrefix_erase]
    generalize foldPrefixL pre e = r
    cases r <;> rfl

end

theorem node_erase (ops : Ops) (fuel : Nat) : ∀ t, er SExpr.erase (nodeL ops fuel t) = parseNode ops fuel t.erase := by
  induction fuel with
  | zero => intro t; rfl
  | succ n ih =>
    intro t
    simp only [nodeL, parseNode, erase_inner]
    rw [← skip_erase, ← (pratt_erase (term_erase ih) n).1]
    generalize prattExprL ops (termL (nodeL ops n)) n 0 (skipL .choiceOperator t.inner) = r
    match r with
    | .panic => rfl
    | .oof => rfl
    | .ok (.ok _, _) => rfl
    | .ok (.error _, _) => rfl

/-! ## Rules, imports, files -/

theorem dropDocs_erase (l : List LTree) : LTree.eraseAll (dropDocsL l) = dropDocs (LTree.eraseAll l) := by
  induction l with
  | nil => rfl
  | cons p l ih =>
    simp only [dropDocsL, dropDocs, LTree.eraseAll, erase_rule]
    split
    · exact ih
    · rfl

theorem names_erase (l : List LTree) : ((LTree.eraseAll l).filter fun p => p.rule = .identifier).map PTree.text =
    (l.filter fun p => p.rule = .identifier).map LTree.text := by
  induction l with
  | nil => rfl
  | cons t l ih =>
    simp only [LTree.eraseAll, List.filter_cons, erase_rule]
    split
    · simp only [List.map_cons, ih, erase_text]
    · exact ih

theorem rule_erase (fuel : Nat) (t : LTree) : er SRule.erase (ruleL fuel t) = parseRule fuel t.erase := by
  unfold ruleL parseRule
  rw [erase_inner, ← dropDocs_erase]
  match dropDocsL t.inner with
  | [] => rfl
  | [_] => rfl
  | name :: args :: rest =>
    simp only [LTree.eraseAll]
    rw [← skip_erase, erase_inner, names_erase, erase_text]
    generalize skipL .assignmentOperator rest = rest
    cases rest with
    | nil => rfl
    | cons m rest =>
      simp only [LTree.eraseAll, erase_rule, List.tail_cons]
      have : (if decide (m.rule = .silentModifier) = true then LTree.eraseAll rest else m.erase :: LTree.eraseAll rest) =
          LTree.eraseAll (if decide (m.rule = .silentModifier) = true then rest else m :: rest) := by split <;> rfl
      rw [this, ← skip_erase]
      generalize skipL .openingBrace _ = k
      cases k with
      | nil => rfl
      | cons e k =>
        simp only [LTree.eraseAll]
        rw [← node_erase]
        exact er_try fun _ => rfl

theorem importLoop_erase (l : List LTree) (file : Option Text) (alias : Option Name) :
    er id (importLoopL l file alias) = importLoop (LTree.eraseAll l) file alias := by
  induction l generalizing file alias with
  | nil => rfl
  | cons p l ih =>
    simp only [importLoopL, importLoop, LTree.eraseAll, erase_rule, erase_text]
    generalize p.rule = r
    cases r <;> simp only
    case string =>
      rw [erase_pair, ← er_id]
      exact er_try fun s => ih (some s) alias
    case identifier => exact ih _ _
    all_goals rfl

theorem import_erase (fuel : Nat) (t : LTree) : er id (importL fuel t) = parseImport fuel t.erase := by
  unfold importL parseImport
  rw [erase_inner]
  cases t.inner with
  | nil => rfl
  | cons p l =>
    simp only [LTree.eraseAll]
    rw [← path_erase (node_erase noOps fuel)]
    refine er_try fun e => ?_
    cases e <;> try rfl
    simp only [SExpr.erase]
    rw [← importLoop_erase]
    exact er_try fun _ => rfl

end Pest3.Gen

namespace Pest3.Load
open Pest3 Pest3.Gen
open Pest3.Meta (MetaRule)

theorem settle_erase (r : LRes LItem) : andThen (settleL r) (fun i => .ok i.erase) = settle (er LItem.erase r) := by
  match r with
  | .ok (.ok _) => rfl
  | .ok (.error _) => rfl
  | .panic => rfl
  | .oof => rfl

theorem readItem_erase (fuel : Nat) (t : LTree) :
    (readItemL fuel t).map (fun r => andThen r fun i => .ok i.erase) = readItem fuel t.erase := by
  unfold readItemL readItem
  rw [erase_rule]
  generalize t.rule = r
  cases r <;> simp only
  case «import» =>
    simp only [Option.map_some, settle_erase]
    rw [← import_erase]
    exact congrArg _ (congrArg _ (er_try fun _ => rfl))
  case grammarRule =>
    simp only [Option.map_some, settle_erase]
    rw [← rule_erase]
    exact congrArg _ (congrArg _ (er_try fun _ => rfl))
  all_goals rfl

theorem readItems_erase (fuel : Nat) (l : List LTree) :
    andThen (readItemsL fuel l) (fun k => .ok (k.map LItem.erase)) = readItems fuel (LTree.eraseAll l) := by
  induction l with
  | nil => rfl
  | cons t l ih =>
    simp only [readItemsL, readItems, LTree.eraseAll]
    rw [← readItem_erase, ← ih]
    cases readItemL fuel t with
    | none => rfl
    | some r =>
      simp only [Option.map_some]
      cases r with
      | panic => rfl
      | oof => rfl
      | ok i =>
        simp only [andThen]
        cases readItemsL fuel l <;> rfl

/-- Without positions, the items of a text are those of `readText`. -/
theorem readText_erase (fuel : Nat) (text : Text) :
    readText fuel text = andThen (readTextL fuel text) fun o => .ok (o.map (·.map LItem.erase)) := by
  unfold readText recogFile readTextL
  rw [recog_erase]
  generalize recogL metaGrammar fuel .nonAtomic (.ref .grammarRules) ⟨[], text, []⟩ = r
  match r with
  | .panic => rfl
  | .oof => rfl
  | .ok none => rfl
  | .ok (some x) =>
    simp only [bareRes, andThen, bare, Option.map, tryThen]
    rw [← readItems_erase]
    cases readItemsL fuel x.2 <;> rfl

end Pest3.Load
