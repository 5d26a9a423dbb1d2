import Verif.MetaExprSpec
import Verif.CodegenLemmas
import Verif.Props.Literals

namespace Pest3.Gen
open Pest3
open Pest3.Meta (MetaRange MetaRule MetaPair Escape escaped)

theorem tryThen_some {α β : Type} {a : α} {k : α → Res (Option β)} : tryThen (.ok (some a)) k = k a := rfl

theorem tryThen_none {α β : Type} {k : α → Res (Option β)} : tryThen (.ok none) k = .ok none := rfl

@[simp] theorem PTree.rule_node (r : MetaRule) (t : Text) (l : List PTree) : (PTree.node r t l).rule = r := rfl

@[simp] theorem tok_rule (r : MetaRule) (t : String) : (tok r t).rule = r := rfl

@[simp] theorem PTree.text_node (r : MetaRule) (t : Text) (l : List PTree) : (PTree.node r t l).text = t := rfl

@[simp] theorem PTree.inner_node (r : MetaRule) (t : Text) (l : List PTree) : (PTree.node r t l).inner = l := rfl

/-! ## Literals -/

theorem PTree.rule_of_pair {t : PTree} {p : MetaPair} (h : t.pair = p) : t.rule = p.rule := by
  cases h; rfl

/-- Conversions that look at the inner pairs only. -/
theorem PTree.Spells.same {α : Type} {t : PTree} {p : MetaPair} (h : t.Spells p) {f : MetaPair → α}
    (hf : ∀ r r' x x' l, f ⟨r, x, l⟩ = f ⟨r', x', l⟩) : f t.pair = f p := by
  obtain ⟨_, h⟩ := h
  obtain ⟨r, x, l⟩ := p
  obtain ⟨r', x', l'⟩ := t
  cases h
  exact hf _ _ _ _ _

theorem CharLit.unescape {a : Text} {c : Option Char} (h : CharLit a c) : Meta.unescape a = c.map fun c => [c] := by
  cases h with
  | plain h1 h2 => rw [Meta.unescape_plain h1 h2]; rfl
  | escape h =>
    have := Meta.unescape_escape h []
    rw [List.append_nil] at this
    rw [this]
    cases escaped _ <;> rfl
  | backslash => rfl

theorem range_read {a b : Text} {c d : Option Char} (ha : CharLit a c) (hb : CharLit b d) :
    ofMeta (Meta.parseCharRange (Meta.rangePair a b)) = .ok (c.bind fun c => d.map fun d => (c, d)) := by
  have h1 : Meta.slice (Meta.charText a) 1 1 = some a := Meta.slice_mid ['\''] a ['\'']
  have h2 : Meta.slice (Meta.charText b) 1 1 = some b := Meta.slice_mid ['\''] b ['\'']
  simp only [Meta.parseCharRange, Meta.rangePair, h1, h2, ha.unescape, hb.unescape]
  cases c <;> cases d <;> rfl

theorem string_read {s : Text} {o : Option Text} (h : Meta.Denotes s o) :
    ofMeta (Meta.parseString (Meta.stringPair s)) = .ok o ∧
      ofMeta (Meta.parseInsensitiveString (Meta.insensitivePair s)) = .ok o := by
  obtain ⟨h1, h2⟩ := Props.C41_string s o h
  rw [h1, h2]
  cases o <;> exact ⟨rfl, rfl⟩

theorem bounds_read (a b : Option Nat) :
    ofMeta (Meta.parseBoundedRepeat (Meta.repeatPair (a.map Meta.decimal) (b.map Meta.decimal))) = .ok (boundsSpec a b) := by
  rw [Props.C44_repeat]
  unfold Props.repeatSpec boundsSpec
  split <;> rfl

theorem exact_read (n : Nat) :
    ofMeta (Meta.parseBoundedRepeat (Meta.exactPair (Meta.decimal n))) = .ok (boundsSpec (some n) (some n)) := by
  rw [Props.C44_exact]
  unfold Props.repeatSpec boundsSpec
  split <;> rfl


theorem IntLit.read (x : IntLit) :
    Meta.isizeFromStr x.text = if -2 ^ 63 ≤ x.value ∧ x.value < 2 ^ 63 then some x.value else none := by
  have hd : ∀ n, ∀ c ∈ Meta.decimal n, (Meta.digitVal 10 c).isSome :=
    fun n c hc => Meta.digitVal_toDigits_isSome (Or.inl rfl) hc
  have hne : ∀ n, Meta.decimal n ≠ [] := fun n => Nat.toDigits_ne_nil
  have hv : ∀ n, Meta.digitsVal 10 0 (Meta.decimal n) = some n := fun n => Meta.digitsVal_toDigits (Or.inl rfl) n
  have hm : Meta.digitVal 10 '-' = none := by decide
  have hin : ∀ n : Nat, n < 2 ^ 63 → -2 ^ 63 ≤ (n : Int) ∧ (n : Int) < 2 ^ 63 := by intro n h; omega
  have hout : ∀ n : Nat, ¬ n < 2 ^ 63 → ¬ (-2 ^ 63 ≤ (n : Int) ∧ (n : Int) < 2 ^ 63) := by intro n h; omega
  cases x with
  | plain n =>
    have hp : ∀ rest, Meta.decimal n ≠ '-' :: rest := by
      intro rest he
      have := hd n '-' (by rw [he]; simp)
      rw [hm] at this; cases this
    have h1 : Meta.isizeFromStr (Meta.decimal n) =
        Option.map Int.ofNat (Meta.unsignedFromStr 10 (2 ^ 63 - 1) (Meta.decimal n)) := by
      unfold Meta.isizeFromStr
      split
      · rename_i h; exact absurd h (hp _)
      · rfl
    show Meta.isizeFromStr (Meta.decimal n) = _
    rw [h1, Meta.unsigned_no_plus (hd n) (hne n), hv]
    by_cases h : n < 2 ^ 63
    · rw [if_pos (c := -2 ^ 63 ≤ (IntLit.plain n).value ∧ (IntLit.plain n).value < 2 ^ 63) (hin n h)]; simp only; rw [if_pos (by omega)]; rfl
    · rw [if_neg (c := -2 ^ 63 ≤ (IntLit.plain n).value ∧ (IntLit.plain n).value < 2 ^ 63) (hout n h)]; simp only; rw [if_neg (by omega)]; rfl
  | plus n =>
    have h1 : Meta.isizeFromStr (IntLit.plus n).text = Option.map Int.ofNat (if n ≤ 2 ^ 63 - 1 then some n else none) := by
      show Option.map Int.ofNat (Meta.unsignedFromStr 10 (2 ^ 63 - 1) ('+' :: Meta.decimal n)) = _
      simp only [Meta.unsignedFromStr, if_neg (hne n), hv]
    rw [h1]
    by_cases h : n < 2 ^ 63
    · rw [if_pos (c := -2 ^ 63 ≤ (IntLit.plus n).value ∧ (IntLit.plus n).value < 2 ^ 63) (hin n h), if_pos (by omega)]; rfl
    · rw [if_neg (c := -2 ^ 63 ≤ (IntLit.plus n).value ∧ (IntLit.plus n).value < 2 ^ 63) (hout n h), if_neg (by omega)]; rfl
  | minus n =>
    have h1 : Meta.isizeFromStr (IntLit.minus n).text = if n ≤ 2 ^ 63 then some (-(n : Int)) else none := by
      simp only [IntLit.text, Meta.isizeFromStr, if_neg (hne n), hv]
    rw [h1]
    by_cases h : n ≤ 2 ^ 63
    · rw [if_pos (c := -2 ^ 63 ≤ (IntLit.minus n).value ∧ (IntLit.minus n).value < 2 ^ 63) (show -2 ^ 63 ≤ -(n : Int) ∧ -(n : Int) < 2 ^ 63 by omega), if_pos h]; rfl
    · rw [if_neg (c := -2 ^ 63 ≤ (IntLit.minus n).value ∧ (IntLit.minus n).value < 2 ^ 63) (show ¬ (-2 ^ 63 ≤ -(n : Int) ∧ -(n : Int) < 2 ^ 63) by omega), if_neg h]

theorem slice_read (a b : Option IntLit) :
    ofMeta (Meta.parseSlice (Meta.slicePair (a.map IntLit.text) (b.map IntLit.text))) = .ok (sliceSpec a b) := by
  have hx : ∀ x : IntLit, fits (some x) ↔ (-2 ^ 63 ≤ x.value ∧ x.value < 2 ^ 63) := by intro x; simp [fits]
  have h0 : fits none := by simp [fits]
  have rd : ∀ x : IntLit, (-2 ^ 63 ≤ x.value ∧ x.value < 2 ^ 63) → Meta.isizeFromStr x.text = some x.value :=
    fun x h => by rw [IntLit.read, if_pos h]
  unfold sliceSpec
  cases a with
  | none =>
    cases b with
    | none =>
      simp [Meta.parseSlice, Meta.slicePair, Meta.boundPairs, Meta.parseRange, Meta.parseNumbers, Meta.Res.bind, h0, ofMeta]
    | some y =>
      by_cases hy : -2 ^ 63 ≤ y.value ∧ y.value < 2 ^ 63
      · rw [if_pos ⟨h0, (hx y).mpr hy⟩]
        simp [Meta.parseSlice, Meta.slicePair, Meta.boundPairs, Meta.parseRange, Meta.parseNumbers, Meta.Res.bind, rd y hy, ofMeta]
      · rw [if_neg (fun h => hy ((hx y).mp h.2))]
        simp only [Meta.parseSlice, Meta.slicePair, Meta.boundPairs, Meta.parseRange, Meta.parseNumbers, Option.map,
          List.nil_append, List.singleton_append, IntLit.read, if_neg hy]
        rfl
  | some x =>
    by_cases hxv : -2 ^ 63 ≤ x.value ∧ x.value < 2 ^ 63
    · cases b with
      | none =>
        rw [if_pos ⟨(hx x).mpr hxv, h0⟩]
        simp [Meta.parseSlice, Meta.slicePair, Meta.boundPairs, Meta.parseRange, Meta.parseNumbers, Meta.Res.bind, rd x hxv, ofMeta]
      | some y =>
        by_cases hy : -2 ^ 63 ≤ y.value ∧ y.value < 2 ^ 63
        · rw [if_pos ⟨(hx x).mpr hxv, (hx y).mpr hy⟩]
          simp [Meta.parseSlice, Meta.slicePair, Meta.boundPairs, Meta.parseRange, Meta.parseNumbers, Meta.Res.bind, rd x hxv,
            rd y hy, ofMeta]
        · rw [if_neg (fun h => hy ((hx y).mp h.2))]
          simp only [Meta.parseSlice, Meta.slicePair, Meta.boundPairs, Meta.parseRange, Meta.parseNumbers, Option.map,
            List.nil_append, List.cons_append, IntLit.read, if_neg hy, if_pos hxv]
          rfl
    · rw [if_neg (fun h => hxv ((hx x).mp h.1))]
      cases b <;> simp only [Meta.parseSlice, Meta.slicePair, Meta.boundPairs, Meta.parseRange, Meta.parseNumbers, Option.map,
          List.nil_append, List.cons_append, IntLit.read, if_neg hxv] <;> rfl

/-! ## Paths and arguments -/

theorem pathNames_trees {q : List Name} (hq : q ≠ []) {rest : List PTree}
    (hr : ∀ t r, rest = t :: r → t.rule ≠ .identifier ∧ t.rule ≠ .ancestryOperator) :
    pathNames (pathTrees q ++ rest) = (q, rest) := by
  induction q with
  | nil => exact absurd rfl hq
  | cons x q ih =>
    cases q with
    | nil =>
      cases rest with
      | nil => simp [pathTrees, pathNames]
      | cons t r =>
        obtain ⟨h1, h2⟩ := hr t r rfl
        have : pathNames (t :: r) = ([], t :: r) := by
          cases r <;> simp [pathNames, h1]
        simp [pathTrees, pathNames, h2, this]
    | cons y q =>
      have := ih (by simp)
      simp only [pathTrees, List.cons_append, pathNames]
      simp [this]

theorem callArgs_trees {node : PTree → Res (Option Expr)} {tr : Bool} {args : List PTree} {os : List (Option Expr)}
    (hl : args.length = os.length) (he : ∀ a ∈ args, a.rule = .expression) (h : ∀ p ∈ args.zip os, node p.1 = .ok p.2)
    {close : PTree} (hc : close.rule = .closingParen) :
    callArgs node (commaTrees tr args ++ [close]) = .ok (allOf os) := by
  have hend : callArgs node [close] = .ok (some []) := by simp [callArgs, hc]
  induction args generalizing os with
  | nil =>
    cases os with
    | nil => simpa [commaTrees, allOf] using hend
    | cons _ _ => simp at hl
  | cons a args ih =>
    cases os with
    | nil => simp at hl
    | cons o os =>
      have ha : a.rule = .expression := he a (by simp)
      have h1 : node a = .ok o := h (a, o) (by simp)
      cases args with
      | nil =>
        have : os = [] := by cases os <;> simp at hl ⊢
        subst this
        cases tr
        · cases o <;> simp [commaTrees, callArgs, ha, hc, h1, allOf, tryThen_some, tryThen_none]
        · cases o <;> simp [commaTrees, callArgs, ha, hc, h1, allOf, tryThen_some, tryThen_none]
      | cons b args =>
        have := ih (os := os) (by simpa using hl) (fun x hx => he x (List.mem_cons_of_mem _ hx))
          (fun p hp => h p (by rw [List.zip_cons_cons]; exact List.mem_cons_of_mem _ hp))
        simp only [commaTrees, List.cons_append, callArgs, ha, if_true, tok_rule, h1, this, allOf]
        cases o with
        | none => rfl
        | some e => cases allOf os <;> rfl

/-! ## Terms -/

theorem termLoop_pres {node : PTree → Res (Option Expr)} (pres : List Pre) (rest : List PTree) (st : TermSt) :
    termLoop node (pres.map Pre.tree ++ rest) st = termLoop node rest { st with pre := st.pre ++ pres.map Pre.tree } := by
  induction pres generalizing st with
  | nil => simp
  | cons p pres ih =>
    have : termStep node p.tree st = .ok (some { st with pre := st.pre ++ [p.tree] }) := by cases p <;> rfl
    simp only [List.map_cons, List.cons_append, termLoop, this, tryThen_some, ih]
    simp

theorem PostOp.IsTree.rule {op : PostOp} {t : PTree} (h : op.IsTree t) :
    t.rule = .optionalOperator ∨ t.rule = .repeatOperator ∨ t.rule = .repeatOnceOperator ∨ t.rule = .boundedRepeat := by
  cases op with
  | opt => cases h; exact Or.inl rfl
  | star => cases h; exact Or.inr (Or.inl rfl)
  | plus => cases h; exact Or.inr (Or.inr (Or.inl rfl))
  | bounds a b => exact Or.inr (Or.inr (Or.inr (h.1)))
  | exact n => exact Or.inr (Or.inr (Or.inr (h.1)))

theorem termStep_post {node : PTree → Res (Option Expr)} {t : PTree} (st : TermSt)
    (h : t.rule = .optionalOperator ∨ t.rule = .repeatOperator ∨ t.rule = .repeatOnceOperator ∨ t.rule = .boundedRepeat ∨
      t.rule = .tildeOperator ∨ t.rule = .caretOperator) :
    termStep node t st = .ok (some { st with post := st.post ++ [t] }) := by
  unfold termStep
  rcases h with h | h | h | h | h | h <;> rw [h]

theorem termLoop_posts {node : PTree → Res (Option Expr)} {ps : List Post} {ts : List PTree} (h : PostTrees ps ts) (st : TermSt) :
    termLoop node ts st = .ok (some { st with post := st.post ++ ts }) := by
  have gen : ∀ l : List PTree, (∀ t ∈ l, t.rule = .optionalOperator ∨ t.rule = .repeatOperator ∨ t.rule = .repeatOnceOperator ∨
      t.rule = .boundedRepeat ∨ t.rule = .tildeOperator ∨ t.rule = .caretOperator) → ∀ st : TermSt,
      termLoop node l st = .ok (some { st with post := st.post ++ l }) := by
    intro l
    induction l with
    | nil => intro _ st; simp [termLoop]
    | cons t l ih =>
      intro hl st
      simp only [termLoop, termStep_post st (hl t (by simp)), tryThen_some, ih (fun x hx => hl x (List.mem_cons_of_mem _ hx))]
      simp
  apply gen
  clear gen
  induction h with
  | nil => simp
  | cons h1 h2 h3 ih =>
    rename_i p t ps ts
    intro x hx
    rcases List.mem_append.1 hx with hx | hx
    · unfold sepTrees at hx
      split at hx
      · simp only [List.mem_singleton] at hx; subst hx; simp
      · simp only [List.mem_singleton] at hx; subst hx; simp
      · simp at hx
    · rcases List.mem_cons.1 hx with rfl | hx
      · rcases h2.rule with h | h | h | h <;> simp [h]
      · exact ih x hx

theorem foldPostfix_posts {ps : List Post} {ts : List PTree} (h : PostTrees ps ts) (e : Expr) :
    foldPostfix ts e = .ok (applyPosts ps e) := by
  induction h generalizing e with
  | nil => rfl
  | cons h1 h2 h3 ih =>
    rename_i p t ps ts
    obtain ⟨sep, op⟩ := p
    have hop : ∀ c : Expr, parsePostfix t c = .ok ((Post.mk none op).apply c) := by
      intro c
      cases op with
      | opt => cases h2; rfl
      | star => cases h2; rfl
      | plus => cases h2; rfl
      | bounds a b =>
        have h2 : t.Spells _ := h2
        have hr := h2.1
        have h2 := h2.same (f := Meta.parseBoundedRepeat) fun _ _ _ _ _ => rfl
        unfold parsePostfix
        rw [hr]
        simp only [h2, Meta.repeatPair, Post.apply, Post.sepApply]
        have := bounds_read a b
        rw [Meta.repeatPair] at this
        rw [this]
        cases boundsSpec a b <;> rfl
      | exact n =>
        have h2 : t.Spells _ := h2
        have hr := h2.1
        have h2 := h2.same (f := Meta.parseBoundedRepeat) fun _ _ _ _ _ => rfl
        unfold parsePostfix
        rw [hr]
        simp only [h2, Meta.exactPair, Post.apply, Post.sepApply]
        have := exact_read n
        rw [Meta.exactPair] at this
        rw [this]
        cases boundsSpec (some n) (some n) <;> rfl
    have hap : ∀ c, (Post.mk sep op).apply c = (Post.mk none op).apply ((Post.mk sep op).sepApply c) := by
      intro c; cases op <;> rfl
    have hstep : ∀ c, foldPostfix (t :: ts) c = .ok (((Post.mk none op).apply c).bind (applyPosts ps)) := by
      intro c
      simp only [foldPostfix, hop]
      cases (Post.mk none op).apply c with
      | none => rfl
      | some e => exact ih e
    simp only [applyPosts, hap]
    rw [← hstep]
    match sep, h1 with
    | none, _ => rfl
    | some .optional, _ => rfl
    | some .mandatory, _ => rfl
    | some .none, h1 => exact absurd rfl h1

theorem foldPrefix_pres (pres : List Pre) (e : Expr) : foldPrefix (pres.map Pre.tree) e = .ok (applyPres pres e) := by
  induction pres with
  | nil => rfl
  | cons p pres ih =>
    simp only [List.map_cons, foldPrefix, ih, andThen, applyPres]
    cases p <;> rfl

/-- What is shown of the part of a term between the operators. -/
def PrimOk (node : PTree → Res (Option Expr)) (prim : List PTree) (o : Option Expr) : Prop :=
  ∀ rest st, termLoop node (prim ++ rest) st = tryThen (.ok o) fun e => termLoop node rest { st with expression := some e }

theorem parseTerm_ok {node : PTree → Res (Option Expr)} {x : Text} {prim ts : List PTree} {pres : List Pre} {posts : List Post}
    {o : Option Expr} (h : PrimOk node prim o) (hp : PostTrees posts ts) :
    parseTerm node (.node .term x (pres.map Pre.tree ++ (prim ++ ts))) =
      .ok (o.bind fun e => (applyPosts posts e).map (applyPres pres)) := by
  unfold parseTerm
  simp only [PTree.inner_node, termLoop_pres, h ts]
  cases o with
  | none => rfl
  | some e =>
    simp only [tryThen_some, termLoop_posts hp, unwrap, andThen, List.nil_append, foldPostfix_posts hp, Option.bind_some]
    cases applyPosts posts e with
    | none => rfl
    | some e' => simp only [tryThen_some, foldPrefix_pres]; rfl

theorem prim_single {node : PTree → Res (Option Expr)} {t : PTree} {o : Option Expr}
    (h : ∀ st, termStep node t st = tryThen (.ok o) fun e => .ok (some { st with expression := some e })) :
    PrimOk node [t] o := by
  intro rest st
  simp only [List.singleton_append, termLoop, h]
  cases o <;> rfl

end Pest3.Gen
