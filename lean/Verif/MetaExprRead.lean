import Verif.MetaExprLemmas

namespace Pest3.Gen
open Pest3
open Pest3.Meta (MetaRange MetaRule MetaPair Escape escaped)

/-- The primaries of the Pratt parser within `p` levels of nesting. -/
def prim (p : Nat) : PTree → Res (Option Expr) := parseTerm (parseNode ruleOps p)

/-- What may follow a sequence: nothing or a bar. -/
def Stops (rest : List PTree) : Prop := ∀ t r, rest = t :: r → t.rule = .choiceOperator

theorem loop_stops {pr : PTree → Res (Option Expr)} {n rbp : Nat} {o : Option Expr} {rest : List PTree} (hs : Stops rest) (h : 20 ≤ rbp) :
    prattLoop ruleOps pr (n + 1) rbp o rest = .ok (o, rest) := by
  cases rest with
  | nil => simp [prattLoop]
  | cons t r =>
    have := hs t r rfl
    simp only [prattLoop, this, ruleOps]
    rw [if_neg (by omega)]

theorem infix_joins {op : PTree} {tr : Trivia} (h : joins op.rule = some tr) (a b : Option Expr) :
    infixNode a op b = .ok (a.bind fun a => b.map fun b => .seq a b tr) ∧ ruleOps op.rule = some 30 := by
  unfold joins at h
  split at h <;> cases h <;> rename_i hr <;> refine ⟨?_, by rw [hr]; rfl⟩ <;>
    cases a <;> cases b <;> first | rfl | simp [infixNode, hr]

theorem infix_choice {op : PTree} (h : op.rule = .choiceOperator) (a b : Option Expr) :
    infixNode a op b = .ok (a.bind fun a => b.map fun b => .choice a b) := by
  cases a <;> cases b <;> first | rfl | simp [infixNode, h]

/-- What is shown of the parts of an expression. -/
def ReadsAs : WItem → Option Expr → Prop
  | .expr t, o => t.rule = .expression ∧ ∃ N, ∀ n, N ≤ n → parseNode ruleOps n t = .ok o
  | .choices ts, o => (∃ t r, ts = t :: r ∧ t.rule = .term) ∧
      ∃ N, ∀ p n rbp, N ≤ p → N ≤ n → rbp < 20 → prattExpr ruleOps (prim p) n rbp ts = .ok (o, [])
  | .sequence ts, o => (∃ t r, ts = t :: r ∧ t.rule = .term) ∧
      ∃ N, ∀ p rbp rest r M, N ≤ p → rbp < 30 → Stops rest →
        (∀ n, M ≤ n → prattLoop ruleOps (prim p) n rbp o rest = .ok r) →
        ∀ n, N + M ≤ n → prattExpr ruleOps (prim p) n rbp (ts ++ rest) = .ok r
  | .term t, o => t.rule = .term ∧ ∃ N, ∀ p, N ≤ p → prim p t = .ok o
  | .primary ts, o => ∃ N, ∀ p, N ≤ p → PrimOk (parseNode ruleOps p) ts o

theorem primary_const {t : PTree} {o : Option Expr}
    (h : ∀ p st, termStep (parseNode ruleOps p) t st = tryThen (.ok o) fun e => .ok (some { st with expression := some e })) :
    ReadsAs (.primary [t]) o :=
  ⟨0, fun p _ => prim_single (h p)⟩

theorem expression_good {x : Text} {ts inner : List PTree} {o : Option Expr} (hsk : skip .choiceOperator inner = ts)
    (h : ReadsAs (.choices ts) o) : ReadsAs (.expr (.node .expression x inner)) o := by
  obtain ⟨_, N, hN⟩ := h
  refine ⟨rfl, N + 1, fun n hn => ?_⟩
  obtain ⟨n, rfl⟩ : ∃ k, n = k + 1 := ⟨n - 1, by omega⟩
  have := hN n n 0 (by omega) (by omega) (by omega)
  unfold prim at this
  simp only [parseNode, PTree.inner_node, hsk, this, andThen]

theorem uniform {α : Type} {l : List α} {P : α → Nat → Prop} (h : ∀ a ∈ l, ∃ N, ∀ n, N ≤ n → P a n) :
    ∃ N, ∀ n, N ≤ n → ∀ a ∈ l, P a n := by
  induction l with
  | nil => exact ⟨0, by simp⟩
  | cons a l ih =>
    obtain ⟨N1, h1⟩ := h a (by simp)
    obtain ⟨N2, h2⟩ := ih fun x hx => h x (List.mem_cons_of_mem _ hx)
    refine ⟨N1 + N2, fun n hn x hx => ?_⟩
    rcases List.mem_cons.1 hx with rfl | hx
    · exact h1 n (by omega)
    · exact h2 n (by omega) x hx

/-- Every expression is read as it is written. -/
theorem written_good {raw : RawMeaning} (hraw : ∀ n s s', raw n s s' → RawRead n s s') {i : WItem} {o : Option Expr}
    (h : WrittenBy raw i o) : ReadsAs i o := by
  induction h with
  | expression _ ih =>
    refine expression_good ?_ ih
    obtain ⟨⟨t, r, rfl, ht⟩, _⟩ := ih
    simp [skip, ht]
  | leading hb _ ih => exact expression_good (by simp [skip, hb]) ih
  | alternative _ ih =>
    rename_i ts o _
    obtain ⟨hd, N, hN⟩ := ih
    refine ⟨hd, N + 1, fun p n rbp hp hn hr => ?_⟩
    have := hN p rbp [] (o, []) 1 (by omega) (by omega) (by intro _ _ h; cases h) (fun n hn => by
      obtain ⟨n, rfl⟩ : ∃ k, n = k + 1 := ⟨n - 1, by omega⟩
      simp only [prattLoop]) n (by omega)
    simpa using this
  | choice _ hb _ ih1 ih2 =>
    rename_i ts bar ts' a b _ _
    obtain ⟨⟨t, r, rfl, ht⟩, N1, h1⟩ := ih1
    obtain ⟨hd2, N2, h2⟩ := ih2
    refine ⟨⟨t, r ++ bar :: ts', rfl, ht⟩, N1 + N2 + 3, fun p n rbp hp hn hr => ?_⟩
    refine h1 p rbp (bar :: ts') _ (N2 + 2) (by omega) (by omega) (by intro _ _ h; cases h; exact hb) (fun n hn => ?_) n (by omega)
    obtain ⟨n, rfl⟩ : ∃ k, n = k + 2 := ⟨n - 2, by omega⟩
    have e2 := h2 p (n + 1) 19 (by omega) (by omega) (by omega)
    have : ruleOps bar.rule = some 20 := by rw [hb]; rfl
    simp only [prattLoop, this, if_pos hr, e2, andThen, infix_choice hb]
  | single _ ih =>
    obtain ⟨ht, N, hN⟩ := ih
    refine ⟨⟨_, [], rfl, ht⟩, N + 1, fun p rbp rest r M hp hr hs hM n hn => ?_⟩
    obtain ⟨n, rfl⟩ : ∃ k, n = k + 1 := ⟨n - 1, by omega⟩
    have h1 := hN p (by omega)
    simp only [List.singleton_append, prattExpr, ht, ruleOps, h1, andThen]
    exact hM n (by omega)
  | seq _ hj _ ih1 ih2 =>
    rename_i t op tr ts a b _ _
    obtain ⟨ht, N1, h1⟩ := ih1
    obtain ⟨hd2, N2, h2⟩ := ih2
    refine ⟨⟨t, op :: ts, rfl, ht⟩, N1 + N2 + 4, fun p rbp rest r M hp hr hs hM n hn => ?_⟩
    obtain ⟨n, rfl⟩ : ∃ k, n = k + 2 := ⟨n - 2, by omega⟩
    have e1 := h1 p (by omega)
    have e2 := h2 p 29 rest (b, rest) 1 (by omega) (by omega) hs (fun n hn => by
      obtain ⟨n, rfl⟩ : ∃ k, n = k + 1 := ⟨n - 1, by omega⟩
      exact loop_stops hs (by omega)) n (by omega)
    obtain ⟨e3, e4⟩ := infix_joins hj a b
    have e5 : ruleOps t.rule = none := by rw [ht]; rfl
    simp only [List.cons_append, prattExpr, prattLoop, e5, e1, andThen, e4, if_pos hr, e2, e3]
    exact hM n (by omega)
  | term _ hp ih =>
    obtain ⟨N, hN⟩ := ih
    exact ⟨rfl, N, fun p h => parseTerm_ok (hN p h) hp⟩
  | paren _ ih =>
    obtain ⟨ht, N, hN⟩ := ih
    refine ⟨N, fun p hp rest st => ?_⟩
    rename_i t o _
    have h1 : ∀ st, termStep (parseNode ruleOps p) t st = tryThen (.ok o) fun e => .ok (some { st with expression := some e }) := by
      intro st
      unfold termStep
      rw [ht]
      simp only [hN p hp]
    have h2 : ∀ s st, termStep (parseNode ruleOps p) (tok .openingParen s) st = .ok (some st) := fun _ _ => rfl
    have h3 : ∀ s st, termStep (parseNode ruleOps p) (tok .closingParen s) st = .ok (some st) := fun _ _ => rfl
    simp only [List.cons_append, List.nil_append, termLoop, h2, tryThen_some, h1]
    cases o with
    | none => rfl
    | some e => simp only [tryThen_some, h3]
  | str hp hd =>
    refine primary_const fun p st => ?_
    have hr := PTree.rule_of_pair hp
    unfold termStep
    rw [hr]
    simp only [Meta.stringPair]
    rw [hp, (string_read hd).1]
    rename_i o
    cases o <;> rfl
  | raw hp hn =>
    rename_i t n s s'
    refine primary_const fun p st => ?_
    have hr := PTree.rule_of_pair hp
    have hn := hraw _ _ _ hn
    have hread : ofMeta (Meta.parseRawString (Meta.rawStringPair n s)) = .ok (some s') := by
      cases hn
      match n with
      | 0 => rfl
      | 1 => rfl
      | n + 2 => rfl
    unfold termStep
    rw [hr]
    simp only [Meta.rawStringPair] at hread ⊢
    rw [hp]
    simp only [Meta.rawStringPair]
    rw [hread]
    rfl
  | insens hp hd =>
    refine primary_const fun p st => ?_
    have hr := PTree.rule_of_pair hp
    unfold termStep
    rw [hr]
    simp only [Meta.insensitivePair]
    rw [hp, (string_read hd).2]
    rename_i o
    cases o <;> rfl
  | range hp ha hb =>
    rename_i t a b c d
    refine primary_const fun p st => ?_
    have hr := hp.1
    have hp := hp.same (f := Meta.parseCharRange) fun _ _ _ _ _ => rfl
    unfold termStep
    rw [hr]
    simp only [Meta.rangePair] at hp ⊢
    rw [hp]
    have := range_read ha hb
    simp only [Meta.rangePair] at this
    rw [this]
    cases c <;> cases d <;> rfl
  | path hq =>
    refine primary_const fun p st => ?_
    have := pathNames_trees hq (rest := []) (by intro _ _ h; cases h)
    rw [List.append_nil] at this
    simp only [termStep, PTree.rule_node, parsePath, PTree.inner_node, this]
  | call hq hl _ ih =>
    rename_i x y q args os tr hw
    have he : ∀ a ∈ args, a.rule = .expression := by
      intro a ha
      obtain ⟨i, hi, rfl⟩ := List.getElem_of_mem ha
      have hz : (args[i], os[i]'(by omega)) ∈ args.zip os := by
        have : i < (args.zip os).length := by simp; omega
        have h2 := List.getElem_mem this
        rwa [List.getElem_zip] at h2
      exact (ih _ hz).1
    obtain ⟨N, hN⟩ := uniform (l := args.zip os) (P := fun a n => parseNode ruleOps n a.1 = .ok a.2) fun a ha => (ih a ha).2
    refine ⟨N, fun p hp => prim_single fun st => ?_⟩
    have h1 := callArgs_trees (tr := tr) hl he (hN p hp) (close := tok .closingParen ")") rfl
    have h2 := pathNames_trees hq (rest := [.node .call y
        (tok .openingParen "(" :: (commaTrees tr args ++ [tok .closingParen ")"]))]) (by intro _ _ h; cases h; simp)
    simp only [termStep, PTree.rule_node, parsePath, PTree.inner_node, h2, h1]
    cases allOf os <;> rfl
  | slice hq hp =>
    refine primary_const fun p st => ?_
    rename_i x q t a b
    have hr : t.rule = .slice := hp.1
    have hp := hp.same (f := Meta.parseSlice) fun _ _ _ _ _ => rfl
    have h2 := pathNames_trees hq (rest := [t]) (by intro _ _ h; cases h; rw [hr]; simp)
    simp only [termStep, PTree.rule_node, parsePath, PTree.inner_node, h2, hr, hp, slice_read]
    cases sliceSpec a b <;> rfl

/-! ## Every expression the meta-grammar admits is written somehow -/

/-- What is shown of the parts of the meta-grammar. -/
def HasMeaning (raw : RawMeaning) : ShItem → Prop
  | .expr t => ∃ o, WrittenBy raw (.expr t) o
  | .chain ts => ∃ o, WrittenBy raw (.choices ts) o
  | .term t => ∃ o, WrittenBy raw (.term t) o
  | .node ts => ∃ o, WrittenBy raw (.primary ts) o

theorem choices_cases {raw : RawMeaning} {ts : List PTree} {o : Option Expr} (h : WrittenBy raw (.choices ts) o) :
    WrittenBy raw (.sequence ts) o ∨ ∃ l bar r a b, ts = l ++ bar :: r ∧ WrittenBy raw (.sequence l) a ∧ bar.rule = .choiceOperator ∧
      WrittenBy raw (.choices r) b := by
  cases h with
  | alternative h => exact Or.inl h
  | choice h1 h2 h3 => exact Or.inr ⟨_, _, _, _, _, rfl, h1, h2, h3⟩

theorem shaped_meaning {raw : RawMeaning} {i : ShItem} (h : ShapedBy raw i) : HasMeaning raw i := by
  induction h with
  | plain _ ih => obtain ⟨o, h⟩ := ih; exact ⟨_, .expression h⟩
  | leading hb _ hb' _ ih1 ih2 =>
    obtain ⟨a, h1⟩ := ih1
    obtain ⟨b, h2⟩ := ih2
    exact ⟨_, .leading hb (.choice (.single h1) hb' h2)⟩
  | one _ ih => obtain ⟨o, h⟩ := ih; exact ⟨_, .alternative (.single h)⟩
  | more _ hi _ ih1 ih2 =>
    rename_i t op ts _ _
    obtain ⟨a, h1⟩ := ih1
    obtain ⟨b, h2⟩ := ih2
    have hseq : ∀ {op : PTree}, op.rule = .sequenceOperator ∨ op.rule = .tildeOperator ∨ op.rule = .caretOperator →
        ∃ tr, joins op.rule = some tr := by
      rintro op (h | h | h) <;> rw [h] <;> exact ⟨_, rfl⟩
    by_cases hc : op.rule = .choiceOperator
    case pos => exact ⟨_, .choice (.single h1) hc h2⟩
    obtain ⟨tr, hj⟩ := hseq (by
      rcases hi with h | h | h | h
      · exact Or.inl h
      · exact Or.inr (Or.inl h)
      · exact Or.inr (Or.inr h)
      · exact absurd h hc)
    rcases choices_cases h2 with h2 | ⟨l, bar, r, a', b', rfl, h3, h4, h5⟩
    · exact ⟨_, .alternative (.seq h1 hj h2)⟩
    · exact ⟨_, .choice (.seq h1 hj h3) h4 h5⟩
  | term _ hp ih => obtain ⟨o, h⟩ := ih; exact ⟨_, .term h hp⟩
  | paren _ ih => obtain ⟨o, h⟩ := ih; exact ⟨_, .paren h⟩
  | str hp hd => exact ⟨_, .str hp hd⟩
  | raw hp hn => exact ⟨_, .raw hp hn⟩
  | insens hp hd => exact ⟨_, .insens hp hd⟩
  | range hp ha hb => exact ⟨_, .range hp ha hb⟩
  | path hq => exact ⟨_, .path hq⟩
  | call hq _ ih =>
    rename_i x y q args tr hw
    clear hw
    have : ∃ os : List (Option Expr), args.length = os.length ∧ ∀ p ∈ args.zip os, WrittenBy raw (.expr p.1) p.2 := by
      induction args with
      | nil => exact ⟨[], rfl, by simp⟩
      | cons a args ih2 =>
        obtain ⟨o, ho⟩ := ih a (by simp)
        obtain ⟨os, hl, hos⟩ := ih2 fun x hx => ih x (List.mem_cons_of_mem _ hx)
        refine ⟨o :: os, by simp [hl], ?_⟩
        intro p hp
        rw [List.zip_cons_cons] at hp
        rcases List.mem_cons.1 hp with rfl | hp
        · exact ho
        · exact hos p hp
    obtain ⟨os, hl, hos⟩ := this
    exact ⟨_, .call hq hl hos⟩
  | slice hq hp => exact ⟨_, .slice hq hp⟩

theorem rawPlain_read (n : Nat) (s s' : Text) (h : RawPlain n s s') : RawRead n s s' := by
  obtain ⟨rfl, rfl⟩ := h; rfl

end Pest3.Gen
