import Verif.MetaExprFuel

/-!
# Properties C63, C64: reading expressions, rules and imports of a grammar
-/

namespace Pest3.Props
open Pest3 Pest3.Gen
open Pest3.Meta (MetaRange MetaRule MetaPair)

/-- A pair with the given inside. -/
def ofPair (p : MetaPair) : PTree := .node p.rule p.text (p.inner.map fun c => .node c.1 c.2 [])

theorem ofPair_pair (p : MetaPair) : (ofPair p).pair = p := by
  obtain ⟨r, t, l⟩ := p
  have : ((fun c : PTree => (c.rule, c.text)) ∘ fun c : MetaRule × Text => PTree.node c.1 c.2 []) = id := by
    funext c; rfl
  show MetaPair.mk r t (List.map _ (List.map _ l)) = _
  rw [List.map_map, this, List.map_id]

theorem ofPair_spells (p : MetaPair) : (ofPair p).Spells p := ⟨rfl, by rw [ofPair_pair]⟩

/-! ## C44: slices -/

/-- The slice `[a..b]` is read as the integers written, and reported as an error if one of them does not fit. -/
theorem C44_slice (a b : Option IntLit) :
    Meta.parseSlice (Meta.slicePair (a.map IntLit.text) (b.map IntLit.text)) =
      if fits a ∧ fits b then .ok ⟨a.map IntLit.value, b.map IntLit.value⟩ else .error := by
  have h := slice_read a b
  unfold Gen.sliceSpec at h
  split at h <;> rename_i hf
  · rw [if_pos hf]
    revert h
    cases Meta.parseSlice _ <;> intro h <;> cases h
    rfl
  · rw [if_neg hf]
    revert h
    cases Meta.parseSlice _ <;> intro h <;> cases h
    rfl

example : fits (some (.minus (2 ^ 63))) ∧ ¬ fits (some (.plus (2 ^ 63))) := by
  constructor
  · intro x hx; cases hx; decide
  · intro h; exact absurd (h _ rfl) (by decide)

/-! ## C63: binding of operators -/

/-- An expression as the meta-grammar admits it is read, without panic and in finitely many steps, as exactly what the rules of binding
say. -/
theorem C63_reads {t : PTree} (h : Shaped (.expr t)) (o : Option Expr) :
    (∃ fuel, parseNode ruleOps fuel t = .ok o) ↔ Written (.expr t) o := by
  constructor
  · rintro ⟨n, hn⟩
    obtain ⟨o', ho⟩ := shaped_meaning h
    obtain ⟨_, N, hN⟩ := written_good rawPlain_read ho
    rw [parseNode_agree hn (hN N (Nat.le_refl _))]
    exact ho
  · intro hw
    obtain ⟨_, N, hN⟩ := written_good rawPlain_read hw
    exact ⟨N, hN N (Nat.le_refl _)⟩

/-- It is never a panic, and there is always a result. -/
theorem C63_total {t : PTree} (h : Shaped (.expr t)) :
    (∃ fuel o, parseNode ruleOps fuel t = .ok o) ∧ ∀ fuel, parseNode ruleOps fuel t ≠ .panic := by
  obtain ⟨o', ho⟩ := shaped_meaning h
  obtain ⟨_, N, hN⟩ := written_good rawPlain_read ho
  refine ⟨⟨N, o', hN N (Nat.le_refl _)⟩, fun fuel hp => ?_⟩
  have h1 := parseNode_le ruleOps fuel (fuel + N) (by omega) t
  rw [hp, hN _ (by omega)] at h1
  rcases h1 with h1 | h1 <;> cases h1

/-- The rules of binding are unambiguous. -/
theorem C63_unambiguous {t : PTree} {o o' : Option Expr} (h : Written (.expr t) o) (h' : Written (.expr t) o') : o = o' := by
  obtain ⟨_, N, hN⟩ := written_good rawPlain_read h
  obtain ⟨_, N', hN'⟩ := written_good rawPlain_read h'
  exact parseNode_agree (hN N (Nat.le_refl _)) (hN' N' (Nat.le_refl _))

/-! An example: `| "a" ~ b | !c~+ ^ m::f('x'..'y', d[..-1],)`. -/

section
private def term' (l : List PTree) : PTree := .node .term [] l
private def expr' (l : List PTree) : PTree := .node .expression [] l
private def name' (q : List String) (l : List PTree) : PTree := .node .path [] (pathTrees (q.map String.toList) ++ l)

private def exTree : PTree := expr' [tok .choiceOperator "|",
  term' [ofPair (Meta.stringPair ['a'])], tok .tildeOperator "~", term' [name' ["b"] []],
  tok .choiceOperator "|",
  term' [tok .negativePredicate "!", name' ["c"] [], tok .tildeOperator "~", tok .repeatOnceOperator "+"],
  tok .caretOperator "^",
  term' [name' ["m", "f"] [.node .call [] (tok .openingParen "(" :: (commaTrees true
    [expr' [term' [ofPair (Meta.rangePair ['x'] ['y'])]],
     expr' [term' [name' ["d"] [ofPair (Meta.slicePair none (some "-1".toList))]]]] ++ [tok .closingParen ")"]))]]]

private def exExpr : Expr :=
  .choice (.seq (.str ['a']) (.path [['b']]) .optional)
    (.seq (.neg (.repOnce (.separated (.path [['c']]) .optional)))
      (.call [['m'], ['f']] [.range 'x' 'y', .slice [['d']] ⟨none, some (-1)⟩]) .mandatory)

example : Written (.expr exTree) (some exExpr) := by
  have hx : ∀ c : Char, c ≠ '"' → c ≠ '\\' → CharLit [c] (some c) := fun c h h' => .plain h h'
  have a : Written (.term (term' [ofPair (Meta.stringPair ['a'])])) (some (.str ['a'])) :=
    .term (pres := []) (posts := []) (.str (o := some ['a']) (ofPair_pair _) (.plain (by decide) (by decide) .nil)) .nil
  have b : Written (.term (term' [name' ["b"] []])) (some (.path [['b']])) :=
    .term (pres := []) (posts := []) (.path (q := [['b']]) (by simp)) .nil
  have c : Written (.term (term' [tok .negativePredicate "!", name' ["c"] [], tok .tildeOperator "~", tok .repeatOnceOperator "+"]))
      (some (.neg (.repOnce (.separated (.path [['c']]) .optional)))) :=
    .term (pres := [.neg]) (posts := [⟨some .optional, .plus⟩]) (.path (q := [['c']]) (by simp)) (.cons (by simp) rfl .nil)
  have r : Written (.expr (expr' [term' [ofPair (Meta.rangePair ['x'] ['y'])]])) (some (.range 'x' 'y')) :=
    .expression (.alternative (.single (.term (pres := []) (posts := [])
      (.range (ofPair_spells _) (hx 'x' (by decide) (by decide)) (hx 'y' (by decide) (by decide))) .nil)))
  have dec : "-1".toList = (IntLit.minus 1).text := by simp [IntLit.text, Meta.decimal, Nat.toDigits, Nat.toDigitsCore]
  have fit : Gen.sliceSpec none (some (.minus 1)) = some ⟨none, some (-1)⟩ := by
    unfold Gen.sliceSpec
    rw [if_pos ⟨(by intro x hx; cases hx), (by intro x hx; cases hx; decide)⟩]
    rfl
  have d : Written (.expr (expr' [term' [name' ["d"] [ofPair (Meta.slicePair none (some "-1".toList))]]]))
      (some (.slice [['d']] ⟨none, some (-1)⟩)) := by
    have h := WrittenBy.slice (raw := RawPlain) (x := []) (q := [['d']]) (a := none) (b := some (.minus 1)) (by simp) (ofPair_spells _)
    rw [fit] at h
    rw [dec]
    exact .expression (.alternative (.single (.term (pres := []) (posts := []) h .nil)))
  have f := WrittenBy.call (x := []) (y := []) (q := [['m'], ['f']]) (tr := true) (by simp) (args := [_, _]) (os := [_, _]) rfl
    (by intro p hp; simp at hp; rcases hp with rfl | rfl; exact r; exact d)
  exact .leading rfl (.choice (ts := [_, _, _]) (.seq a rfl (.single b)) rfl (.alternative (.seq c rfl
    (.single (.term (pres := []) (posts := []) f .nil)))))

example : parseNode ruleOps 20 exTree = .ok (some exExpr) := by rfl

/-- Two operators of sequences without anything in between are not an expression. -/
example : parseNode ruleOps 20 (expr' [term' [name' ["b"] []], tok .tildeOperator "~", tok .tildeOperator "~"]) = .panic := by
  rfl
end

section
variable {x : Text} {a b c op op' bar bar' : PTree} {ea eb ec : Expr} {tr tr' : Trivia}

/-- `a | b ~ c` is `a | (b ~ c)`, and `a ~ b | c` is `(a ~ b) | c`, for all operators of sequences. -/
theorem C63_sequence_before_choice (ha : Written (.term a) (some ea)) (hb : Written (.term b) (some eb))
    (hc : Written (.term c) (some ec)) (ho : joins op.rule = some tr) (hbar : bar.rule = .choiceOperator) :
    (∃ n, parseNode ruleOps n (.node .expression x [a, bar, b, op, c]) = .ok (some (.choice ea (.seq eb ec tr)))) ∧
    ∃ n, parseNode ruleOps n (.node .expression x [a, op, b, bar, c]) = .ok (some (.choice (.seq ea eb tr) ec)) := by
  have h1 : Written (.expr (.node .expression x [a, bar, b, op, c])) (some (.choice ea (.seq eb ec tr))) :=
    .expression (.choice (ts := [a]) (.single ha) hbar (.alternative (.seq hb ho (.single hc))))
  have h2 : Written (.expr (.node .expression x [a, op, b, bar, c])) (some (.choice (.seq ea eb tr) ec)) :=
    .expression (.choice (ts := [a, op, b]) (.seq ha ho (.single hb)) hbar (.alternative (.single hc)))
  obtain ⟨_, N, hN⟩ := written_good rawPlain_read h1
  obtain ⟨_, M, hM⟩ := written_good rawPlain_read h2
  exact ⟨⟨N, hN N (Nat.le_refl _)⟩, ⟨M, hM M (Nat.le_refl _)⟩⟩

/-- The operators of sequences bind alike and group to the right, and so do bars. -/
theorem C63_to_the_right (ha : Written (.term a) (some ea)) (hb : Written (.term b) (some eb))
    (hc : Written (.term c) (some ec)) (ho : joins op.rule = some tr) (ho' : joins op'.rule = some tr')
    (hbar : bar.rule = .choiceOperator) (hbar' : bar'.rule = .choiceOperator) :
    (∃ n, parseNode ruleOps n (.node .expression x [a, op, b, op', c]) = .ok (some (.seq ea (.seq eb ec tr') tr))) ∧
    ∃ n, parseNode ruleOps n (.node .expression x [a, bar, b, bar', c]) = .ok (some (.choice ea (.choice eb ec))) := by
  have h1 : Written (.expr (.node .expression x [a, op, b, op', c])) (some (.seq ea (.seq eb ec tr') tr)) :=
    .expression (.alternative (.seq ha ho (.seq hb ho' (.single hc))))
  have h2 : Written (.expr (.node .expression x [a, bar, b, bar', c])) (some (.choice ea (.choice eb ec))) :=
    .expression (.choice (ts := [a]) (.single ha) hbar (.choice (ts := [b]) (.single hb) hbar' (.alternative (.single hc))))
  obtain ⟨_, N, hN⟩ := written_good rawPlain_read h1
  obtain ⟨_, M, hM⟩ := written_good rawPlain_read h2
  exact ⟨⟨N, hN N (Nat.le_refl _)⟩, ⟨M, hM M (Nat.le_refl _)⟩⟩

end

/-! ## C64: every expression has a notation; rules; imports -/

theorem denotes_unicode (t : Text) : Meta.Denotes (t.flatMap unicodeEscape) (some t) := by
  induction t with
  | nil => exact .nil
  | cons c cs ih =>
    have h := unicodeEscape_spec c
    have := Meta.Denotes.escape h.1 ih
    rw [h.2] at this
    simpa using this

theorem charLit_unicode (c : Char) : CharLit (unicodeEscape c) (some c) := by
  have h := unicodeEscape_spec c
  have := CharLit.escape h.1
  rwa [h.2] at this

/-- The notation for an integer. -/
def intLit (i : Int) : IntLit := if i < 0 then .minus i.natAbs else .plain i.natAbs

theorem intLit_value (i : Int) : (intLit i).value = i := by
  unfold intLit
  split
  · show -((i.natAbs : Nat) : Int) = i; omega
  · show ((i.natAbs : Nat) : Int) = i; omega

/-- An expression as a term by itself. -/
theorem as_term {prim : List PTree} {e : Expr} (h : Written (.primary prim) (some e)) (pres : List Pre) (posts : List Post)
    {ts : List PTree} (hp : PostTrees posts ts) {e' : Expr} (ha : applyPosts posts e = some e') :
    ∃ t, Written (.expr t) (some (applyPres pres e')) := by
  have := WrittenBy.term (x := []) (pres := pres) h hp
  simp only [Option.bind_some, ha, Option.map_some] at this
  exact ⟨_, .expression (x := []) (.alternative (.single this))⟩

theorem alone {prim : List PTree} {e : Expr} (h : Written (.primary prim) (some e)) : ∃ t, Written (.expr t) (some e) :=
  as_term h [] [] .nil rfl

theorem post_tree (op : PostOp) : ∃ t, op.IsTree t := by
  cases op with
  | opt => exact ⟨_, rfl⟩
  | star => exact ⟨_, rfl⟩
  | plus => exact ⟨_, rfl⟩
  | bounds a b => exact ⟨_, ofPair_spells _⟩
  | exact n => exact ⟨_, ofPair_spells _⟩

theorem with_post {t : PTree} {e e' : Expr} (h : Written (.expr t) (some e)) (p : Post) (hs : p.sep ≠ some .none)
    (ha : p.apply e = some e') : ∃ t, Written (.expr t) (some e') := by
  obtain ⟨u, hu⟩ := post_tree p.op
  exact as_term (.paren h) [] [p] (.cons hs hu .nil) (by simp [applyPosts, ha])

theorem binary {a b : PTree} {ea eb : Expr} (ha : Written (.expr a) (some ea)) (hb : Written (.expr b) (some eb)) :
    ∃ s t, Written (.term s) (some ea) ∧ Written (.term t) (some eb) := by
  have h1 := WrittenBy.term (x := []) (pres := []) (.paren ha) .nil
  have h2 := WrittenBy.term (x := []) (pres := []) (.paren hb) .nil
  exact ⟨_, _, h1, h2⟩

theorem writable_written {e : Expr} (h : Writable e) : ∃ t, Written (.expr t) (some e) := by
  induction h with
  | str s => exact alone (.str (ofPair_pair _) (denotes_unicode s))
  | insens s => exact alone (.insens (ofPair_pair _) (denotes_unicode s))
  | range a b => exact alone (.range (ofPair_spells _) (charLit_unicode a) (charLit_unicode b))
  | path hq => exact alone (.path (x := []) hq)
  | call hq _ ih =>
    rename_i q args hw
    clear hw
    have : ∃ ts : List PTree, ts.length = (args.map some).length ∧ ∀ p ∈ ts.zip (args.map some), Written (.expr p.1) p.2 := by
      induction args with
      | nil => exact ⟨[], rfl, by simp⟩
      | cons a args ih2 =>
        obtain ⟨t, ht⟩ := ih a (by simp)
        obtain ⟨ts, hl, hts⟩ := ih2 fun x hx => ih x (List.mem_cons_of_mem _ hx)
        refine ⟨t :: ts, by simpa using hl, ?_⟩
        intro p hp
        rw [List.map_cons, List.zip_cons_cons] at hp
        rcases List.mem_cons.1 hp with rfl | hp
        · exact ht
        · exact hts p hp
    obtain ⟨ts, hl, hts⟩ := this
    have hall : ∀ l : List Expr, allOf (l.map some) = some l := by
      intro l; induction l with
      | nil => rfl
      | cons a l ih => simp [allOf, ih]
    have := WrittenBy.call (x := []) (y := []) (tr := false) hq hl hts
    rw [hall] at this
    exact alone this
  | slice hq h1 h2 =>
    rename_i q r
    have := WrittenBy.slice (raw := RawPlain) (x := []) hq (ofPair_spells (Meta.slicePair ((r.start.map intLit).map IntLit.text)
      ((r.stop.map intLit).map IntLit.text)))
    have hf : ∀ o : Option Int, (∀ x ∈ o, -2 ^ 63 ≤ x ∧ x < 2 ^ 63) → fits (o.map intLit) := by
      intro o ho x hx
      obtain ⟨y, hy, rfl⟩ := Option.map_eq_some_iff.mp hx
      rw [intLit_value]; exact ho y hy
    have hv : ∀ o : Option Int, (o.map intLit).map IntLit.value = o := by
      intro o; cases o <;> simp [intLit_value]
    have hs : Gen.sliceSpec (r.start.map intLit) (r.stop.map intLit) = some r := by
      unfold Gen.sliceSpec
      rw [if_pos ⟨hf _ h1, hf _ h2⟩, hv, hv]
    rw [hs] at this
    exact alone this
  | pos _ ih => obtain ⟨t, ht⟩ := ih; exact as_term (.paren ht) [.pos] [] .nil rfl
  | neg _ ih => obtain ⟨t, ht⟩ := ih; exact as_term (.paren ht) [.neg] [] .nil rfl
  | seq _ _ ih1 ih2 =>
    rename_i l r tr _ _
    obtain ⟨a, ha⟩ := ih1
    obtain ⟨b, hb⟩ := ih2
    obtain ⟨s, t, hs, ht⟩ := binary ha hb
    have : ∃ op : PTree, joins op.rule = some tr := by
      cases tr
      · exact ⟨tok .sequenceOperator "-", rfl⟩
      · exact ⟨tok .tildeOperator "~", rfl⟩
      · exact ⟨tok .caretOperator "^", rfl⟩
    obtain ⟨op, hop⟩ := this
    exact ⟨_, .expression (x := []) (.alternative (.seq hs hop (.single ht)))⟩
  | choice _ _ ih1 ih2 =>
    obtain ⟨a, ha⟩ := ih1
    obtain ⟨b, hb⟩ := ih2
    obtain ⟨s, t, hs, ht⟩ := binary ha hb
    exact ⟨_, .expression (x := []) (.choice (.single hs) (bar := tok .choiceOperator "|") rfl (.alternative (.single ht)))⟩
  | opt _ ih => obtain ⟨t, ht⟩ := ih; exact with_post ht ⟨none, .opt⟩ (by simp) rfl
  | optSep _ hn ih => obtain ⟨t, ht⟩ := ih; exact with_post ht ⟨some _, .opt⟩ (by simpa using hn) rfl
  | rep _ ih => obtain ⟨t, ht⟩ := ih; exact with_post ht ⟨none, .star⟩ (by simp) rfl
  | repSep _ hn ih => obtain ⟨t, ht⟩ := ih; exact with_post ht ⟨some _, .star⟩ (by simpa using hn) rfl
  | repOnce _ ih => obtain ⟨t, ht⟩ := ih; exact with_post ht ⟨none, .plus⟩ (by simp) rfl
  | repOnceSep _ hn ih => obtain ⟨t, ht⟩ := ih; exact with_post ht ⟨some _, .plus⟩ (by simpa using hn) rfl
  | repRange _ hb ih =>
    rename_i r _
    obtain ⟨t, ht⟩ := ih
    exact with_post ht ⟨none, .bounds r.start r.stop⟩ (by simp) (by simp only [Post.apply, hb]; rfl)
  | repRangeSep _ hn hb ih =>
    rename_i r _
    obtain ⟨t, ht⟩ := ih
    exact with_post ht ⟨some _, .bounds r.start r.stop⟩ (by simpa using hn) (by simp only [Post.apply, hb]; rfl)

/-- Every expression can be written: some text of the grammar is read as it. -/
theorem C64_every_expression {e : Expr} (h : Writable e) :
    ∃ t, Written (.expr t) (some e) ∧ ∃ fuel, parseNode ruleOps fuel t = .ok (some e) := by
  obtain ⟨t, ht⟩ := writable_written h
  obtain ⟨_, N, hN⟩ := written_good rawPlain_read ht
  exact ⟨t, ht, N, hN N (Nat.le_refl _)⟩

theorem Post.writable {p : Post} {e e' : Expr} (hs : p.sep ≠ some .none) (he : Writable e) (h : p.apply e = some e') :
    Writable e' := by
  have hb : ∀ {a b r}, boundsSpec a b = some r → boundsSpec r.start r.stop = some r := by
    intro a b r h
    have h' := h
    unfold boundsSpec at h
    split at h
    · cases h; exact h'
    · cases h
  obtain ⟨sep, op⟩ := p
  cases sep with
  | none =>
    cases op with
    | opt => cases h; exact .opt he
    | star => cases h; exact .rep he
    | plus => cases h; exact .repOnce he
    | bounds a b =>
      obtain ⟨r, hr, rfl⟩ := Option.map_eq_some_iff.mp h
      exact .repRange he (hb hr)
    | exact n =>
      obtain ⟨r, hr, rfl⟩ := Option.map_eq_some_iff.mp h
      exact .repRange he (hb hr)
  | some t =>
    have ht : t ≠ .none := fun h => hs (by rw [h])
    cases op with
    | opt => cases h; exact .optSep he ht
    | star => cases h; exact .repSep he ht
    | plus => cases h; exact .repOnceSep he ht
    | bounds a b =>
      obtain ⟨r, hr, rfl⟩ := Option.map_eq_some_iff.mp h
      exact .repRangeSep he ht (hb hr)
    | exact n =>
      obtain ⟨r, hr, rfl⟩ := Option.map_eq_some_iff.mp h
      exact .repRangeSep he ht (hb hr)

theorem posts_writable {ps : List Post} {ts : List PTree} (hp : PostTrees ps ts) :
    ∀ {e e' : Expr}, Writable e → applyPosts ps e = some e' → Writable e' := by
  induction hp with
  | nil => intro e e' he h; cases h; exact he
  | cons hs _ _ ih =>
    intro e e' he h
    obtain ⟨e1, h1, h2⟩ := Option.bind_eq_some_iff.mp h
    exact ih (Post.writable hs he h1) h2

theorem pres_writable (ps : List Pre) {e : Expr} (he : Writable e) : Writable (applyPres ps e) := by
  induction ps with
  | nil => exact he
  | cons p ps ih => 
    cases p
    · exact .pos ih
    · exact .neg ih

theorem allOf_mem {os : List (Option Expr)} {es : List Expr} (h : allOf os = some es) : os = es.map some := by
  induction os generalizing es with
  | nil => cases h; rfl
  | cons o os ih =>
    obtain ⟨e, rfl, h⟩ := Option.bind_eq_some_iff.mp h
    obtain ⟨l, hl, rfl⟩ := Option.map_eq_some_iff.mp h
    rw [ih hl, List.map_cons]

theorem written_writable {raw : RawMeaning} {i : WItem} {o : Option Expr} (h : WrittenBy raw i o) : ∀ e, o = some e → Writable e := by
  induction h with
  | expression _ ih => exact ih
  | leading _ _ ih => exact ih
  | alternative _ ih => exact ih
  | single _ ih => exact ih
  | paren _ ih => exact ih
  | choice _ _ _ ih1 ih2 =>
    intro e h
    obtain ⟨a, ha, h⟩ := Option.bind_eq_some_iff.mp h
    obtain ⟨b, hb, rfl⟩ := Option.map_eq_some_iff.mp h
    exact .choice (ih1 a ha) (ih2 b hb)
  | seq _ _ _ ih1 ih2 =>
    intro e h
    obtain ⟨a, ha, h⟩ := Option.bind_eq_some_iff.mp h
    obtain ⟨b, hb, rfl⟩ := Option.map_eq_some_iff.mp h
    exact .seq (ih1 a ha) (ih2 b hb)
  | term _ hp ih =>
    intro e h
    obtain ⟨a, ha, h⟩ := Option.bind_eq_some_iff.mp h
    obtain ⟨b, hb, rfl⟩ := Option.map_eq_some_iff.mp h
    exact pres_writable _ (posts_writable hp (ih a ha) hb)
  | str => intro e h; obtain ⟨a, _, rfl⟩ := Option.map_eq_some_iff.mp h; exact .str _
  | raw => intro e h; cases h; exact .str _
  | insens => intro e h; obtain ⟨a, _, rfl⟩ := Option.map_eq_some_iff.mp h; exact .insens _
  | range =>
    intro e h
    obtain ⟨a, ha, h⟩ := Option.bind_eq_some_iff.mp h
    obtain ⟨b, hb, rfl⟩ := Option.map_eq_some_iff.mp h
    exact .range _ _
  | path hq => intro e h; cases h; exact .path hq
  | call hq hl _ ih =>
    rename_i args os tr _
    intro e h
    obtain ⟨es, hes, rfl⟩ := Option.map_eq_some_iff.mp h
    refine .call hq fun a ha => ?_
    have := allOf_mem hes
    subst this
    obtain ⟨k, hk, rfl⟩ := List.getElem_of_mem ha
    have hk' : k < args.length := by rw [hl]; simpa using hk
    refine ih (args[k], some es[k]) ?_ _ rfl
    rw [List.mem_iff_getElem]
    exact ⟨k, by simp; omega, by simp⟩
  | slice hq _ =>
    rename_i a b _
    intro e h
    obtain ⟨r, hr, rfl⟩ := Option.map_eq_some_iff.mp h
    unfold Gen.sliceSpec at hr
    split at hr
    · rename_i hf
      cases hr
      refine .slice hq ?_ ?_ <;> intro y hy <;> obtain ⟨z, hz, rfl⟩ := Option.map_eq_some_iff.mp hy
      · exact hf.1 z hz
      · exact hf.2 z hz
    · cases hr

/-- Nothing else is ever read. -/
theorem C64_no_other {t : PTree} {e : Expr} {fuel : Nat} (h : Shaped (.expr t)) (hr : parseNode ruleOps fuel t = .ok (some e)) :
    Writable e :=
  written_writable ((C63_reads h _).mp ⟨fuel, hr⟩) e rfl

/-- A repetition of a repetition with trivia, in a choice. -/
example : Writable (.choice (.repRange (.separated (.rep (.str ['"', 'é'])) .mandatory) ⟨some 2, none⟩) (.insens [])) :=
  .choice (.repRangeSep (.rep (.str _)) (by simp) (by decide)) (.insens _)

/-- A bare separator has no notation. -/
example (e : Expr) (t : Trivia) : ¬ Writable (.separated e t) := by intro h; cases h

theorem dropDocs_docs {docs rest : List PTree} (h : ∀ d ∈ docs, d.rule = .ruleDoc) :
    dropDocs (docs ++ rest) = dropDocs rest := by
  induction docs with
  | nil => rfl
  | cons d docs ih =>
    rw [List.cons_append, dropDocs, if_pos (h d (by simp)), ih fun x hx => h x (List.mem_cons_of_mem _ hx)]

theorem params_read (tr : Bool) (l : List Name) :
    ((tok .openingParen "(" :: (commaTrees tr (l.map fun p => .node .identifier p []) ++ [tok .closingParen ")"])).filter
      fun p => p.rule = .identifier).map PTree.text = l := by
  have : ∀ l : List Name, ((commaTrees tr (l.map fun p => .node .identifier p [])).filter
      fun p => p.rule = .identifier).map PTree.text = l := by
    intro l
    induction l with
    | nil => rfl
    | cons x l ih =>
      cases l with
      | nil => cases tr <;> simp [commaTrees]
      | cons y l => simp only [List.map_cons, commaTrees] at ih ⊢; simpa using ih
  simp [List.filter_append, this l]

theorem rule_read {raw : RawMeaning} (hraw : ∀ n s s', raw n s s' → RawRead n s s') {t e : PTree} {name : Name} {params : List Name}
    {silent : Bool} {o : Option Expr} (h : RuleShaped t name params silent e) (he : WrittenBy raw (.expr e) o) :
    ∃ N, ∀ fuel, N ≤ fuel → parseRule fuel t = .ok (o.map fun e => ⟨name, params, e, silent⟩) := by
  obtain ⟨_, N, hN⟩ := written_good hraw he
  refine ⟨N, fun n hn => ?_⟩
  have hn := hN n hn
  cases h with
  | mk hd hname hp her hb =>
    rename_i x docs nameRule ps body psl tr
    have hdoc : nameRule ≠ .ruleDoc := by rcases hname with rfl | rfl | rfl <;> simp
    have tail : ∀ rest : List PTree, rest = (if silent then [tok MetaRule.silentModifier "_"] else []) ++ body →
        (match rest with
          | [] => Res.panic
          | m :: _ =>
            let silent := decide (PTree.rule m = MetaRule.silentModifier)
            let rest := if silent then rest.tail else rest
            match skip .openingBrace rest with
            | e :: _ => tryThen (parseNode ruleOps n e) fun e => .ok (some (Rule.mk name (psl.getD []) e silent))
            | [] => .panic) = .ok (o.map fun e => ⟨name, psl.getD [], e, silent⟩) := by
      intro rest hr
      subst hr
      have fin : tryThen (parseNode ruleOps n e) (fun e => .ok (some (Rule.mk name (psl.getD []) e silent))) =
          .ok (o.map fun e => ⟨name, psl.getD [], e, silent⟩) := by
        rw [hn]; cases o <;> rfl
      cases silent <;> rcases hb with rfl | rfl <;> simpa [skip, her] using fin
    unfold parseRule
    simp only [PTree.inner_node, dropDocs_docs hd]
    rw [dropDocs, if_neg (by simpa using hdoc)]
    cases psl with
    | none =>
      subst hp
      simp only [List.nil_append]
      have hs : skip .assignmentOperator ((if silent then [tok .silentModifier "_"] else []) ++ body) =
          (if silent then [tok .silentModifier "_"] else []) ++ body := by
        cases silent <;> rcases hb with rfl | rfl <;> simp [skip, her]
      rw [hs]
      exact tail _ rfl
    | some l =>
      subst hp
      simp only [List.cons_append, List.nil_append, PTree.inner_node, params_read]
      have hs : skip .assignmentOperator (tok .assignmentOperator "=" :: ((if silent then [tok .silentModifier "_"] else []) ++ body)) =
          (if silent then [tok .silentModifier "_"] else []) ++ body := by simp [skip]
      rw [hs]
      exact tail _ rfl

/-- A rule is read with the name, the parameters, the silence and the expression as written, with or without braces and
documentation. -/
theorem C64_rule {t e : PTree} {name : Name} {params : List Name} {silent : Bool} {o : Option Expr}
    (h : RuleShaped t name params silent e) (he : Written (.expr e) o) :
    ∃ N, ∀ fuel, N ≤ fuel → parseRule fuel t = .ok (o.map fun e => ⟨name, params, e, silent⟩) :=
  rule_read rawPlain_read h he

/-- `/// …` `f(a, b,) = _{ a ~ b }`. -/
example : ∃ N, ∀ fuel, N ≤ fuel → parseRule fuel (.node .grammarRule [] [tok .ruleDoc "/// …", tok .identifier "f",
    .node .arguments [] [tok .openingParen "(", tok .identifier "a", tok .comma ",", tok .identifier "b", tok .comma ",",
      tok .closingParen ")"], tok .assignmentOperator "=", tok .silentModifier "_", tok .openingBrace "{",
    expr' [term' [name' ["a"] []], tok .tildeOperator "~", term' [name' ["b"] []]], tok .closingBrace "}"]) =
    .ok (some ⟨['f'], [['a'], ['b']], .seq (.path [['a']]) (.path [['b']]) .optional, true⟩) := by
  have n : ∀ x : String, Written (.term (term' [name' [x] []])) (some (.path [x.toList])) := fun x =>
    .term (pres := []) (posts := []) (.path (q := [x.toList]) (by simp)) .nil
  exact C64_rule (.mk (x := []) (docs := [tok .ruleDoc "/// …"]) (ps := some [['a'], ['b']]) (tr := true) (silent := true)
    (nameRule := .identifier) (name := ['f']) (by intro d hd; simp at hd; subst hd; rfl) (.inl rfl) rfl rfl (.inr rfl))
    (.expression (.alternative (.seq (n "a") rfl (.single (n "b")))))

/-- An import is read with the path, the file and the other name as written; a literal that stands for nothing is an error. -/
theorem C64_import {t : PTree} {q : List Name} {file : Option Text} {alias : Option Name} {content : Text → Option Text}
    (h : ImportShaped t q file alias) (hc : ∀ s ∈ file, Meta.Denotes s (content s)) (fuel : Nat) :
    parseImport fuel t = .ok (match file with
      | none => some ⟨q, none, alias⟩
      | some s => (content s).map fun s => ⟨q, some s, alias⟩) := by
  cases h with
  | mk hq hf =>
    rename_i x y file
    have hp := pathNames_trees hq (rest := []) (by intro _ _ h; cases h)
    rw [List.append_nil] at hp
    have h1 : parsePath (parseNode noOps fuel) (.node .path y (pathTrees q)) = .ok (some (.path q)) := by
      simp only [parsePath, PTree.inner_node, hp]
    unfold parseImport
    simp only [PTree.inner_node, h1, tryThen_some]
    cases file with
    | none => cases alias <;> simp [importLoop, tryThen_some]
    | some f =>
      obtain ⟨f, s⟩ := f
      have hf := hf _ rfl
      have hr : f.rule = .string := PTree.rule_of_pair hf
      have hd := C41_import_path s _ (hc s rfl)
      simp only at hf
      have h2 : ofMeta (Meta.stringContent f.pair) = .ok (content s) := by
        rw [hf, hd]; cases content s <;> rfl
      cases hcs : content s with
      | none =>
        rw [hcs] at h2
        cases alias <;> simp [importLoop, hr, h2, tryThen_none, hcs]
      | some c =>
        rw [hcs] at h2
        cases alias <;> simp [importLoop, hr, h2, tryThen_some, hcs]

/-- `use a::b in "c" as d`. -/
example (fuel : Nat) : parseImport fuel (.node .import [] [.node .path [] (pathTrees [['a'], ['b']]), ofPair (Meta.stringPair ['c']),
    tok .identifier "d"]) = .ok (some ⟨[['a'], ['b']], some ['c'], some ['d']⟩) :=
  C64_import (content := some) (.mk (x := []) (y := []) (q := [['a'], ['b']]) (file := some (ofPair (Meta.stringPair ['c']), ['c']))
    (alias := some ['d']) (by simp) (by intro f hf; cases hf; exact ofPair_pair _))
    (by intro s hs; cases hs; exact .plain (by decide) (by decide) .nil) fuel

end Pest3.Props
