import Verif.FirstLemmas
import Verif.Props.Rewriting
import Verif.Props.LeftRecursion

/-!
# C85: alternatives that begin differently can be written in any order
-/

namespace Pest3.Props
open Pest3 Pest3.Gen Pest3.Load

section
variable {u : Unicode} {root : Module}

/-- A match takes nothing, or begins with a character, as the expression may begin. -/
theorem C85_first {a : Clo} {c c' : Cfg} (h : Meaning u root (.expr a) c (some c')) :
    (c'.suf = c.suf ∧ Begins u root (.expr a) (.skips c.suf.head?)) ∨ ∃ x m, c.suf = x :: m ++ c'.suf ∧ Begins u root (.expr a) (.takes x) := by
  obtain ⟨m, k1, k2⟩ := h.begins _ rfl
  cases m with
  | nil => exact .inl ⟨k1.symm, k2⟩
  | cons x m => exact .inr ⟨x, m, k1, k2⟩

/-- So nothing matches in front of a character, or at the end of the text, if it may not begin like that. -/
theorem C85_reject {a : Clo} {c : Cfg} (h : ∀ f, Begins u root (.expr a) f → f.next ≠ c.suf.head?) (c' : Cfg) : ¬ Meaning u root (.expr a) c (some c') := by
  intro hm
  obtain ⟨m, k1, k2⟩ := hm.begins _ rfl
  exact h _ k2 (firstOf_next k1)

/-- Of expressions that begin differently, at most one matches at a place. -/
theorem C85_apart {p ps : List Name} {a b : Expr} (h : BeginApart u root p ps a b) {ρ : List (Name × Clo)} (hρ : ρ.map Prod.fst = ps) (c c' c'' : Cfg) :
    ¬ (Meaning u root (.expr (.mk p ρ a)) c (some c') ∧ Meaning u root (.expr (.mk p ρ b)) c (some c'')) := fun hm => h.sound hρ hm.1 c'' hm.2

/-- Alternatives that begin differently, and return, can be written in any order, and be grouped in any way. -/
theorem C85_reorder {p ps : List Name} {e e' : Expr} (h : (alternatives e).Perm (alternatives e')) (hp : (alternatives e).Pairwise (BeginApart u root p ps))
    (hr : ∀ a ∈ alternatives e, AlwaysReturns u root p ps a) : SameAt u root p ps e e' := sameAt_reorder h hp hr

/-- All expressions in rules without parameters return if the grammar is not left recursive. -/
theorem C85_returns {g : Assumed} (hn : AllNamed u root) (hsc : AllScoped u root) (hg : NotLeftRecursive u root g) {p : List Name} {m : Module} {r : Rule}
    (hm : modAt root p = some m) (hr : r ∈ m.rules) (ha : r.args = []) {a : Expr} (hs : Sub a r.node) : AlwaysReturns u root p [] a := returns_of hn hsc hg hm hr ha hs

end

private theorem reorders_same {u : Unicode} {root root' : Module} (hn : AllNamed u root) (hn' : AllNamed u root') (hsc : AllScoped u root) (hsc' : AllScoped u root')
    {g g' : Assumed} (hg : NotLeftRecursive u root g) (hg' : NotLeftRecursive u root' g') (h : Reorders u root root') :
    Alike (fun p ps e e' => SameAt u root p ps e e' ∧ SameAt u root' p ps e e') [] root root' := by
  refine (h.located hn hn' rfl rfl).mono fun p ps e e' hE => ?_
  obtain ⟨hE, ⟨m, r, h1, h2, rfl, rfl⟩, ⟨m', r', h1', h2', h3', rfl⟩⟩ := hE
  refine ⟨hE.subs.sameAt fun a a' hp hD => ?_, hE.subs.sameAt fun a a' hp hD => ?_⟩
  · obtain ⟨⟨k1, k2⟩, k3⟩ := hD
    rw [k1]
    exact C85_reorder hp (k2.imp fun h => h.1) fun b hb => C85_returns hn hsc hg h1 h2 k1 (k3 b hb).1
  · obtain ⟨⟨k1, k2⟩, k3⟩ := hD
    rw [k1]
    exact C85_reorder hp (k2.imp fun h => h.2) fun b hb => C85_returns hn' hsc' hg' h1' h2' (h3'.trans k1) (k3 b hb).2

/-- In a grammar that is not left recursive, such alternatives can be reordered anywhere, in any number of rules at once: everything still matches the same with the same tokens. -/
theorem C85_grammar {u : Unicode} {root root' : Module} (hn : AllNamed u root) (hn' : AllNamed u root') (hsc : AllScoped u root) (hsc' : AllScoped u root')
    {g g' : Assumed} (hg : NotLeftRecursive u root g) (hg' : NotLeftRecursive u root' g') (h : Reorders u root root') (p : List Name) (ρ : List (Name × Clo)) (e : Expr) (c : Cfg) :
    (∀ o, Meaning u root (.expr (.mk p ρ e)) c o ↔ Meaning u root' (.expr (.mk p ρ e)) c o) ∧
    ∀ c' F, Shows u root (.expr (.mk p ρ e)) c c' F ↔ Shows u root' (.expr (.mk p ρ e)) c c' F :=
  ⟨C79_grammar (reorders_same hn hn' hsc hsc' hg hg' h) (fun _ _ _ _ k => ⟨k.1.1, k.2.1⟩) p ρ e c,
    C79_tokens (reorders_same hn hn' hsc hsc' hg hg' h) (fun _ _ _ _ k => k) p ρ e c⟩

/-- The parsers generated from both grammars accept and reject the same texts, and their rules have the same tokens. -/
theorem C85_parser {S : Type} {so : StackOps S} {saved : S → List (List Span)} (hls : Lawful so saved) {env env' : Setting} {attrs attrs' : List Attr} {ms ms' : List Module}
    {table : Name → Char → Bool} {fuel fuel' : Nat} {d d' : Derived} (h : derive env fuel attrs = .ok d) (h' : derive env' fuel' attrs' = .ok d')
    (hm : Modules env (attrs.filterMap sourceOf) ms) (hm' : Modules env' (attrs'.filterMap sourceOf) ms') (hu : env'.unicodeNames = env.unicodeNames)
    (hs : ∀ x, ¬ SilentName (united ms) x) (hs' : ∀ x, ¬ SilentName (united ms') x) (hn : AllNamed (unicodeOf env.unicodeNames table) (united ms))
    (hn' : AllNamed (unicodeOf env.unicodeNames table) (united ms'))
    {g g' : Assumed} (hg : NotLeftRecursive (unicodeOf env.unicodeNames table) (united ms) g) (hg' : NotLeftRecursive (unicodeOf env.unicodeNames table) (united ms') g')
    (ha : Reorders (unicodeOf env.unicodeNames table) (united ms) (united ms'))
    {R R' : Layout} {e e' : Env} {lab lab' : RuleId → RuleVal}
    (hl : Linked (unicodeOf env.unicodeNames table) d.code.1 d.code.2.wrappers R e) (hlab : Labelled d.code.1 R e lab)
    (hl' : Linked (unicodeOf env.unicodeNames table) d'.code.1 d'.code.2.wrappers R' e') (hlab' : Labelled d'.code.1 R' e' lab')
    {p : List Name} {m : Module} {r : Rule} (hp : modAt (united ms) p = some m) (hr : r ∈ m.rules) (ho : r.name ≠ optName) (hman : r.name ≠ manName) (hargs : r.args = []) (inp : Str) :
    let parser := fun n => tryParse so e n (.rule (R.num p r.name [])) inp
    let parser' := fun n => tryParse so e' n (.rule (R'.num p r.name [])) inp
    ((∃ n t, parser n = .ok (.ok t)) ↔ ∃ n t, parser' n = .ok (.ok t)) ∧
    ((∃ n trk, parser n = .ok (.error trk)) ↔ ∃ n trk, parser' n = .ok (.error trk)) ∧
    (r.silent = false → ∀ P, (∃ n t, parser n = .ok (.ok t) ∧ t.asPairTree e lab = some P) ↔ ∃ n t, parser' n = .ok (.ok t) ∧ t.asPairTree e' lab' = some P) := by
  have hsc : AllScoped (unicodeOf env.unicodeNames table) (united ms) := ((C75_accepted hm hs hn).mp ⟨fuel, d, h⟩).2.2
  have hsc' : AllScoped (unicodeOf env.unicodeNames table) (united ms') := by
    have := ((C75_accepted (table := table) hm' hs' (by rw [hu]; exact hn')).mp ⟨fuel', d', h'⟩).2.2
    rwa [hu] at this
  have := C79_parser hls h h' hm hm' hu hs hs' hn hn' (reorders_same hn hn' hsc hsc' hg hg' ha) (fun _ _ _ _ k => ⟨k.1.1, k.2.1⟩) hl hlab hl' hlab' hp hr ho hman hargs inp
  exact ⟨this.1, this.2.1, fun hsil => this.2.2.2 hsil fun _ _ _ _ k => k⟩

/-! ## Why the hypotheses are needed -/

private def noUnis : Unicode := unicodeOf [] fun _ _ => false

private theorem lit_ok (u : Unicode) (root : Module) (p : List Name) (ρ : List (Name × Clo)) (x : Char) (pre suf : Text) (stk : List Text) :
    Meaning u root (.expr (.mk p ρ (.str [x]))) ⟨pre, x :: suf, stk⟩ (some ⟨pre ++ [x], suf, stk⟩) :=
  .literalOk (l := .str [x]) (m := [x]) (rest := suf) rfl (by simp [leafSpec, eatText]) rfl

private def selfRule : Rule := ⟨['a'], [], .path [['a']], false⟩
private def selfRoot : Module := .mk [selfRule] []
private theorem self_target : target noUnis selfRoot [] [['a']] = some (.rule [] selfRule) := rfl

private theorem self_never {it : SItem} {c : Cfg} {o : Option Cfg} (h : Meaning noUnis selfRoot it c o) : it ≠ .expr (.mk [] [] (.path [['a']])) := by
  induction h with
  | rule h1 h2 h3 _ ih =>
    intro e
    cases e
    rw [self_target] at h2
    cases h2
    exact ih rfl
  | literalOk h1 => intro e; cases e; cases h1
  | literalFail h1 => intro e; cases e; cases h1
  | builtinOk h1 _ h2 => intro e; cases e; cases h1; rw [self_target] at h2; cases h2
  | builtinFail h1 _ h2 => intro e; cases e; cases h1; rw [self_target] at h2; cases h2
  | param h1 => intro e; cases e; cases h1
  | rep h1 => intro e; cases e; cases h1
  | _ => intro e; cases e

private theorem self_begins {it : SItem} {f : First} (h : Begins noUnis selfRoot it f) : it ≠ .expr (.mk [] [] (.path [['a']])) := by
  induction h with
  | rule h1 h2 _ ih =>
    intro e
    cases e
    rw [self_target] at h2
    cases h2
    exact ih rfl
  | literal h1 => intro e; cases e; cases h1
  | builtin h1 _ h2 => intro e; cases e; cases h1; rw [self_target] at h2; cases h2
  | param h1 => intro e; cases e; cases h1
  | rep h1 => intro e; cases e; cases h1
  | repTrivia h1 => intro e; cases e; cases h1
  | repNone h1 => intro e; cases e; cases h1
  | _ => intro e; cases e

/-- The alternatives have to return: with `a = a`, which begins with nothing, `a | "b"` runs forever where `"b" | a` matches. -/
theorem C85_returns_witness : BeginApart noUnis selfRoot [] [] (.path [['a']]) (.str ['b']) ∧
    ¬ AgreesAt noUnis selfRoot [] [] (.choice (.path [['a']]) (.str ['b'])) (.choice (.str ['b']) (.path [['a']])) := by
  constructor
  · intro ρ hρ f f' h
    rw [List.map_eq_nil_iff] at hρ
    subst hρ
    exact absurd rfl (self_begins h)
  · intro h
    rcases m_choice.mp ((h.2 [] rfl ⟨[], ['b'], []⟩ _).mpr (.choiceL (lit_ok _ _ _ _ 'b' [] [] []))) with ⟨_, h, -⟩ | ⟨h, -⟩
    · exact self_never h rfl
    · exact self_never h rfl

/-- They have to begin differently: `"a" | "ab"` is not `"ab" | "a"`. -/
theorem C85_apart_witness : (∀ a ∈ [Expr.str ['a'], .str ['a', 'b']], AlwaysReturns noUnis (.mk [] []) [] [] a) ∧
    ¬ AgreesAt noUnis (.mk [] []) [] [] (.choice (.str ['a']) (.str ['a', 'b'])) (.choice (.str ['a', 'b']) (.str ['a'])) := by
  constructor
  · intro a ha ρ _ c
    have : ∀ s, ∃ o, Meaning noUnis (.mk [] []) (.expr (.mk [] ρ (.str s))) c o := by
      intro s
      cases h : leafSpec (.str s) c with
      | none => exact ⟨_, .literalFail rfl h⟩
      | some x =>
        have h' := h
        simp only [leafSpec, eatText] at h
        split at h
        · rename_i hk
          obtain ⟨rest, hr⟩ := hk
          cases h
          exact ⟨_, .literalOk rfl h' hr.symm⟩
        · cases h
    simp only [List.mem_cons, List.not_mem_nil, or_false] at ha
    rcases ha with rfl | rfl <;> exact this _
  · intro h
    have h1 := (h.2 [] rfl ⟨[], ['a', 'b'], []⟩ _).mp (.choiceL (lit_ok _ _ _ _ 'a' [] ['b'] []))
    have h2 : Meaning noUnis (.mk [] []) (.expr (.mk [] [] (.choice (.str ['a', 'b']) (.str ['a'])))) ⟨[], ['a', 'b'], []⟩ (some ⟨['a', 'b'], [], []⟩) :=
      .choiceL (.literalOk (l := .str ['a', 'b']) (m := ['a', 'b']) (rest := []) rfl (by decide) rfl)
    exact absurd (h1.det _ h2) (by simp)

/-! ## Examples -/

private def anyName : List Name := ["pest".toList, "any".toList]

/-- Everywhere `!"x" - pest::any | "x"` is `"x" | !"x" - pest::any`. -/
example (u : Unicode) (root : Module) (p : List Name) :
    SameAt u root p [] (.choice (.seq (.neg (.str ['x'])) (.path anyName) .none) (.str ['x'])) (.choice (.str ['x']) (.seq (.neg (.str ['x'])) (.path anyName) .none)) := by
  have hl : builtinLeaf u anyName = some .any := by rfl
  have ht : target u root p anyName = some (.builtin anyName) := by
    rw [target, if_pos (.inl (by rw [hl]; rfl))]
  have str : ∀ ρ c, ∃ o, Meaning u root (.expr (.mk p ρ (.str ['x']))) c o := by
    intro ρ c
    obtain ⟨pre, suf, stk⟩ := c
    cases suf with
    | nil => exact ⟨_, .literalFail (l := .str ['x']) rfl (by simp [leafSpec, eatText])⟩
    | cons y suf =>
      by_cases h : 'x' = y
      · subst h; exact ⟨_, lit_ok u root p ρ 'x' pre suf stk⟩
      · exact ⟨_, .literalFail (l := .str ['x']) rfl (by simp [leafSpec, eatText, h])⟩
  refine C85_reorder ?_ ?_ ?_
  · exact List.Perm.swap _ _ _
  · refine .cons ?_ (.cons (by simp) .nil)
    intro b hb
    cases List.mem_singleton.mp hb
    intro ρ hρ f f' hf hf' e
    rw [List.map_eq_nil_iff] at hρ
    subst hρ
    rw [begins_literal (l := .str ['x']) rfl] at hf'
    have hf' : f' = .takes 'x' := hf'
    subst hf'
    have sure : Surely u root (.mk p [] (.str ['x'])) (some 'x') := .literal (l := .str ['x']) rfl rfl
    rcases begins_seq.mp hf with ⟨y, rfl, h⟩ | ⟨y, rfl, h, -⟩ | ⟨h, -, -⟩
    · obtain ⟨o, h, -⟩ := begins_neg.mp h; cases h
    · obtain ⟨o, h, k⟩ := begins_neg.mp h
      cases h
      cases e
      exact k sure
    · obtain ⟨o, h, k⟩ := begins_neg.mp h
      cases h
      rw [e] at k
      exact k sure
  · intro a ha ρ hρ c
    rw [List.map_eq_nil_iff] at hρ
    subst hρ
    rcases List.mem_cons.mp ha with rfl | ha
    · obtain ⟨o, ho⟩ := str [] c
      cases o with
      | some c' => exact ⟨_, .seqFail (.negFail ho)⟩
      | none =>
        obtain ⟨pre, suf, stk⟩ := c
        cases suf with
        | nil => exact ⟨_, .seq (.negOk ho) .triviaNone (.builtinFail rfl (fun _ _ => rfl) ht hl rfl)⟩
        | cons y suf => exact ⟨_, .seq (.negOk ho) .triviaNone (.builtinOk (m := [y]) (rest := suf) rfl (fun _ _ => rfl) ht hl rfl rfl)⟩
    · cases List.mem_singleton.mp ha
      exact str [] c

def nestRule : Rule := ⟨['a'], [], .seq (.seq (.str ['[']) (.path [['v']]) .none) (.str [']']) .none, false⟩

/-- `v = a | "n"`, `a = "[" - v - "]"`. -/
def nestRules : List Rule := [⟨['v'], [], .choice (.path [['a']]) (.str ['n']), false⟩, nestRule]

/-- `v = "n" | a`, `a = "[" - v - "]"`. -/
def nestRules' : List Rule := [⟨['v'], [], .choice (.str ['n']) (.path [['a']]), false⟩, nestRule]

private def nestAssumed : Assumed where
  empty := fun _ _ => False
  emptyArg := fun _ _ _ => False
  first := fun _ _ _ => False
  rank := fun _ x => if x = ['v'] then 1 else 0

private theorem nest_not {rules : List Rule} (hr : rules = nestRules ∨ rules = nestRules') : NotLeftRecursive noUnis (.mk rules []) nestAssumed := by
  have at_ : ∀ {p m}, modAt (.mk rules []) p = some m → p = [] ∧ m = .mk rules [] := by
    intro p m h
    cases p with
    | nil => cases h; exact ⟨rfl, rfl⟩
    | cons x p => cases h
  have ta : target noUnis (.mk rules []) [] [['a']] = some (.rule [] nestRule) := by rcases hr with rfl | rfl <;> rfl
  have mem : ∀ {r}, r ∈ rules → (r.name = ['v'] ∧ r.args = [] ∧ (r.node = .choice (.path [['a']]) (.str ['n']) ∨ r.node = .choice (.str ['n']) (.path [['a']]))) ∨ r = nestRule := by
    intro r h
    rcases hr with rfl | rfl
    · simp only [nestRules, List.mem_cons, List.not_mem_nil, or_false] at h
      rcases h with rfl | rfl
      · exact .inl ⟨rfl, rfl, .inl rfl⟩
      · exact .inr rfl
    · simp only [nestRules', List.mem_cons, List.not_mem_nil, or_false] at h
      rcases h with rfl | rfl
      · exact .inl ⟨rfl, rfl, .inr rfl⟩
      · exact .inr rfl
  have starts : ∀ {r hd}, r ∈ rules → MayStart noUnis (.mk rules []) nestAssumed [] r r.node hd → r.name = ['v'] ∧ hd = .rule [] ['a'] := by
    intro r hd h hs
    rcases mem h with ⟨h1, h2, h3 | h3⟩ | rfl
    · rw [h3, start_choice, start_path ta (by rw [h2]; intro x h; cases h)] at hs
      rcases hs with hs | hs
      · exact ⟨h1, hs⟩
      · exact (start_str hs).elim
    · rw [h3, start_choice, start_path ta (by rw [h2]; intro x h; cases h)] at hs
      rcases hs with hs | hs
      · exact (start_str hs).elim
      · exact ⟨h1, hs⟩
    · rw [nestRule] at hs
      dsimp only at hs
      rw [start_seq, start_seq, empty_seq, empty_str] at hs
      rcases hs with (h | ⟨h, -⟩) | ⟨⟨h, -⟩, -⟩
      · exact (start_str h).elim
      · cases h
      · cases h
  refine ⟨?_, ?_, ?_, ?_⟩
  · intro p m r hm h he
    obtain ⟨rfl, rfl⟩ := at_ hm
    rcases mem h with ⟨h1, h2, h3 | h3⟩ | rfl
    · rw [h3, empty_choice, empty_path ta (by rw [h2]; intro x h; cases h), empty_str] at he
      rcases he with he | he
      · exact he
      · cases he
    · rw [h3, empty_choice, empty_path ta (by rw [h2]; intro x h; cases h), empty_str] at he
      rcases he with he | he
      · cases he
      · exact he
    · rw [nestRule] at he
      dsimp only at he
      rw [empty_seq, empty_seq, empty_str] at he
      cases he.1.1
  · intro p m r hm h q args p' r' hc
    obtain ⟨rfl, rfl⟩ := at_ hm
    rcases mem h with ⟨h1, h2, h3 | h3⟩ | rfl
    · rw [h3] at hc
      repeat' cases ‹Sub _ _›
    · rw [h3] at hc
      repeat' cases ‹Sub _ _›
    · rw [nestRule] at hc
      dsimp only at hc
      repeat' cases ‹Sub _ _›
  · intro p m r hm h x hs
    obtain ⟨rfl, rfl⟩ := at_ hm
    cases (starts h hs).2
  · intro p m r hm h p' x hs
    obtain ⟨rfl, rfl⟩ := at_ hm
    obtain ⟨h1, h2⟩ := starts h hs
    cases h2
    rw [h1]
    decide

private theorem nest_apart {rules : List Rule} (hr : rules = nestRules ∨ rules = nestRules') : BeginApart noUnis (.mk rules []) [] [] (.path [['a']]) (.str ['n']) := by
  have ta : target noUnis (.mk rules []) [] [['a']] = some (.rule [] nestRule) := by rcases hr with rfl | rfl <;> rfl
  intro ρ hρ f f' hf hf'
  rw [List.map_eq_nil_iff] at hρ
  subst hρ
  rw [begins_rule (fun _ _ => rfl) ta, nestRule] at hf
  dsimp only at hf
  have bracket : ∀ g, Begins noUnis (.mk rules []) (.expr (.mk [] [] (.str ['[']))) g ↔ g = .takes '[' := fun g => begins_literal (e := .str ['[']) (l := .str ['[']) rfl
  simp only [begins_seq, bracket] at hf
  rw [begins_literal (l := .str ['n']) rfl] at hf'
  have hf' : f' = .takes 'n' := hf'
  subst hf'
  rcases hf with ⟨x, rfl, ⟨y, -, h⟩ | ⟨y, -, h, -⟩ | ⟨h, -⟩⟩ | ⟨x, -, ⟨y, h, -⟩ | ⟨y, h, -⟩ | ⟨h, -⟩, -⟩ | ⟨⟨y, h, -⟩ | ⟨y, h, -⟩ | ⟨h, -⟩, -⟩ <;> first | (cases h; done) | skip
  · cases h; decide

private theorem nest_reorders : Reorders noUnis (.mk nestRules []) (.mk nestRules' []) := by
  refine .mk (.cons ⟨rfl, rfl, rfl, fun _ => rfl, .order (List.Perm.swap _ _ _) ⟨rfl, .cons ?_ (.cons (by simp) .nil)⟩⟩ (.cons ⟨rfl, rfl, rfl, fun _ => rfl, .refl⟩ .nil)) .nil
  intro b hb
  cases List.mem_singleton.mp hb
  exact ⟨nest_apart (.inl rfl), nest_apart (.inr rfl)⟩

def nestWorld : World := ⟨fun _ => none, fun t => if t = [] then some (nestRules.map .rule) else some (nestRules'.map .rule)⟩

def nestSetting : Setting := ⟨none, ⟨true, []⟩, fun _ => false, fun _ => false, [], nestWorld⟩

theorem nest_ready {t : Text} {rules : List Rule} (hr : rules = nestRules ∧ t = [] ∨ rules = nestRules' ∧ t = ['s']) :
    Modules nestSetting ([⟨some "grammar_inline".toList, .str t⟩].filterMap sourceOf) [.mk rules []] ∧
    (∀ x, ¬ SilentName (united [.mk rules []]) x) ∧ AllNamed noUnis (united [.mk rules []]) ∧
    (∃ fuel d, derive nestSetting fuel [⟨some "grammar_inline".toList, .str t⟩] = .ok d) ∧ ∀ m', ModIn m' (united [.mk rules []]) → TriviaAcyclic m' := by
  have hun : united [.mk rules []] = .mk rules [] := by simp [united, Module.rules, Module.imports]
  have all : ∀ {m'}, ModIn m' (.mk rules []) → m' = .mk rules [] := by
    intro m' h
    cases h with
    | refl => rfl
    | step h1 _ => simp [Module.imports] at h1
  have hsrc : [⟨some "grammar_inline".toList, .str t⟩].filterMap sourceOf = [.inline t] := by
    rcases hr with ⟨-, rfl⟩ | ⟨-, rfl⟩ <;> decide
  have hm : Modules nestSetting ([⟨some "grammar_inline".toList, .str t⟩].filterMap sourceOf) [.mk rules []] := by
    rw [hsrc]
    refine .cons .inline (.file (l := rules.map .rule) ?_ ?_) .nil
    · rcases hr with ⟨rfl, rfl⟩ | ⟨rfl, rfl⟩ <;> rfl
    · have : ∀ (root : FPath) (l : List Rule), Loads nestSetting.world (.items root (l.map .rule) l []) := by
        intro root l
        induction l with
        | nil => exact .nil
        | cons r l ih => exact .rule ih
      exact this _ _
  have hs : ∀ x, ¬ SilentName (united [.mk rules []]) x := by
    rw [hun]
    rintro x ⟨m', h1, f, h2, h3, -⟩
    cases all h1
    have : f.silent = false := by
      rcases hr with ⟨rfl, -⟩ | ⟨rfl, -⟩ <;> simp [Module.rules, nestRules, nestRules', nestRule] at h2 <;> rcases h2 with rfl | rfl <;> rfl
    simp [Rule.inlined, this] at h3
  have hn : AllNamed noUnis (united [.mk rules []]) := by
    rw [hun]
    intro m' h
    cases all h
    rcases hr with ⟨rfl, -⟩ | ⟨rfl, -⟩ <;> refine ⟨by decide, by decide, by simp [Module.imports], by simp [Module.imports], ?_, ?_⟩ <;>
      simp [Module.rules, nestRules, nestRules', nestRule, ParamsPlain]
  refine ⟨hm, hs, hn, (C75_accepted hm hs hn).mpr ⟨?_, by rw [hsrc]; simp, ?_⟩, ?_⟩
  · intro a ha
    cases List.mem_singleton.mp ha
    exact ⟨fun x _ _ => ⟨_, rfl⟩, fun x hx h => by cases h; exact absurd hx (by decide), fun h => absurd h (by show ¬ some "grammar_inline".toList = some "rules_mod".toList; decide)⟩
  · refine (C61_accepts (cfg := ⟨true, false, none⟩) hn).mp ?_
    rw [hun]
    rcases hr with ⟨rfl, -⟩ | ⟨rfl, -⟩ <;> exact ⟨_, rfl⟩
  · rw [hun]
    intro m' h
    cases all h
    rcases hr with ⟨rfl, -⟩ | ⟨rfl, -⟩ <;> refine ⟨?_, ?_, .inl ?_⟩ <;>
      simp only [nestRules, nestRules', nestRule, Module.rules, List.mem_cons, List.not_mem_nil, or_false, forall_eq_or_imp, forall_eq] <;>
      exact ⟨fun h => absurd h (by decide), fun h => absurd h (by decide)⟩

/-- There are two such parsers, and `v` of both has the same tokens on all texts. -/
example : ∃ (d d' : Derived) (R R' : Layout) (e e' : Env) (lab lab' : RuleId → RuleVal),
    Linked noUnis d.code.1 d.code.2.wrappers R e ∧ Linked noUnis d'.code.1 d'.code.2.wrappers R' e' ∧
    ∀ inp P, (∃ n t, tryParse idealOps e n (.rule (R.num [] ['v'] [])) inp = .ok (.ok t) ∧ t.asPairTree e lab = some P) ↔
      ∃ n t, tryParse idealOps e' n (.rule (R'.num [] ['v'] [])) inp = .ok (.ok t) ∧ t.asPairTree e' lab' = some P := by
  obtain ⟨hm, hs, hn, ⟨fuel, d, h⟩, ha⟩ := nest_ready (.inl ⟨rfl, rfl⟩)
  obtain ⟨hm', hs', hn', ⟨fuel', d', h'⟩, ha'⟩ := nest_ready (.inr ⟨rfl, rfl⟩)
  obtain ⟨R, e, lab, hl, hlab⟩ := (C75_parser (table := fun _ _ => false) ideal_lawful h hm hs hn).1 ha
  obtain ⟨R', e', lab', hl', hlab'⟩ := (C75_parser (table := fun _ _ => false) ideal_lawful h' hm' hs' hn').1 ha'
  refine ⟨d, d', R, R', e, e', lab, lab', hl, hl', fun inp => ?_⟩
  exact (C85_parser (g := nestAssumed) (g' := nestAssumed) ideal_lawful h h' hm hm' rfl hs hs' hn hn' (nest_not (.inl rfl)) (nest_not (.inr rfl)) nest_reorders hl hlab hl' hlab' (p := [])
    (m := united [.mk nestRules []]) (r := ⟨['v'], [], .choice (.path [['a']]) (.str ['n']), false⟩) rfl (by simp [united, Module.rules, nestRules]) (by decide) (by decide) rfl inp).2.2 rfl

end Pest3.Props
