import Verif.Rename
import Verif.ForwardExpr

/-!
# Property C73: what a message calls the parts of a grammar

A text that is not a grammar is rejected with the rules that were expected; `renameMetaRule` says what the message calls them.
What a rule is, is said by the meta-grammar: `MRec m (.ref r) c (some (c', ts))` is that the rule `r` takes the text from `c` to `c'`.
-/

namespace Pest3.Props
open Pest3 Pest3.Gen
open Pest3.Meta (MetaRule)

/-- The message quotes the text `s`. -/
def Quotes (r : MetaRule) (s : Text) : Prop := renameMetaRule r = '`' :: (s ++ ['`'])

/-- The rules that are one fixed text, and are called by it. -/
def fixedTokens : List (MetaRule × String) :=
  [(.assignmentOperator, "="), (.openingBrace, "{"), (.closingBrace, "}"), (.openingBrack, "["), (.closingBrack, "]"),
   (.openingParen, "("), (.closingParen, ")"), (.positivePredicate, "&"), (.negativePredicate, "!"), (.optionalOperator, "?"),
   (.repeatOperator, "*"), (.repeatOnceOperator, "+"), (.comma, ","), (.quote, "\""), (.rangeOperator, ".."), (.singleQuote, "'")]

theorem quotes_inj {r : MetaRule} {s t : Text} (h : Quotes r s) (k : Quotes r t) : s = t := by
  unfold Quotes at h k
  rw [h] at k
  simpa using k

theorem quotes_cases {r : MetaRule} {s : Text} (h : Quotes r s) : (∃ t, (r, t) ∈ fixedTokens ∧ s = t.toList ∧ metaGrammar r = (.normal, lit t)) ∨
    (r = .sequenceOperator ∧ s = ['&']) ∨ (r = .choiceOperator ∧ s = ['|']) ∨ (r = .silentModifier ∧ s = ['_']) ∨
    (r = .insensitiveString ∧ s = ['i']) := by
  have fin : ∀ {t : String}, (r, t) ∈ fixedTokens → Quotes r t.toList → metaGrammar r = (.normal, lit t) →
      (∃ t, (r, t) ∈ fixedTokens ∧ s = t.toList ∧ metaGrammar r = (.normal, lit t)) :=
    fun {t} h1 h2 h3 => ⟨t, h1, quotes_inj h h2, h3⟩
  cases r
  case assignmentOperator => exact .inl (fin (t := "=") (by decide) rfl rfl)
  case openingBrace => exact .inl (fin (t := "{") (by decide) rfl rfl)
  case closingBrace => exact .inl (fin (t := "}") (by decide) rfl rfl)
  case openingBrack => exact .inl (fin (t := "[") (by decide) rfl rfl)
  case closingBrack => exact .inl (fin (t := "]") (by decide) rfl rfl)
  case openingParen => exact .inl (fin (t := "(") (by decide) rfl rfl)
  case closingParen => exact .inl (fin (t := ")") (by decide) rfl rfl)
  case positivePredicate => exact .inl (fin (t := "&") (by decide) rfl rfl)
  case negativePredicate => exact .inl (fin (t := "!") (by decide) rfl rfl)
  case optionalOperator => exact .inl (fin (t := "?") (by decide) rfl rfl)
  case repeatOperator => exact .inl (fin (t := "*") (by decide) rfl rfl)
  case repeatOnceOperator => exact .inl (fin (t := "+") (by decide) rfl rfl)
  case comma => exact .inl (fin (t := ",") (by decide) rfl rfl)
  case quote => exact .inl (fin (t := "\"") (by decide) rfl rfl)
  case rangeOperator => exact .inl (fin (t := "..") (by decide) rfl rfl)
  case singleQuote => exact .inl (fin (t := "'") (by decide) rfl rfl)
  case sequenceOperator => exact .inr (.inl ⟨rfl, quotes_inj h (t := ['&']) rfl⟩)
  case choiceOperator => exact .inr (.inr (.inl ⟨rfl, quotes_inj h (t := ['|']) rfl⟩))
  case silentModifier => exact .inr (.inr (.inr (.inl ⟨rfl, quotes_inj h (t := ['_']) rfl⟩)))
  case insensitiveString => exact .inr (.inr (.inr (.inr ⟨rfl, quotes_inj h (t := ['i']) rfl⟩)))
  all_goals
    exfalso
    exact absurd (congrArg List.head? h) (fun e : _ = some '`' => absurd e (by decide))

section
variable {r : MetaRule} {s : Text} {m : Mode} {c c' : Cfg} {ts : List PTree}

/-- If a message quotes a text, what was expected contains this text; except for `-`, for which messages quote `&`
(`C73_sequence_witness`). -/
theorem C73_quoted_partial (h : Quotes r s) (hr : r ≠ .sequenceOperator) (k : MRec m (.ref r) c (some (c', ts))) :
    ∃ t, c.suf = t ++ c'.suf ∧ s <:+: t := by
  rcases quotes_cases h with ⟨t, -, rfl, ht⟩ | ⟨rfl, -⟩ | ⟨rfl, rfl⟩ | ⟨rfl, rfl⟩ | ⟨rfl, rfl⟩
  · exact ⟨_, (inv_tok ht k).1.suf, List.infix_rfl⟩
  · exact absurd rfl hr
  · obtain ⟨us, k1, -⟩ := inv_ref k
    obtain ⟨c1, c2, t1, t2, t3, k2, k3, k4, -⟩ := inv_seq k1
    obtain ⟨a, ha, -⟩ := k2.consumes _ _ rfl
    obtain ⟨b, hb, -⟩ := k3.consumes _ _ rfl
    refine ⟨a ++ (b ++ ['|']), ?_, ⟨a ++ b, [], by simp⟩⟩
    rw [ha, hb, (inv_str k4).1.suf]
    simp
  · obtain ⟨us, k1, -⟩ := inv_atomic rfl k
    obtain ⟨c1, t1, t2, k2, k3, -⟩ := inv_seq' (by decide) k1
    obtain ⟨rfl, -⟩ := inv_neg k3
    exact ⟨_, (inv_str k2).1.suf, List.infix_rfl⟩
  · obtain ⟨us, k1, -⟩ := inv_compound rfl k
    obtain ⟨c1, t1, t2, k2, k3, -⟩ := inv_seq' (by decide) k1
    obtain ⟨b, hb, -⟩ := k3.consumes _ _ rfl
    refine ⟨'i' :: b, ?_, ⟨[], b, rfl⟩⟩
    rw [(inv_str k2).1.suf, hb]
    rfl

/-- A quoted text is what can be written where the message says that it is expected; `-` is not `&`, `_` is also the beginning of a
name, and an insensitive string is more than an `i`. -/
theorem C73_accepted_partial (h : Quotes r s) (h1 : r ≠ .sequenceOperator) (h2 : r ≠ .silentModifier) (h3 : r ≠ .insensitiveString) {x : Text}
    (hx : c.suf = s ++ x) : ∃ c' ts, MRec m (.ref r) c (some (c', ts)) ∧ c'.suf = x := by
  rcases quotes_cases h with ⟨t, -, rfl, ht⟩ | ⟨rfl, -⟩ | ⟨rfl, rfl⟩ | ⟨rfl, rfl⟩ | ⟨rfl, rfl⟩
  · obtain ⟨c', k1, -, k2⟩ := eats_tok (m := m) ht hx
    exact ⟨c', _, k1, k2⟩
  · exact absurd rfl h1
  · obtain ⟨c', k1, -, k2⟩ := eats_str (m := m) hx
    refine ⟨c', _, .ref (ts := []) (.seq (.optNone (fails 9 ?_)) (skip_solid ?_) k1), k2⟩
    · rw [hx]; rfl
    · rw [hx]; rfl
  · exact absurd rfl h2
  · exact absurd rfl h3

/-- An `_` that does not begin a name, and an `i` that begins an insensitive string, are accepted as well. -/
theorem C73_silent {x : Text} (hx : c.suf = '_' :: x) (hn : MRec .atomic (.ref .identifier) ⟨c.pre ++ ['_'], x, c.stk⟩ none) :
    Quotes .silentModifier ['_'] ∧ ∃ c' ts, MRec m (.ref .silentModifier) c (some (c', ts)) ∧ c'.suf = x := by
  refine ⟨rfl, ?_⟩
  obtain ⟨c', k1, k3, k2⟩ := eats_str (m := .atomic) (s := ['_']) hx
  have : c' = ⟨c.pre ++ ['_'], x, c.stk⟩ := by
    cases c'
    have := k3.pre
    have := k3.stk
    simp_all
  subst this
  exact ⟨_, _, ref_atomic rfl (.seq k1 (.noSkip (by decide)) (.neg hn)), k2⟩

/-- What is not quoted is called by the name of the rule, and a whole rule `rule`. -/
theorem C73_named (h : ∀ s, ¬ Quotes r s) : renameMetaRule r = ruleText r ∨ r = .grammarRule ∧ renameMetaRule r = "rule".toList := by
  have q : ∀ {s : String}, renameMetaRule r = '`' :: (s.toList ++ ['`']) → False := fun {s} e => h s.toList e
  cases r
  case assignmentOperator => exact (q (s := "=") rfl).elim
  case openingBrace => exact (q (s := "{") rfl).elim
  case closingBrace => exact (q (s := "}") rfl).elim
  case openingBrack => exact (q (s := "[") rfl).elim
  case closingBrack => exact (q (s := "]") rfl).elim
  case openingParen => exact (q (s := "(") rfl).elim
  case closingParen => exact (q (s := ")") rfl).elim
  case positivePredicate => exact (q (s := "&") rfl).elim
  case negativePredicate => exact (q (s := "!") rfl).elim
  case optionalOperator => exact (q (s := "?") rfl).elim
  case repeatOperator => exact (q (s := "*") rfl).elim
  case repeatOnceOperator => exact (q (s := "+") rfl).elim
  case comma => exact (q (s := ",") rfl).elim
  case quote => exact (q (s := "\"") rfl).elim
  case rangeOperator => exact (q (s := "..") rfl).elim
  case singleQuote => exact (q (s := "'") rfl).elim
  case sequenceOperator => exact (q (s := "&") rfl).elim
  case choiceOperator => exact (q (s := "|") rfl).elim
  case silentModifier => exact (q (s := "_") rfl).elim
  case insensitiveString => exact (q (s := "i") rfl).elim
  case grammarRule => exact .inr ⟨rfl, rfl⟩
  all_goals exact .inl rfl

end

/-- All rules. -/
def allRules : List MetaRule :=
  [.quote, .pound, .innerRawStr, .innerStr, .character, .singleQuote, .innerChr, .rangeOperator, .openingBrace, .closingBrace,
   .openingBrack, .closingBrack, .number, .integer, .string, .rawString, .insensitiveString, .range, .boundedRepeat, .slice, .expression,
   .term, .choiceOperator, .sequenceOperator, .tildeOperator, .caretOperator, .positivePredicate, .negativePredicate, .optionalOperator,
   .repeatOperator, .repeatOnceOperator, .openingParen, .closingParen, .path, .identifier, .ancestryOperator, .call, .comma, .grammarRule,
   .ruleDoc, .arguments, .assignmentOperator, .silentModifier, .import, .grammarDoc, .eoi, .docContent, .triviaOpeningBrace, .escape, .code,
   .unicode, .hexDigit, .grammarRules, .node, .terminal, .overridableOperator, .prefixOperator, .infixOperator, .postfixOperator, .alpha,
   .alphaNum, .newline, .whitespace, .blockComment, .comment]

theorem mem_allRules (r : MetaRule) : r ∈ allRules := by cases r <;> decide

/-- Two rules are not called the same, except for `-` and `&`. -/
theorem C73_distinct_partial {r q : MetaRule} (h : renameMetaRule r = renameMetaRule q) (hr : r ≠ .sequenceOperator) (hq : q ≠ .sequenceOperator) :
    r = q := by
  have key : ∀ r ∈ allRules, ∀ q ∈ allRules, renameMetaRule r = renameMetaRule q → r = .sequenceOperator ∨ q = .sequenceOperator ∨ r = q := by
    decide +kernel
  rcases key r (mem_allRules r) q (mem_allRules q) h with h | h | h
  · exact absurd h hr
  · exact absurd h hq
  · exact h

/-- Where `-` can be written, messages say that `&` was expected, which is something else. -/
theorem C73_sequence_witness : Quotes .sequenceOperator ['&'] ∧ renameMetaRule .sequenceOperator = renameMetaRule .positivePredicate ∧
    ∀ (m : Mode) (c : Cfg), (∀ x, c.suf = '&' :: x → MRec m (.ref .sequenceOperator) c none) ∧
      ∀ x, c.suf = '-' :: x → ∃ c' ts, MRec m (.ref .sequenceOperator) c (some (c', ts)) ∧ c'.suf = x := by
  refine ⟨rfl, rfl, fun m c => ⟨fun x hx => fails 9 (by rw [hx]; rfl), fun x hx => ?_⟩⟩
  obtain ⟨c', k1, -, k2⟩ := eats_tok (m := m) (r := .sequenceOperator) (s := "-") rfl hx
  exact ⟨c', _, k1, k2⟩

/-! A concrete case: `a|b`, where `|` is expected. -/

example : ∃ c' ts, MRec .nonAtomic (.ref .choiceOperator) ⟨['a'], ['|', 'b'], []⟩ (some (c', ts)) ∧ c'.suf = ['b'] :=
  C73_accepted_partial (r := .choiceOperator) (s := ['|']) rfl (by decide) (by decide) (by decide) rfl

example : ∃ t, (⟨[], "~ | b".toList, []⟩ : Cfg).suf = t ++ " b".toList ∧ ['|'] <:+: t := ⟨"~ |".toList, rfl, ['~', ' '], [], rfl⟩

example : ∃ c' ts, MRec .nonAtomic (.ref .silentModifier) ⟨['='], "_{".toList, []⟩ (some (c', ts)) ∧ c'.suf = ['{'] :=
  (C73_silent rfl (fails 9 rfl)).2

end Pest3.Props
