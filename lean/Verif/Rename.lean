import Verif.MetaGrammar

/-!
# How the rules of the meta-grammar are named in messages

Model of `meta/src/error.rs`.
-/

namespace Pest3.Gen
open Pest3
open Pest3.Meta (MetaRule)

/-- What `{:?}` gives for a rule of the meta-grammar: its name in `meta/src/grammar.pest` (the enumeration is derived by pest 2). -/
def ruleText : MetaRule → Text
  | .quote => "quote".toList
  | .pound => "pound".toList
  | .innerRawStr => "inner_raw_str".toList
  | .innerStr => "inner_str".toList
  | .character => "character".toList
  | .singleQuote => "single_quote".toList
  | .innerChr => "inner_chr".toList
  | .rangeOperator => "range_operator".toList
  | .openingBrace => "opening_brace".toList
  | .closingBrace => "closing_brace".toList
  | .openingBrack => "opening_brack".toList
  | .closingBrack => "closing_brack".toList
  | .number => "number".toList
  | .integer => "integer".toList
  | .string => "string".toList
  | .rawString => "raw_string".toList
  | .insensitiveString => "insensitive_string".toList
  | .range => "range".toList
  | .boundedRepeat => "bounded_repeat".toList
  | .slice => "slice".toList
  | .expression => "expression".toList
  | .term => "term".toList
  | .choiceOperator => "choice_operator".toList
  | .sequenceOperator => "sequence_operator".toList
  | .tildeOperator => "tilde_operator".toList
  | .caretOperator => "caret_operator".toList
  | .positivePredicate => "positive_predicate_operator".toList
  | .negativePredicate => "negative_predicate_operator".toList
  | .optionalOperator => "optional_operator".toList
  | .repeatOperator => "repeat_operator".toList
  | .repeatOnceOperator => "repeat_once_operator".toList
  | .openingParen => "opening_paren".toList
  | .closingParen => "closing_paren".toList
  | .path => "path".toList
  | .identifier => "identifier".toList
  | .ancestryOperator => "ancestry_operator".toList
  | .call => "call".toList
  | .comma => "comma".toList
  | .grammarRule => "grammar_rule".toList
  | .ruleDoc => "rule_doc".toList
  | .arguments => "arguments".toList
  | .assignmentOperator => "assignment_operator".toList
  | .silentModifier => "silent_modifier".toList
  | .import => "import".toList
  | .grammarDoc => "grammar_doc".toList
  | .eoi => "EOI".toList
  | .docContent => "doc_content".toList
  | .triviaOpeningBrace => "trivia_opening_brace".toList
  | .escape => "escape".toList
  | .code => "code".toList
  | .unicode => "unicode".toList
  | .hexDigit => "hex_digit".toList
  | .grammarRules => "grammar_rules".toList
  | .node => "node".toList
  | .terminal => "terminal".toList
  | .overridableOperator => "overridable_operator".toList
  | .prefixOperator => "prefix_operator".toList
  | .infixOperator => "infix_operator".toList
  | .postfixOperator => "postfix_operator".toList
  | .alpha => "alpha".toList
  | .alphaNum => "alpha_num".toList
  | .newline => "newline".toList
  | .whitespace => "WHITESPACE".toList
  | .blockComment => "block_comment".toList
  | .comment => "COMMENT".toList

/-- `rename_meta_rule` (`meta/src/error.rs:6-31`): how a message that says what was expected calls a rule
(`generator/src/typed/generator.rs:1005`). -/
def renameMetaRule : MetaRule → Text
  | .grammarRule => "rule".toList
  | .assignmentOperator => "`=`".toList
  | .silentModifier => "`_`".toList
  | .openingBrace => "`{`".toList
  | .closingBrace => "`}`".toList
  | .openingBrack => "`[`".toList
  | .closingBrack => "`]`".toList
  | .openingParen => "`(`".toList
  | .positivePredicate => "`&`".toList
  | .negativePredicate => "`!`".toList
  | .sequenceOperator => "`&`".toList
  | .choiceOperator => "`|`".toList
  | .optionalOperator => "`?`".toList
  | .repeatOperator => "`*`".toList
  | .repeatOnceOperator => "`+`".toList
  | .comma => "`,`".toList
  | .closingParen => "`)`".toList
  | .quote => "`\"`".toList
  | .insensitiveString => "`i`".toList
  | .rangeOperator => "`..`".toList
  | .singleQuote => "`'`".toList
  | r => ruleText r

end Pest3.Gen
