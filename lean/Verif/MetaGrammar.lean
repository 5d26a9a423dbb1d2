import Verif.Pest2

/-!
# The meta-grammar (`meta/src/grammar.pest`) as data
-/

namespace Pest3.Gen
open Pest3
open Pest3.Meta (MetaRule)

/-- `"s"`. -/
def lit (s : String) : PE := .str s.toList

/-- `a ~ b ~ …`, which pest 2 groups to the left; how it is grouped makes no difference. -/
def seqs : List PE → PE
  | [] => .str []
  | [e] => e
  | e :: rest => .seq e (seqs rest)

/-- `a | b | …`. -/
def alts : List PE → PE
  | [] => .neg (.str [])
  | [e] => e
  | e :: rest => .choice e (alts rest)

/-- The rules (`meta/src/grammar.pest:10-113`).  `e{2}` is `e ~ e`, `e{1, 6}` is `e ~ e? ~ …`, as pest 2 unrolls them. -/
def metaGrammar : Gram
  -- grammar.pest:10-12
  | .grammarRules => (.silent, seqs [.soi, .rep (.ref .grammarDoc), .rep (.ref .import), .ref .grammarRule,
      .rep (.choice (.ref .import) (.ref .grammarRule)), .ref .eoi])
  -- grammar.pest:14
  | .import => (.normal, seqs [lit "use ", .ref .path, .opt (.seq (lit "in") (.ref .string)),
      .opt (.seq (lit "as") (.ref .identifier))])
  -- grammar.pest:16-24
  | .grammarRule => (.normal, seqs [.rep (.ref .ruleDoc), .choice (.ref .identifier) (.ref .overridableOperator),
      .opt (.ref .arguments), .ref .assignmentOperator, .opt (.ref .silentModifier),
      .choice (seqs [.ref .openingBrace, .ref .expression, .ref .closingBrace]) (.ref .expression)])
  -- grammar.pest:26-33
  | .assignmentOperator => (.normal, lit "=")
  | .triviaOpeningBrace => (.normal, lit "~{")
  | .openingBrace => (.normal, lit "{")
  | .closingBrace => (.normal, lit "}")
  | .openingParen => (.normal, lit "(")
  | .closingParen => (.normal, lit ")")
  | .openingBrack => (.normal, lit "[")
  | .closingBrack => (.normal, lit "]")
  -- grammar.pest:35
  | .arguments => (.normal, seqs [.ref .openingParen, .opt (seqs [.ref .identifier,
      .rep (.seq (.ref .comma) (.ref .identifier)), .opt (.ref .comma)]), .ref .closingParen])
  -- grammar.pest:37
  | .silentModifier => (.atomic, .seq (lit "_") (.neg (.ref .identifier)))
  -- grammar.pest:39-45
  | .expression => (.normal, seqs [.opt (seqs [.opt (.ref .choiceOperator), .ref .term, .ref .choiceOperator]),
      .ref .term, .rep (.seq (.ref .infixOperator) (.ref .term))])
  | .term => (.normal, seqs [.rep (.ref .prefixOperator), .ref .node, .rep (.ref .postfixOperator)])
  | .node => (.silent, .choice (seqs [.ref .openingParen, .ref .expression, .ref .closingParen]) (.ref .terminal))
  | .terminal => (.silent, alts [.ref .string, .ref .rawString, .ref .insensitiveString, .ref .path, .ref .range])
  -- grammar.pest:47-57
  | .overridableOperator => (.silent, .choice (.ref .tildeOperator) (.ref .caretOperator))
  | .prefixOperator => (.silent, .choice (.ref .positivePredicate) (.ref .negativePredicate))
  | .infixOperator => (.silent, alts [.ref .sequenceOperator, .ref .tildeOperator, .ref .caretOperator, .ref .choiceOperator])
  | .postfixOperator => (.silent, .seq (.opt (.ref .overridableOperator)) (alts [.ref .optionalOperator, .ref .repeatOperator,
      .ref .repeatOnceOperator, .ref .boundedRepeat]))
  -- grammar.pest:59-68
  | .positivePredicate => (.normal, lit "&")
  | .negativePredicate => (.normal, lit "!")
  | .sequenceOperator => (.normal, lit "-")
  | .choiceOperator => (.normal, .seq (.opt (.ref .overridableOperator)) (lit "|"))
  | .optionalOperator => (.normal, lit "?")
  | .repeatOperator => (.normal, lit "*")
  | .repeatOnceOperator => (.normal, lit "+")
  | .tildeOperator => (.normal, lit "~")
  | .caretOperator => (.normal, lit "^")
  | .rangeOperator => (.normal, lit "..")
  -- grammar.pest:70
  | .boundedRepeat => (.normal, seqs [.ref .openingBrace,
      .choice (seqs [.opt (.ref .number), .ref .rangeOperator, .opt (.ref .number)]) (.ref .number), .ref .closingBrace])
  -- grammar.pest:72-75
  | .number => (.atomic, .choice (lit "0") (.seq (.range '1' '9') (.rep (.range '0' '9'))))
  | .integer => (.atomic, .seq (.opt (.choice (lit "+") (lit "-"))) (.ref .number))
  | .comma => (.normal, lit ",")
  -- grammar.pest:77-81
  | .path => (.normal, seqs [.ref .identifier, .rep (.seq (.ref .ancestryOperator) (.ref .identifier)),
      .opt (.choice (.ref .call) (.ref .slice))])
  | .call => (.normal, seqs [.ref .openingParen, .opt (seqs [.ref .expression,
      .rep (.seq (.ref .comma) (.ref .expression)), .opt (.ref .comma)]), .ref .closingParen])
  | .slice => (.normal, seqs [.ref .openingBrack, .opt (.ref .integer), .ref .rangeOperator, .opt (.ref .integer),
      .ref .closingBrack])
  | .ancestryOperator => (.normal, lit "::")
  -- grammar.pest:83-85
  | .identifier => (.atomic, .seq (.choice (lit "_") (.ref .alpha)) (.rep (.choice (lit "_") (.ref .alphaNum))))
  | .alpha => (.silent, .choice (.range 'a' 'z') (.range 'A' 'Z'))
  | .alphaNum => (.silent, .choice (.ref .alpha) (.range '0' '9'))
  -- grammar.pest:87-88
  | .rawString => (.compound, seqs [lit "r", .push (.rep (.ref .pound)), .ref .quote, .ref .innerRawStr, .ref .quote, .pop])
  | .innerRawStr => (.normal, .rep (.seq (.neg (.seq (lit "\"") .peek)) .any))
  -- grammar.pest:90-93
  | .string => (.compound, seqs [.ref .quote, .ref .innerStr, .ref .quote])
  | .insensitiveString => (.compound, .seq (lit "i") (.ref .string))
  | .range => (.normal, seqs [.ref .character, .ref .rangeOperator, .ref .character])
  | .character => (.compound, seqs [.ref .singleQuote, .ref .innerChr, .ref .singleQuote])
  -- grammar.pest:95-100
  | .innerStr => (.atomic, .seq (.rep (.seq (.neg (.choice (lit "\"") (lit "\\"))) .any))
      (.opt (.seq (.ref .escape) (.ref .innerStr))))
  | .innerChr => (.atomic, .choice (.ref .escape) .any)
  | .escape => (.atomic, .seq (lit "\\") (alts [lit "\"", lit "\\", lit "r", lit "n", lit "t", lit "0", lit "'",
      .ref .code, .ref .unicode]))
  | .code => (.atomic, seqs [lit "x", .ref .hexDigit, .ref .hexDigit])
  | .unicode => (.atomic, seqs [lit "u", .ref .openingBrace, .ref .hexDigit, .opt (.ref .hexDigit), .opt (.ref .hexDigit),
      .opt (.ref .hexDigit), .opt (.ref .hexDigit), .opt (.ref .hexDigit), .ref .closingBrace])
  | .hexDigit => (.atomic, alts [.range '0' '9', .range 'a' 'f', .range 'A' 'F'])
  -- grammar.pest:102-104
  | .quote => (.normal, lit "\"")
  | .singleQuote => (.normal, lit "'")
  | .pound => (.normal, lit "#")
  -- grammar.pest:106-107
  | .newline => (.silent, .choice (lit "\n") (lit "\r\n"))
  | .whitespace => (.silent, alts [lit " ", lit "\t", .ref .newline])
  -- grammar.pest:109-113
  | .blockComment => (.silent, seqs [lit "/*", .rep (.choice (.ref .blockComment) (.seq (.neg (lit "*/")) .any)), lit "*/"])
  | .comment => (.silent, .choice (.ref .blockComment) (.seq (seqs [lit "//", .neg (.choice (lit "/") (lit "!")),
      .rep (.seq (.neg (.ref .newline)) .any)]) (.pos (.choice (.ref .newline) (.ref .eoi)))))
  | .docContent => (.compound, .rep (.seq (.neg (.ref .newline)) .any))
  | .ruleDoc => (.compound, seqs [lit "///", .opt (lit " "), .ref .docContent])
  | .grammarDoc => (.compound, seqs [lit "//!", .opt (lit " "), .ref .docContent])
  -- built in: the end of the input, which makes a pair
  | .eoi => (.normal, .eoi)

end Pest3.Gen
