import Verif.JsonExample

/-!
# The grammar of the tests of the derive macro (`derive/tests/grammar.pest`)

The text of the file, and the rules written in it as expressions of the model.  That these are the rules is not assumed: `C97_file` reads the
text with the model of the grammar reader.
-/

namespace Pest3.Stk
open Pest3 Pest3.Gen Pest3.Load Pest3.Json

/-- The lines of the file (`derive/tests/grammar.pest:1-99`). -/
def lines : List String := [
  "// pest. The Elegant Parser",
  "// Copyright (c) 2018 Dragoș Tiselice",
  "//",
  "// Licensed under the Apache License, Version 2.0",
  "// <LICENSE-APACHE or http://www.apache.org/licenses/LICENSE-2.0> or the MIT",
  "// license <LICENSE-MIT or http://opensource.org/licenses/MIT>, at your",
  "// option. All files in the project carrying such notice may not be copied,",
  "// modified, or distributed except according to those terms.",
  "",
  "// Modified by Boyi Huang (@TheVeryDarkness) when upgrading to pest3.",
  "",
  "string = \"abc\"",
  "insensitive = i\"abc\"",
  "range = '0'..'9'",
  "ident = string",
  "pos_pred = &string",
  "neg_pred = !string",
  "double_neg_pred = !!string",
  "sequence_atomic = string - string",
  "sequence_optional_trivia = string ~ string",
  "sequence_mandatory_trivia = string ^ string",
  "sequence_nested = string ~ string",
  "sequence_compound_nested = sequence_nested",
  "choice = string | range",
  "choice_prefix = | string | range",
  "optional = string?",
  "repeat = string~*",
  "repeat_atomic = string*",
  "repeat_once = string~+",
  "repeat_once_atomic = string+",
  "repeat_min_max = string~{2..3}",
  "repeat_min_max_atomic = string{2..3}",
  "repeat_exact = string~{2}",
  "repeat_min = string~{2..}",
  "repeat_min_atomic = string{2..}",
  "repeat_max = string~{..2}",
  "repeat_max_atomic = string{..2}",
  "soi_at_start = pest::soi - string",
  "repeat_mutate_stack = (pest::stack::push('a'..'c') - \",\")* - pest::stack::pop - pest::stack::pop - pest::stack::pop",
  "repeat_mutate_stack_pop_all = (pest::stack::push('a'..'c') - \",\")* - pest::stack::pop_all",
  "will_fail = repeat_mutate_stack_pop_all - \"FAIL\"",
  "stack_resume_after_fail = will_fail | repeat_mutate_stack_pop_all",
  "peek_ = pest::stack::push(range) - pest::stack::push(range) - pest::stack::peek - pest::stack::peek",
  "peek_all = pest::stack::push(range) - pest::stack::push(range) - pest::stack::peek_all",
  "peek_slice_23 = pest::stack::push(range) - pest::stack::push(range) - pest::stack::push(range) ~ pest::stack::push(range) ~ pest::stack::push(range) ~ pest::stack::peek[1..-2]",
  "pop_ = pest::stack::push(range) - pest::stack::push(range) - pest::stack::pop - pest::stack::pop",
  "pop_all = pest::stack::push(range) - pest::stack::push(range) - pest::stack::pop_all",
  "pop_fail = pest::stack::push(range) - !pest::stack::pop - range - pest::stack::pop",
  "checkpoint_restore = pest::stack::push(\"\") - (pest::stack::push(\"a\") - \"b\" - pest::stack::pop | pest::stack::drop - \"b\" | pest::stack::pop - \"a\") - pest::eoi",
  "longchoice_builtin = ( \"01\" | \"02\" | \"03\" | \"04\" | \"05\" | \"06\" | \"07\" | \"08\" | \"09\" | \"10\" | \"11\" | \"12\" | \"13\" | \"14\" | \"15\" | \"16\")",
  "longseq_builtin = ( \"01\" ~ \"02\" ~ \"03\" ~ \"04\" ~ \"05\" ~ \"06\" ~ \"07\" ~ \"08\" ~ \"09\" ~ \"10\" ~ \"11\" ~ \"12\" ~ \"13\" ~ \"14\" ~ \"15\" ~ \"16\")",
  "longchoice_critical = ( \"01\" | \"02\" | \"03\" | \"04\" | \"05\" | \"06\" | \"07\" | \"08\" | \"09\" | \"10\" | \"11\" | \"12\" | \"13\" | \"14\" | \"15\" | \"16\" | \"17\")",
  "longseq_critical = ( \"01\" ~ \"02\" ~ \"03\" ~ \"04\" ~ \"05\" ~ \"06\" ~ \"07\" ~ \"08\" ~ \"09\" ~ \"10\" ~ \"11\" ~ \"12\" ~ \"13\" ~ \"14\" ~ \"15\" ~ \"16\" ~ \"17\")",
  "longchoice_jump = ( \"01\" | \"02\" | \"03\" | \"04\" | \"05\" | \"06\" | \"07\" | \"08\" | \"09\" | \"10\" | \"11\" | \"12\" | \"13\" | \"14\" | \"15\" | \"16\" | \"17\" | \"18\" | \"19\")",
  "longseq_jump = ( \"01\" ~ \"02\" ~ \"03\" ~ \"04\" ~ \"05\" ~ \"06\" ~ \"07\" ~ \"08\" ~ \"09\" ~ \"10\" ~ \"11\" ~ \"12\" ~ \"13\" ~ \"14\" ~ \"15\" ~ \"16\" ~ \"17\" ~ \"18\" ~ \"19\")",
  "/*",
  "ascii_digits = ASCII_DIGIT+",
  "ascii_nonzero_digits = ASCII_NONZERO_DIGIT+",
  "ascii_bin_digits = ASCII_BIN_DIGIT+",
  "ascii_oct_digits = ASCII_OCT_DIGIT+",
  "ascii_hex_digits = ASCII_HEX_DIGIT+",
  "ascii_alpha_lowers = ASCII_ALPHA_LOWER+",
  "ascii_alpha_uppers = ASCII_ALPHA_UPPER+",
  "ascii_alphas = ASCII_ALPHA+",
  "ascii_alphanumerics = ASCII_ALPHANUMERIC+",
  "asciis = ASCII+",
  "newline = NEWLINE+",
  "unicode = XID_START - XID_CONTINUE*",
  "SYMBOL = \"shadows builtin\"",
  "",
  "han = HAN+",
  "hangul = HANGUL+",
  "hiragana = HIRAGANA+",
  "arabic = ARABIC+",
  "emoji = EMOJI+",
  "*/",
  "",
  "~ = (\" \" | \"$\")*",
  "^ = (\" \" | \"$\")+",
  "",
  "// Line comment",
  "",
  "/* 1-line multiline comment */",
  "",
  "/*",
  "\tN-line multiline comment",
  "*/",
  "",
  "/*",
  "\t// Line comment inside multiline",
  "",
  "\t/*",
  "\t\t(Multiline inside) multiline",
  "\t*/",
  "",
  "\tInvalid segment of grammar below (repeated rule)",
  "",
  "\tWHITESPACE = _\"hi\"",
  "*/",
  ""]

/-- `pest::stack::push` -/
abbrev pathPush : List Name := [['p', 'e', 's', 't'], ['s', 't', 'a', 'c', 'k'], ['p', 'u', 's', 'h']]
/-- `pest::stack::pop` -/
abbrev pathPop : List Name := [['p', 'e', 's', 't'], ['s', 't', 'a', 'c', 'k'], ['p', 'o', 'p']]
/-- `pest::stack::pop_all` -/
abbrev pathPopAll : List Name := [['p', 'e', 's', 't'], ['s', 't', 'a', 'c', 'k'], ['p', 'o', 'p', '_', 'a', 'l', 'l']]
/-- `pest::stack::peek` -/
abbrev pathPeek : List Name := [['p', 'e', 's', 't'], ['s', 't', 'a', 'c', 'k'], ['p', 'e', 'e', 'k']]
/-- `pest::stack::peek_all` -/
abbrev pathPeekAll : List Name := [['p', 'e', 's', 't'], ['s', 't', 'a', 'c', 'k'], ['p', 'e', 'e', 'k', '_', 'a', 'l', 'l']]
/-- `pest::stack::drop` -/
abbrev pathDrop : List Name := [['p', 'e', 's', 't'], ['s', 't', 'a', 'c', 'k'], ['d', 'r', 'o', 'p']]

/-- `derive/tests/grammar.pest:12` -/
def xString : Expr :=
  (.str ['a', 'b', 'c'])

/-- `derive/tests/grammar.pest:13` -/
def xInsensitive : Expr :=
  (.insens ['a', 'b', 'c'])

/-- `derive/tests/grammar.pest:14` -/
def xRange : Expr :=
  (.range '0' '9')

/-- `derive/tests/grammar.pest:15` -/
def xIdent : Expr :=
  (.path [['s', 't', 'r', 'i', 'n', 'g']])

/-- `derive/tests/grammar.pest:16` -/
def xPosPred : Expr :=
  (.pos (.path [['s', 't', 'r', 'i', 'n', 'g']]))

/-- `derive/tests/grammar.pest:17` -/
def xNegPred : Expr :=
  (.neg (.path [['s', 't', 'r', 'i', 'n', 'g']]))

/-- `derive/tests/grammar.pest:18` -/
def xDoubleNegPred : Expr :=
  (.neg (.neg (.path [['s', 't', 'r', 'i', 'n', 'g']])))

/-- `derive/tests/grammar.pest:19` -/
def xSequenceAtomic : Expr :=
  (.seq (.path [['s', 't', 'r', 'i', 'n', 'g']]) (.path [['s', 't', 'r', 'i', 'n', 'g']]) .none)

/-- `derive/tests/grammar.pest:20` -/
def xSequenceOptionalTrivia : Expr :=
  (.seq (.path [['s', 't', 'r', 'i', 'n', 'g']]) (.path [['s', 't', 'r', 'i', 'n', 'g']]) .optional)

/-- `derive/tests/grammar.pest:21` -/
def xSequenceMandatoryTrivia : Expr :=
  (.seq (.path [['s', 't', 'r', 'i', 'n', 'g']]) (.path [['s', 't', 'r', 'i', 'n', 'g']]) .mandatory)

/-- `derive/tests/grammar.pest:22` -/
def xSequenceNested : Expr :=
  (.seq (.path [['s', 't', 'r', 'i', 'n', 'g']]) (.path [['s', 't', 'r', 'i', 'n', 'g']]) .optional)

/-- `derive/tests/grammar.pest:23` -/
def xSequenceCompoundNested : Expr :=
  (.path [['s', 'e', 'q', 'u', 'e', 'n', 'c', 'e', '_', 'n', 'e', 's', 't', 'e', 'd']])

/-- `derive/tests/grammar.pest:24` -/
def xChoice : Expr :=
  (.choice (.path [['s', 't', 'r', 'i', 'n', 'g']]) (.path [['r', 'a', 'n', 'g', 'e']]))

/-- `derive/tests/grammar.pest:25` -/
def xChoicePrefix : Expr :=
  (.choice (.path [['s', 't', 'r', 'i', 'n', 'g']]) (.path [['r', 'a', 'n', 'g', 'e']]))

/-- `derive/tests/grammar.pest:26` -/
def xOptional : Expr :=
  (.opt (.path [['s', 't', 'r', 'i', 'n', 'g']]))

/-- `derive/tests/grammar.pest:27` -/
def xRepeat : Expr :=
  (.rep (.separated (.path [['s', 't', 'r', 'i', 'n', 'g']]) .optional))

/-- `derive/tests/grammar.pest:28` -/
def xRepeatAtomic : Expr :=
  (.rep (.path [['s', 't', 'r', 'i', 'n', 'g']]))

/-- `derive/tests/grammar.pest:29` -/
def xRepeatOnce : Expr :=
  (.repOnce (.separated (.path [['s', 't', 'r', 'i', 'n', 'g']]) .optional))

/-- `derive/tests/grammar.pest:30` -/
def xRepeatOnceAtomic : Expr :=
  (.repOnce (.path [['s', 't', 'r', 'i', 'n', 'g']]))

/-- `derive/tests/grammar.pest:31` -/
def xRepeatMinMax : Expr :=
  (.repRange (.separated (.path [['s', 't', 'r', 'i', 'n', 'g']]) .optional) ⟨some 2, some 3⟩)

/-- `derive/tests/grammar.pest:32` -/
def xRepeatMinMaxAtomic : Expr :=
  (.repRange (.path [['s', 't', 'r', 'i', 'n', 'g']]) ⟨some 2, some 3⟩)

/-- `derive/tests/grammar.pest:33` -/
def xRepeatExact : Expr :=
  (.repRange (.separated (.path [['s', 't', 'r', 'i', 'n', 'g']]) .optional) ⟨some 2, some 2⟩)

/-- `derive/tests/grammar.pest:34` -/
def xRepeatMin : Expr :=
  (.repRange (.separated (.path [['s', 't', 'r', 'i', 'n', 'g']]) .optional) ⟨some 2, none⟩)

/-- `derive/tests/grammar.pest:35` -/
def xRepeatMinAtomic : Expr :=
  (.repRange (.path [['s', 't', 'r', 'i', 'n', 'g']]) ⟨some 2, none⟩)

/-- `derive/tests/grammar.pest:36` -/
def xRepeatMax : Expr :=
  (.repRange (.separated (.path [['s', 't', 'r', 'i', 'n', 'g']]) .optional) ⟨none, some 2⟩)

/-- `derive/tests/grammar.pest:37` -/
def xRepeatMaxAtomic : Expr :=
  (.repRange (.path [['s', 't', 'r', 'i', 'n', 'g']]) ⟨none, some 2⟩)

/-- `derive/tests/grammar.pest:38` -/
def xSoiAtStart : Expr :=
  (.seq (.path [['p', 'e', 's', 't'], ['s', 'o', 'i']]) (.path [['s', 't', 'r', 'i', 'n', 'g']]) .none)

/-- `derive/tests/grammar.pest:39` -/
def xRepeatMutateStack : Expr :=
  (.seq (.rep (.seq (.call pathPush [(.range 'a' 'c')]) (.str [',']) .none)) (.seq (.path pathPop) (.seq (.path pathPop) (.path pathPop) .none) .none) .none)

/-- `derive/tests/grammar.pest:40` -/
def xRepeatMutateStackPopAll : Expr :=
  (.seq (.rep (.seq (.call pathPush [(.range 'a' 'c')]) (.str [',']) .none)) (.path pathPopAll) .none)

/-- `derive/tests/grammar.pest:41` -/
def xWillFail : Expr :=
  (.seq (.path [['r', 'e', 'p', 'e', 'a', 't', '_', 'm', 'u', 't', 'a', 't', 'e', '_', 's', 't', 'a', 'c', 'k', '_', 'p', 'o', 'p', '_', 'a', 'l', 'l']]) (.str ['F', 'A', 'I', 'L']) .none)

/-- `derive/tests/grammar.pest:42` -/
def xStackResumeAfterFail : Expr :=
  (.choice (.path [['w', 'i', 'l', 'l', '_', 'f', 'a', 'i', 'l']]) (.path [['r', 'e', 'p', 'e', 'a', 't', '_', 'm', 'u', 't', 'a', 't', 'e', '_', 's', 't', 'a', 'c', 'k', '_', 'p', 'o', 'p', '_', 'a', 'l', 'l']]))

/-- `derive/tests/grammar.pest:43` -/
def xPeek_ : Expr :=
  (.seq (.call pathPush [(.path [['r', 'a', 'n', 'g', 'e']])]) (.seq (.call pathPush [(.path [['r', 'a', 'n', 'g', 'e']])]) (.seq (.path pathPeek) (.path pathPeek) .none) .none) .none)

/-- `derive/tests/grammar.pest:44` -/
def xPeekAll : Expr :=
  (.seq (.call pathPush [(.path [['r', 'a', 'n', 'g', 'e']])]) (.seq (.call pathPush [(.path [['r', 'a', 'n', 'g', 'e']])]) (.path pathPeekAll) .none) .none)

/-- `derive/tests/grammar.pest:45` -/
def xPeekSlice23 : Expr :=
  (.seq (.call pathPush [(.path [['r', 'a', 'n', 'g', 'e']])]) (.seq (.call pathPush [(.path [['r', 'a', 'n', 'g', 'e']])]) (.seq (.call pathPush [(.path [['r', 'a', 'n', 'g', 'e']])]) (.seq (.call pathPush [(.path [['r', 'a', 'n', 'g', 'e']])]) (.seq (.call pathPush [(.path [['r', 'a', 'n', 'g', 'e']])]) (.slice pathPeek ⟨some 1, some (-2)⟩) .optional) .optional) .optional) .none) .none)

/-- `derive/tests/grammar.pest:46` -/
def xPop_ : Expr :=
  (.seq (.call pathPush [(.path [['r', 'a', 'n', 'g', 'e']])]) (.seq (.call pathPush [(.path [['r', 'a', 'n', 'g', 'e']])]) (.seq (.path pathPop) (.path pathPop) .none) .none) .none)

/-- `derive/tests/grammar.pest:47` -/
def xPopAll : Expr :=
  (.seq (.call pathPush [(.path [['r', 'a', 'n', 'g', 'e']])]) (.seq (.call pathPush [(.path [['r', 'a', 'n', 'g', 'e']])]) (.path pathPopAll) .none) .none)

/-- `derive/tests/grammar.pest:48` -/
def xPopFail : Expr :=
  (.seq (.call pathPush [(.path [['r', 'a', 'n', 'g', 'e']])]) (.seq (.neg (.path pathPop)) (.seq (.path [['r', 'a', 'n', 'g', 'e']]) (.path pathPop) .none) .none) .none)

/-- `derive/tests/grammar.pest:49` -/
def xCheckpointRestore : Expr :=
  (.seq (.call pathPush [(.str [])]) (.seq (.choice (.seq (.call pathPush [(.str ['a'])]) (.seq (.str ['b']) (.path pathPop) .none) .none) (.choice (.seq (.path pathDrop) (.str ['b']) .none) (.seq (.path pathPop) (.str ['a']) .none))) (.path [['p', 'e', 's', 't'], ['e', 'o', 'i']]) .none) .none)

/-- `derive/tests/grammar.pest:50` -/
def xLongchoiceBuiltin : Expr :=
  (.choice (.str ['0', '1']) (.choice (.str ['0', '2']) (.choice (.str ['0', '3']) (.choice (.str ['0', '4']) (.choice (.str ['0', '5']) (.choice (.str ['0', '6']) (.choice (.str ['0', '7']) (.choice (.str ['0', '8']) (.choice (.str ['0', '9']) (.choice (.str ['1', '0']) (.choice (.str ['1', '1']) (.choice (.str ['1', '2']) (.choice (.str ['1', '3']) (.choice (.str ['1', '4']) (.choice (.str ['1', '5']) (.str ['1', '6']))))))))))))))))

/-- `derive/tests/grammar.pest:51` -/
def xLongseqBuiltin : Expr :=
  (.seq (.str ['0', '1']) (.seq (.str ['0', '2']) (.seq (.str ['0', '3']) (.seq (.str ['0', '4']) (.seq (.str ['0', '5']) (.seq (.str ['0', '6']) (.seq (.str ['0', '7']) (.seq (.str ['0', '8']) (.seq (.str ['0', '9']) (.seq (.str ['1', '0']) (.seq (.str ['1', '1']) (.seq (.str ['1', '2']) (.seq (.str ['1', '3']) (.seq (.str ['1', '4']) (.seq (.str ['1', '5']) (.str ['1', '6']) .optional) .optional) .optional) .optional) .optional) .optional) .optional) .optional) .optional) .optional) .optional) .optional) .optional) .optional) .optional)

/-- `derive/tests/grammar.pest:52` -/
def xLongchoiceCritical : Expr :=
  (.choice (.str ['0', '1']) (.choice (.str ['0', '2']) (.choice (.str ['0', '3']) (.choice (.str ['0', '4']) (.choice (.str ['0', '5']) (.choice (.str ['0', '6']) (.choice (.str ['0', '7']) (.choice (.str ['0', '8']) (.choice (.str ['0', '9']) (.choice (.str ['1', '0']) (.choice (.str ['1', '1']) (.choice (.str ['1', '2']) (.choice (.str ['1', '3']) (.choice (.str ['1', '4']) (.choice (.str ['1', '5']) (.choice (.str ['1', '6']) (.str ['1', '7'])))))))))))))))))

/-- `derive/tests/grammar.pest:53` -/
def xLongseqCritical : Expr :=
  (.seq (.str ['0', '1']) (.seq (.str ['0', '2']) (.seq (.str ['0', '3']) (.seq (.str ['0', '4']) (.seq (.str ['0', '5']) (.seq (.str ['0', '6']) (.seq (.str ['0', '7']) (.seq (.str ['0', '8']) (.seq (.str ['0', '9']) (.seq (.str ['1', '0']) (.seq (.str ['1', '1']) (.seq (.str ['1', '2']) (.seq (.str ['1', '3']) (.seq (.str ['1', '4']) (.seq (.str ['1', '5']) (.seq (.str ['1', '6']) (.str ['1', '7']) .optional) .optional) .optional) .optional) .optional) .optional) .optional) .optional) .optional) .optional) .optional) .optional) .optional) .optional) .optional) .optional)

/-- `derive/tests/grammar.pest:54` -/
def xLongchoiceJump : Expr :=
  (.choice (.str ['0', '1']) (.choice (.str ['0', '2']) (.choice (.str ['0', '3']) (.choice (.str ['0', '4']) (.choice (.str ['0', '5']) (.choice (.str ['0', '6']) (.choice (.str ['0', '7']) (.choice (.str ['0', '8']) (.choice (.str ['0', '9']) (.choice (.str ['1', '0']) (.choice (.str ['1', '1']) (.choice (.str ['1', '2']) (.choice (.str ['1', '3']) (.choice (.str ['1', '4']) (.choice (.str ['1', '5']) (.choice (.str ['1', '6']) (.choice (.str ['1', '7']) (.choice (.str ['1', '8']) (.str ['1', '9'])))))))))))))))))))

/-- `derive/tests/grammar.pest:55` -/
def xLongseqJump : Expr :=
  (.seq (.str ['0', '1']) (.seq (.str ['0', '2']) (.seq (.str ['0', '3']) (.seq (.str ['0', '4']) (.seq (.str ['0', '5']) (.seq (.str ['0', '6']) (.seq (.str ['0', '7']) (.seq (.str ['0', '8']) (.seq (.str ['0', '9']) (.seq (.str ['1', '0']) (.seq (.str ['1', '1']) (.seq (.str ['1', '2']) (.seq (.str ['1', '3']) (.seq (.str ['1', '4']) (.seq (.str ['1', '5']) (.seq (.str ['1', '6']) (.seq (.str ['1', '7']) (.seq (.str ['1', '8']) (.str ['1', '9']) .optional) .optional) .optional) .optional) .optional) .optional) .optional) .optional) .optional) .optional) .optional) .optional) .optional) .optional) .optional) .optional) .optional) .optional)

/-- `derive/tests/grammar.pest:78` -/
def xOpt : Expr :=
  (.rep (.choice (.str [' ']) (.str ['$'])))

/-- `derive/tests/grammar.pest:79` -/
def xMan : Expr :=
  (.repOnce (.choice (.str [' ']) (.str ['$'])))

/-- The rules. -/
def rules : List Rule := [
  ⟨['s', 't', 'r', 'i', 'n', 'g'], [], xString, false⟩,
  ⟨['i', 'n', 's', 'e', 'n', 's', 'i', 't', 'i', 'v', 'e'], [], xInsensitive, false⟩,
  ⟨['r', 'a', 'n', 'g', 'e'], [], xRange, false⟩,
  ⟨['i', 'd', 'e', 'n', 't'], [], xIdent, false⟩,
  ⟨['p', 'o', 's', '_', 'p', 'r', 'e', 'd'], [], xPosPred, false⟩,
  ⟨['n', 'e', 'g', '_', 'p', 'r', 'e', 'd'], [], xNegPred, false⟩,
  ⟨['d', 'o', 'u', 'b', 'l', 'e', '_', 'n', 'e', 'g', '_', 'p', 'r', 'e', 'd'], [], xDoubleNegPred, false⟩,
  ⟨['s', 'e', 'q', 'u', 'e', 'n', 'c', 'e', '_', 'a', 't', 'o', 'm', 'i', 'c'], [], xSequenceAtomic, false⟩,
  ⟨['s', 'e', 'q', 'u', 'e', 'n', 'c', 'e', '_', 'o', 'p', 't', 'i', 'o', 'n', 'a', 'l', '_', 't', 'r', 'i', 'v', 'i', 'a'], [], xSequenceOptionalTrivia, false⟩,
  ⟨['s', 'e', 'q', 'u', 'e', 'n', 'c', 'e', '_', 'm', 'a', 'n', 'd', 'a', 't', 'o', 'r', 'y', '_', 't', 'r', 'i', 'v', 'i', 'a'], [], xSequenceMandatoryTrivia, false⟩,
  ⟨['s', 'e', 'q', 'u', 'e', 'n', 'c', 'e', '_', 'n', 'e', 's', 't', 'e', 'd'], [], xSequenceNested, false⟩,
  ⟨['s', 'e', 'q', 'u', 'e', 'n', 'c', 'e', '_', 'c', 'o', 'm', 'p', 'o', 'u', 'n', 'd', '_', 'n', 'e', 's', 't', 'e', 'd'], [], xSequenceCompoundNested, false⟩,
  ⟨['c', 'h', 'o', 'i', 'c', 'e'], [], xChoice, false⟩,
  ⟨['c', 'h', 'o', 'i', 'c', 'e', '_', 'p', 'r', 'e', 'f', 'i', 'x'], [], xChoicePrefix, false⟩,
  ⟨['o', 'p', 't', 'i', 'o', 'n', 'a', 'l'], [], xOptional, false⟩,
  ⟨['r', 'e', 'p', 'e', 'a', 't'], [], xRepeat, false⟩,
  ⟨['r', 'e', 'p', 'e', 'a', 't', '_', 'a', 't', 'o', 'm', 'i', 'c'], [], xRepeatAtomic, false⟩,
  ⟨['r', 'e', 'p', 'e', 'a', 't', '_', 'o', 'n', 'c', 'e'], [], xRepeatOnce, false⟩,
  ⟨['r', 'e', 'p', 'e', 'a', 't', '_', 'o', 'n', 'c', 'e', '_', 'a', 't', 'o', 'm', 'i', 'c'], [], xRepeatOnceAtomic, false⟩,
  ⟨['r', 'e', 'p', 'e', 'a', 't', '_', 'm', 'i', 'n', '_', 'm', 'a', 'x'], [], xRepeatMinMax, false⟩,
  ⟨['r', 'e', 'p', 'e', 'a', 't', '_', 'm', 'i', 'n', '_', 'm', 'a', 'x', '_', 'a', 't', 'o', 'm', 'i', 'c'], [], xRepeatMinMaxAtomic, false⟩,
  ⟨['r', 'e', 'p', 'e', 'a', 't', '_', 'e', 'x', 'a', 'c', 't'], [], xRepeatExact, false⟩,
  ⟨['r', 'e', 'p', 'e', 'a', 't', '_', 'm', 'i', 'n'], [], xRepeatMin, false⟩,
  ⟨['r', 'e', 'p', 'e', 'a', 't', '_', 'm', 'i', 'n', '_', 'a', 't', 'o', 'm', 'i', 'c'], [], xRepeatMinAtomic, false⟩,
  ⟨['r', 'e', 'p', 'e', 'a', 't', '_', 'm', 'a', 'x'], [], xRepeatMax, false⟩,
  ⟨['r', 'e', 'p', 'e', 'a', 't', '_', 'm', 'a', 'x', '_', 'a', 't', 'o', 'm', 'i', 'c'], [], xRepeatMaxAtomic, false⟩,
  ⟨['s', 'o', 'i', '_', 'a', 't', '_', 's', 't', 'a', 'r', 't'], [], xSoiAtStart, false⟩,
  ⟨['r', 'e', 'p', 'e', 'a', 't', '_', 'm', 'u', 't', 'a', 't', 'e', '_', 's', 't', 'a', 'c', 'k'], [], xRepeatMutateStack, false⟩,
  ⟨['r', 'e', 'p', 'e', 'a', 't', '_', 'm', 'u', 't', 'a', 't', 'e', '_', 's', 't', 'a', 'c', 'k', '_', 'p', 'o', 'p', '_', 'a', 'l', 'l'], [], xRepeatMutateStackPopAll, false⟩,
  ⟨['w', 'i', 'l', 'l', '_', 'f', 'a', 'i', 'l'], [], xWillFail, false⟩,
  ⟨['s', 't', 'a', 'c', 'k', '_', 'r', 'e', 's', 'u', 'm', 'e', '_', 'a', 'f', 't', 'e', 'r', '_', 'f', 'a', 'i', 'l'], [], xStackResumeAfterFail, false⟩,
  ⟨['p', 'e', 'e', 'k', '_'], [], xPeek_, false⟩,
  ⟨['p', 'e', 'e', 'k', '_', 'a', 'l', 'l'], [], xPeekAll, false⟩,
  ⟨['p', 'e', 'e', 'k', '_', 's', 'l', 'i', 'c', 'e', '_', '2', '3'], [], xPeekSlice23, false⟩,
  ⟨['p', 'o', 'p', '_'], [], xPop_, false⟩,
  ⟨['p', 'o', 'p', '_', 'a', 'l', 'l'], [], xPopAll, false⟩,
  ⟨['p', 'o', 'p', '_', 'f', 'a', 'i', 'l'], [], xPopFail, false⟩,
  ⟨['c', 'h', 'e', 'c', 'k', 'p', 'o', 'i', 'n', 't', '_', 'r', 'e', 's', 't', 'o', 'r', 'e'], [], xCheckpointRestore, false⟩,
  ⟨['l', 'o', 'n', 'g', 'c', 'h', 'o', 'i', 'c', 'e', '_', 'b', 'u', 'i', 'l', 't', 'i', 'n'], [], xLongchoiceBuiltin, false⟩,
  ⟨['l', 'o', 'n', 'g', 's', 'e', 'q', '_', 'b', 'u', 'i', 'l', 't', 'i', 'n'], [], xLongseqBuiltin, false⟩,
  ⟨['l', 'o', 'n', 'g', 'c', 'h', 'o', 'i', 'c', 'e', '_', 'c', 'r', 'i', 't', 'i', 'c', 'a', 'l'], [], xLongchoiceCritical, false⟩,
  ⟨['l', 'o', 'n', 'g', 's', 'e', 'q', '_', 'c', 'r', 'i', 't', 'i', 'c', 'a', 'l'], [], xLongseqCritical, false⟩,
  ⟨['l', 'o', 'n', 'g', 'c', 'h', 'o', 'i', 'c', 'e', '_', 'j', 'u', 'm', 'p'], [], xLongchoiceJump, false⟩,
  ⟨['l', 'o', 'n', 'g', 's', 'e', 'q', '_', 'j', 'u', 'm', 'p'], [], xLongseqJump, false⟩,
  ⟨['~'], [], xOpt, false⟩,
  ⟨['^'], [], xMan, false⟩]

/-- The text of the file. -/
def text : Text := fileText lines

/-- The items of the file. -/
def items : List FileItem := rules.map .rule

/-- The grammar. -/
def grammar : Module := .mk rules []

end Pest3.Stk
