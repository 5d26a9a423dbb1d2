import Verif.Codegen
import Verif.Loader

/-!
# The JSON grammar of the examples (`derive/tests/json.pest` with `derive/tests/common/base.pest`)

The texts of the two files, and the rules written in them as expressions of the model.  That these are the rules is not assumed: `C93_files`
reads the texts with the model of the grammar reader.
-/

namespace Pest3.Json
open Pest3 Pest3.Gen Pest3.Load

/-- The lines of `derive/tests/common/base.pest` (`derive/tests/common/base.pest:1-7`). -/
def baseLines : List String := [
  "// FIXME: should be under pest::*",
  "ascii_hex_digit = ascii_digit | \"A\" | \"B\" | \"C\" | \"D\" | \"E\" | \"F\"",
  "ascii_digit = \"0\" | \"1\" | \"2\" | \"3\" | \"4\" | \"5\" | \"6\" | \"7\" | \"8\" | \"9\"",
  "ascii_nonzero_digit = \"1\" | \"2\" | \"3\" | \"4\" | \"5\" | \"6\" | \"7\" | \"8\" | \"9\"",
  "",
  "whitespaces   =  _{ \" \" | \"\\t\" | pest::newline }",
  "int          =  ascii_nonzero_digit - ascii_digit+ | ascii_digit"]

/-- `derive/tests/common/base.pest:2` -/
def baseAsciiHexDigit : Expr :=
  (.choice (.path [['a', 's', 'c', 'i', 'i', '_', 'd', 'i', 'g', 'i', 't']]) (.choice (.str ['A']) (.choice (.str ['B']) (.choice (.str ['C']) (.choice (.str ['D']) (.choice (.str ['E']) (.str ['F'])))))))

/-- `derive/tests/common/base.pest:3` -/
def baseAsciiDigit : Expr :=
  (.choice (.str ['0']) (.choice (.str ['1']) (.choice (.str ['2']) (.choice (.str ['3']) (.choice (.str ['4']) (.choice (.str ['5']) (.choice (.str ['6']) (.choice (.str ['7']) (.choice (.str ['8']) (.str ['9']))))))))))

/-- `derive/tests/common/base.pest:4` -/
def baseAsciiNonzeroDigit : Expr :=
  (.choice (.str ['1']) (.choice (.str ['2']) (.choice (.str ['3']) (.choice (.str ['4']) (.choice (.str ['5']) (.choice (.str ['6']) (.choice (.str ['7']) (.choice (.str ['8']) (.str ['9'])))))))))

/-- `derive/tests/common/base.pest:6` -/
def baseWhitespaces : Expr :=
  (.choice (.str [' ']) (.choice (.str ['\t']) (.path [['p', 'e', 's', 't'], ['n', 'e', 'w', 'l', 'i', 'n', 'e']])))

/-- `derive/tests/common/base.pest:7` -/
def baseInt : Expr :=
  (.choice (.seq (.path [['a', 's', 'c', 'i', 'i', '_', 'n', 'o', 'n', 'z', 'e', 'r', 'o', '_', 'd', 'i', 'g', 'i', 't']]) (.repOnce (.path [['a', 's', 'c', 'i', 'i', '_', 'd', 'i', 'g', 'i', 't']])) .none) (.path [['a', 's', 'c', 'i', 'i', '_', 'd', 'i', 'g', 'i', 't']]))

/-- The rules of `derive/tests/common/base.pest`. -/
def baseRules : List Rule := [
  ⟨['a', 's', 'c', 'i', 'i', '_', 'h', 'e', 'x', '_', 'd', 'i', 'g', 'i', 't'], [], baseAsciiHexDigit, false⟩,
  ⟨['a', 's', 'c', 'i', 'i', '_', 'd', 'i', 'g', 'i', 't'], [], baseAsciiDigit, false⟩,
  ⟨['a', 's', 'c', 'i', 'i', '_', 'n', 'o', 'n', 'z', 'e', 'r', 'o', '_', 'd', 'i', 'g', 'i', 't'], [], baseAsciiNonzeroDigit, false⟩,
  ⟨['w', 'h', 'i', 't', 'e', 's', 'p', 'a', 'c', 'e', 's'], [], baseWhitespaces, true⟩,
  ⟨['i', 'n', 't'], [], baseInt, false⟩]

/-- The lines of `derive/tests/json.pest` (`derive/tests/json.pest:1-42`). -/
def jsonLines : List String := [
  "//! A parser for JSON file.",
  "//!",
  "//! And this is a example for JSON parser.",
  "//!",
  "//! Created by [Tomas Tauber](https://github.com/tomtau).",
  "//! Modified by [Boyi Huang](https://github.com/TheVeryDarkness).",
  "",
  "// FIXME: some should be under pest::*",
  "use common::base as p",
  "",
  "json = pest::soi ~ value ~ pest::eoi",
  "",
  "/// Matches object, e.g.: `{ \"foo\": \"bar\" }`",
  "/// Foobar",
  "object = \"{\" ~ pair^* ~ \"}\"",
  "pair   = string ~ \":\" ~ value",
  "",
  "array = \"[\" ~ value ~ (\",\" ~ value)* ~ \"]\" | \"[\" ~ \"]\"",
  "",
  "",
  "//////////////////////",
  "/// Matches value, e.g.: `\"foo\"`, `42`, `true`, `null`, `[]`, `{}`.",
  "//////////////////////",
  "value = string | number | object | array | bool | null",
  "",
  "string  = \"\\\"\" - inner - \"\\\"\"",
  "inner   = (!(\"\\\"\" | \"\\\\\") - pest::any)* - (escape ~ inner)?",
  "escape  = \"\\\\\" - (\"\\\"\" | \"\\\\\" | \"/\" | \"b\" | \"f\" | \"n\" | \"r\" | \"t\" | unicode)",
  "unicode = \"u\" - p::ascii_hex_digit{4}",
  "",
  "number = \"-\"? - int - (\".\" ~ p::ascii_digit+ ~ exp? | exp)?",
  "int    = \"0\" | p::ascii_nonzero_digit - p::ascii_digit*",
  "exp    = (\"E\" | \"e\") - (\"+\" | \"-\")? - p::ascii_digit+",
  "",
  "bool = \"true\" | \"false\"",
  "",
  "null = \"null\"",
  "",
  "space = \" \" | \"\\t\" | \"\\r\" | \"\\n\"",
  "~ = space*",
  "^ = space* - \",\" - space*",
  ""]

/-- `derive/tests/json.pest:11` -/
def rJson : Expr :=
  (.seq (.path [['p', 'e', 's', 't'], ['s', 'o', 'i']]) (.seq (.path [['v', 'a', 'l', 'u', 'e']]) (.path [['p', 'e', 's', 't'], ['e', 'o', 'i']]) .optional) .optional)

/-- `derive/tests/json.pest:15` -/
def rObject : Expr :=
  (.seq (.str ['{']) (.seq (.rep (.separated (.path [['p', 'a', 'i', 'r']]) .mandatory)) (.str ['}']) .optional) .optional)

/-- `derive/tests/json.pest:16` -/
def rPair : Expr :=
  (.seq (.path [['s', 't', 'r', 'i', 'n', 'g']]) (.seq (.str [':']) (.path [['v', 'a', 'l', 'u', 'e']]) .optional) .optional)

/-- `derive/tests/json.pest:18` -/
def rArray : Expr :=
  (.choice (.seq (.str ['[']) (.seq (.path [['v', 'a', 'l', 'u', 'e']]) (.seq (.rep (.seq (.str [',']) (.path [['v', 'a', 'l', 'u', 'e']]) .optional)) (.str [']']) .optional) .optional) .optional) (.seq (.str ['[']) (.str [']']) .optional))

/-- `derive/tests/json.pest:24` -/
def rValue : Expr :=
  (.choice (.path [['s', 't', 'r', 'i', 'n', 'g']]) (.choice (.path [['n', 'u', 'm', 'b', 'e', 'r']]) (.choice (.path [['o', 'b', 'j', 'e', 'c', 't']]) (.choice (.path [['a', 'r', 'r', 'a', 'y']]) (.choice (.path [['b', 'o', 'o', 'l']]) (.path [['n', 'u', 'l', 'l']]))))))

/-- `derive/tests/json.pest:26` -/
def rString : Expr :=
  (.seq (.str ['\"']) (.seq (.path [['i', 'n', 'n', 'e', 'r']]) (.str ['\"']) .none) .none)

/-- `derive/tests/json.pest:27` -/
def rInner : Expr :=
  (.seq (.rep (.seq (.neg (.choice (.str ['\"']) (.str ['\\']))) (.path [['p', 'e', 's', 't'], ['a', 'n', 'y']]) .none)) (.opt (.seq (.path [['e', 's', 'c', 'a', 'p', 'e']]) (.path [['i', 'n', 'n', 'e', 'r']]) .optional)) .none)

/-- `derive/tests/json.pest:28` -/
def rEscape : Expr :=
  (.seq (.str ['\\']) (.choice (.str ['\"']) (.choice (.str ['\\']) (.choice (.str ['/']) (.choice (.str ['b']) (.choice (.str ['f']) (.choice (.str ['n']) (.choice (.str ['r']) (.choice (.str ['t']) (.path [['u', 'n', 'i', 'c', 'o', 'd', 'e']]))))))))) .none)

/-- `derive/tests/json.pest:29` -/
def rUnicode : Expr :=
  (.seq (.str ['u']) (.repRange (.path [['p'], ['a', 's', 'c', 'i', 'i', '_', 'h', 'e', 'x', '_', 'd', 'i', 'g', 'i', 't']]) ⟨some 4, some 4⟩) .none)

/-- `derive/tests/json.pest:31` -/
def rNumber : Expr :=
  (.seq (.opt (.str ['-'])) (.seq (.path [['i', 'n', 't']]) (.opt (.choice (.seq (.str ['.']) (.seq (.repOnce (.path [['p'], ['a', 's', 'c', 'i', 'i', '_', 'd', 'i', 'g', 'i', 't']])) (.opt (.path [['e', 'x', 'p']])) .optional) .optional) (.path [['e', 'x', 'p']]))) .none) .none)

/-- `derive/tests/json.pest:32` -/
def rInt : Expr :=
  (.choice (.str ['0']) (.seq (.path [['p'], ['a', 's', 'c', 'i', 'i', '_', 'n', 'o', 'n', 'z', 'e', 'r', 'o', '_', 'd', 'i', 'g', 'i', 't']]) (.rep (.path [['p'], ['a', 's', 'c', 'i', 'i', '_', 'd', 'i', 'g', 'i', 't']])) .none))

/-- `derive/tests/json.pest:33` -/
def rExp : Expr :=
  (.seq (.choice (.str ['E']) (.str ['e'])) (.seq (.opt (.choice (.str ['+']) (.str ['-']))) (.repOnce (.path [['p'], ['a', 's', 'c', 'i', 'i', '_', 'd', 'i', 'g', 'i', 't']])) .none) .none)

/-- `derive/tests/json.pest:35` -/
def rBool : Expr :=
  (.choice (.str ['t', 'r', 'u', 'e']) (.str ['f', 'a', 'l', 's', 'e']))

/-- `derive/tests/json.pest:37` -/
def rNull : Expr :=
  (.str ['n', 'u', 'l', 'l'])

/-- `derive/tests/json.pest:39` -/
def rSpace : Expr :=
  (.choice (.str [' ']) (.choice (.str ['\t']) (.choice (.str ['\r']) (.str ['\n']))))

/-- `derive/tests/json.pest:40` -/
def optRule : Expr :=
  (.rep (.path [['s', 'p', 'a', 'c', 'e']]))

/-- `derive/tests/json.pest:41` -/
def manRule : Expr :=
  (.seq (.rep (.path [['s', 'p', 'a', 'c', 'e']])) (.seq (.str [',']) (.rep (.path [['s', 'p', 'a', 'c', 'e']])) .none) .none)

/-- The rules of `derive/tests/json.pest`. -/
def jsonRules : List Rule := [
  ⟨['j', 's', 'o', 'n'], [], rJson, false⟩,
  ⟨['o', 'b', 'j', 'e', 'c', 't'], [], rObject, false⟩,
  ⟨['p', 'a', 'i', 'r'], [], rPair, false⟩,
  ⟨['a', 'r', 'r', 'a', 'y'], [], rArray, false⟩,
  ⟨['v', 'a', 'l', 'u', 'e'], [], rValue, false⟩,
  ⟨['s', 't', 'r', 'i', 'n', 'g'], [], rString, false⟩,
  ⟨['i', 'n', 'n', 'e', 'r'], [], rInner, false⟩,
  ⟨['e', 's', 'c', 'a', 'p', 'e'], [], rEscape, false⟩,
  ⟨['u', 'n', 'i', 'c', 'o', 'd', 'e'], [], rUnicode, false⟩,
  ⟨['n', 'u', 'm', 'b', 'e', 'r'], [], rNumber, false⟩,
  ⟨['i', 'n', 't'], [], rInt, false⟩,
  ⟨['e', 'x', 'p'], [], rExp, false⟩,
  ⟨['b', 'o', 'o', 'l'], [], rBool, false⟩,
  ⟨['n', 'u', 'l', 'l'], [], rNull, false⟩,
  ⟨['s', 'p', 'a', 'c', 'e'], [], rSpace, false⟩,
  ⟨['~'], [], optRule, false⟩,
  ⟨['^'], [], manRule, false⟩]

/-- The text with these lines, a line feed between each two. -/
def fileText : List String → Text
  | [] => []
  | [l] => l.toList
  | l :: rest => l.toList ++ '\n' :: fileText rest

/-- The text of `derive/tests/json.pest`. -/
def jsonText : Text := fileText jsonLines

/-- The text of `derive/tests/common/base.pest`. -/
def baseText : Text := fileText baseLines

/-- `use common::base as p` (`derive/tests/json.pest:9`). -/
def baseImport : ImportStmt := ⟨[['c', 'o', 'm', 'm', 'o', 'n'], ['b', 'a', 's', 'e']], none, some ['p']⟩

/-- The items of the file: six lines of documentation, the import, the rules. -/
def jsonItems : List FileItem := List.replicate 6 .doc ++ .imp baseImport :: jsonRules.map .rule

/-- The items of the imported file. -/
def baseItems : List FileItem := baseRules.map .rule

/-- The imported grammar. -/
def baseModule : Module := .mk baseRules []

/-- The grammar. -/
def jsonModule : Module := .mk jsonRules [.file ['p'] baseModule]

end Pest3.Json
