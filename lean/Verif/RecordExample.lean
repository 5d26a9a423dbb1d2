import Verif.JsonExample

/-!
# The grammar of records of the examples (`derive/tests/meta_rules_silent.rs`)

The text of the grammar, which has silent rules with parameters, and the rules written in it as expressions of the model.  That these are the
rules is not assumed: `C99_grammar` reads the text with the model of the grammar reader.
-/

namespace Pest3.Records
open Pest3 Pest3.Gen Pest3.Load Pest3.Json

/-- The lines of the grammar (`derive/tests/meta_rules_silent.rs:5-12`). -/
def recordLines : List String := [
  "",
  "^ = \"\\r\\n\" | \"\\n\"",
  "field = (pest::ascii_digit | \".\" | \"-\")+",
  "separated(e, s) = _{ e - (s - e)* }",
  "comma_separated(e) = _{ separated(e, \",\") }",
  "record = comma_separated(field)",
  "file = pest::soi - (record ^ \"\")* - pest::eoi",
  ""]

/-- `separated` -/
def sepName : Name := ['s', 'e', 'p', 'a', 'r', 'a', 't', 'e', 'd']
/-- `comma_separated` -/
def commaName : Name := ['c', 'o', 'm', 'm', 'a', '_', 's', 'e', 'p', 'a', 'r', 'a', 't', 'e', 'd']
/-- `field` -/
def fieldName : Name := ['f', 'i', 'e', 'l', 'd']
/-- `record` -/
def recordName : Name := ['r', 'e', 'c', 'o', 'r', 'd']
/-- `file` -/
def fileName : Name := ['f', 'i', 'l', 'e']
/-- `pest::ascii_digit` -/
def digitPath : List Name := [['p', 'e', 's', 't'], ['a', 's', 'c', 'i', 'i', '_', 'd', 'i', 'g', 'i', 't']]
/-- `pest::soi` -/
def soiPath : List Name := [['p', 'e', 's', 't'], ['s', 'o', 'i']]
/-- `pest::eoi` -/
def eoiPath : List Name := [['p', 'e', 's', 't'], ['e', 'o', 'i']]

/-- `derive/tests/meta_rules_silent.rs:6` -/
def tBreak : Expr := .choice (.str ['\r', '\n']) (.str ['\n'])

/-- `derive/tests/meta_rules_silent.rs:7` -/
def tField : Expr := .repOnce (.choice (.path digitPath) (.choice (.str ['.']) (.str ['-'])))

/-- `derive/tests/meta_rules_silent.rs:8` -/
def tSeparated : Expr := .seq (.path [['e']]) (.rep (.seq (.path [['s']]) (.path [['e']]) .none)) .none

/-- `derive/tests/meta_rules_silent.rs:9` -/
def tComma : Expr := .call [sepName] [.path [['e']], .str [',']]

/-- `derive/tests/meta_rules_silent.rs:10` -/
def tRecord : Expr := .call [commaName] [.path [fieldName]]

/-- A record and its line break (`derive/tests/meta_rules_silent.rs:11`). -/
def tLine : Expr := .seq (.path [recordName]) (.str []) .mandatory

/-- `derive/tests/meta_rules_silent.rs:11` -/
def tFile : Expr := .seq (.path soiPath) (.seq (.rep tLine) (.path eoiPath) .none) .none

def breakRule : Rule := ⟨['^'], [], tBreak, false⟩
def fieldRule : Rule := ⟨fieldName, [], tField, false⟩
def sepRule : Rule := ⟨sepName, [['e'], ['s']], tSeparated, true⟩
def commaRule : Rule := ⟨commaName, [['e']], tComma, true⟩
def recordRule : Rule := ⟨recordName, [], tRecord, false⟩
def fileRule : Rule := ⟨fileName, [], tFile, false⟩

/-- The rules. -/
def recordRules : List Rule := [breakRule, fieldRule, sepRule, commaRule, recordRule, fileRule]

/-- The text of the grammar. -/
def recordText : Text := fileText recordLines

/-- The grammar. -/
def recordModule : Module := .mk recordRules []

end Pest3.Records
