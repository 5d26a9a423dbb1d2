import Verif.JsonExample

/-!
# The grammar of tables of the examples (`derive/tests/meta_rules.rs`)

The text of the grammar, and the rules written in it as expressions of the model.  That these are the rules is not assumed: `C95_grammar` reads
the text with the model of the grammar reader.
-/

namespace Pest3.Csv
open Pest3 Pest3.Gen Pest3.Load Pest3.Json

/-- The lines of the grammar (`derive/tests/meta_rules.rs:8-12`). -/
def csvLines : List String := [
  "",
  "separated(i, sep) = i - (sep - i)*",
  "cell              = ('a'..'z' | 'A'..'Z' | '0'..'9' | \".\")+",
  "main              = separated(separated(cell, \" \"* - \",\" - \" \"*), \"\\n\")",
  ""]

/-- `separated` -/
def sepName : Name := ['s', 'e', 'p', 'a', 'r', 'a', 't', 'e', 'd']
/-- `cell` -/
def cellName : Name := ['c', 'e', 'l', 'l']
/-- `main` -/
def mainName : Name := ['m', 'a', 'i', 'n']

/-- `derive/tests/meta_rules.rs:9` -/
def tSeparated : Expr := .seq (.path [['i']]) (.rep (.seq (.path [['s', 'e', 'p']]) (.path [['i']]) .none)) .none

/-- `derive/tests/meta_rules.rs:10` -/
def tCell : Expr := .repOnce (.choice (.range 'a' 'z') (.choice (.range 'A' 'Z') (.choice (.range '0' '9') (.str ['.']))))

/-- What stands between cells (`derive/tests/meta_rules.rs:11`). -/
def tComma : Expr := .seq (.rep (.str [' '])) (.seq (.str [',']) (.rep (.str [' '])) .none) .none

/-- The rows (`derive/tests/meta_rules.rs:11`). -/
def tRow : Expr := .call [sepName] [.path [cellName], tComma]

/-- `derive/tests/meta_rules.rs:11` -/
def tMain : Expr := .call [sepName] [tRow, .str ['\n']]

/-- The rules. -/
def csvRules : List Rule := [⟨sepName, [['i'], ['s', 'e', 'p']], tSeparated, false⟩, ⟨cellName, [], tCell, false⟩, ⟨mainName, [], tMain, false⟩]

/-- The text of the grammar. -/
def csvText : Text := fileText csvLines

/-- The items of the text. -/
def csvItems : List FileItem := csvRules.map .rule

/-- The grammar. -/
def csvModule : Module := .mk csvRules []

end Pest3.Csv
