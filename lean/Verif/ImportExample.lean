import Verif.StackExample

/-!
# The grammar of the test of imports (`derive/tests/import.rs`)

It is written in the attribute and imports the file of the other tests, `derive/tests/grammar.pest`, whose rules are those of `StackExample`.
-/

namespace Pest3.Imported
open Pest3 Pest3.Gen Pest3.Load Pest3.Json

/-- The lines (`derive/tests/import.rs:5-8`). -/
def importLines : List String := ["", "use tests::grammar", "main = grammar::string", ""]

def testsName : Name := ['t', 'e', 's', 't', 's']
def grammarName : Name := ['g', 'r', 'a', 'm', 'm', 'a', 'r']
def stringName : Name := ['s', 't', 'r', 'i', 'n', 'g']
def mainName : Name := ['m', 'a', 'i', 'n']

/-- `derive/tests/import.rs:7` -/
def tMain : Expr := .path [grammarName, stringName]

def mainRule : Rule := ⟨mainName, [], tMain, false⟩

/-- The import and the rule. -/
def importItems : List FileItem := [.imp ⟨[testsName, grammarName], none, none⟩, .rule mainRule]

/-- The text. -/
def importText : Text := fileText importLines

/-- The grammar with what it imports. -/
def importModule : Module := .mk [mainRule] [.file grammarName Stk.grammar]

end Pest3.Imported
