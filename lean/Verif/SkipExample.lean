import Verif.JsonExample

/-!
# The grammars with comments of the examples (`derive/tests/skip.rs`, `derive/examples/reader.rs`)

The texts of the two grammars, and the rules written in them as expressions of the model.  That these are the rules is not assumed:
`C96_grammars` reads the texts with the model of the grammar reader.
-/

namespace Pest3.Skip
open Pest3 Pest3.Gen Pest3.Load Pest3.Json

/-- The lines of the grammar of `derive/tests/skip.rs` (lines 7-11). -/
def skipLines : List String := [
  "",
  "~          = (\" \" | \"/*\" - (!\"*/\" - pest::any)* - \"*/\")*",
  "main       = \"x\"~*",
  "program    = pest::soi ~ main ~ pest::eoi",
  ""]

/-- The lines of the grammar of `derive/examples/reader.rs` (lines 6-10). -/
def readerLines : List String := [
  "",
  "~       = \" \" | \"/*\" - (!\"*/\" - pest::any)* - \"*/\"",
  "x       = \"x\"",
  "main    = x~+",
  ""]

/-- `pest::any` -/
def anyPath : List Name := [['p', 'e', 's', 't'], ['a', 'n', 'y']]
/-- `pest::soi` -/
def soiPath : List Name := [['p', 'e', 's', 't'], ['s', 'o', 'i']]
/-- `pest::eoi` -/
def eoiPath : List Name := [['p', 'e', 's', 't'], ['e', 'o', 'i']]
/-- `main` -/
def mainName : Name := ['m', 'a', 'i', 'n']
/-- `program` -/
def programName : Name := ['p', 'r', 'o', 'g', 'r', 'a', 'm']

/-- What comments consist of (`derive/tests/skip.rs:8`). -/
def kBody : Expr := .rep (.seq (.neg (.str ['*', '/'])) (.path anyPath) .none)

/-- A blank or a comment (`derive/tests/skip.rs:8`, `derive/examples/reader.rs:7`). -/
def kGap : Expr := .choice (.str [' ']) (.seq (.str ['/', '*']) (.seq kBody (.str ['*', '/']) .none) .none)

/-- `derive/tests/skip.rs:9` -/
def kMain : Expr := .rep (.separated (.str ['x']) .optional)

/-- `derive/tests/skip.rs:10` -/
def kProgram : Expr := .seq (.path soiPath) (.seq (.path [mainName]) (.path eoiPath) .optional) .optional

/-- `derive/examples/reader.rs:9` -/
def kReader : Expr := .repOnce (.separated (.path [['x']]) .optional)

/-- The rules of `derive/tests/skip.rs`. -/
def skipRules : List Rule := [⟨['~'], [], .rep kGap, false⟩, ⟨mainName, [], kMain, false⟩, ⟨programName, [], kProgram, false⟩]

/-- The rules of `derive/examples/reader.rs`. -/
def readerRules : List Rule := [⟨['~'], [], kGap, false⟩, ⟨['x'], [], .str ['x'], false⟩, ⟨mainName, [], kReader, false⟩]

/-- The texts of the grammars. -/
def skipText : Text := fileText skipLines
def readerText : Text := fileText readerLines

/-- The grammars. -/
def skipModule : Module := .mk skipRules []
def readerModule : Module := .mk readerRules []

end Pest3.Skip
