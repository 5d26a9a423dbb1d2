import Verif.JsonExample

/-!
# The grammar of a reported bug and that of the tests of sequences (`derive/tests/issue27.pest`, `derive/tests/sequence.rs`)

The texts, and the rules written in them as expressions of the model.  That these are the rules is not assumed: `C100_grammars` reads the texts
with the model of the grammar reader.
-/

namespace Pest3.Small
open Pest3 Pest3.Gen Pest3.Load Pest3.Json

/-- The lines of the file (`derive/tests/issue27.pest:1-11`). -/
def issueLines : List String := [
  "//! A test for several bugs in https://github.com/pest-parser/pest3/issues/27",
  "",
  "useA = \"a\" ~ \"b\"*",
  "",
  "a = _b",
  "",
  "_b = \"b\"+",
  "",
  "x = \"a\" - (&x | \"b\")",
  "",
  "~ = \",\"",
  ""]

/-- `derive/tests/issue27.pest:3` -/
def tUse : Expr := .seq (.str ['a']) (.rep (.str ['b'])) .optional
/-- `derive/tests/issue27.pest:5` -/
def tA : Expr := .path [['_', 'b']]
/-- `derive/tests/issue27.pest:7` -/
def tB : Expr := .repOnce (.str ['b'])
/-- `derive/tests/issue27.pest:9` -/
def tX : Expr := .seq (.str ['a']) (.choice (.pos (.path [['x']])) (.str ['b'])) .none

/-- The rules. -/
def issueRules : List Rule := [⟨['u', 's', 'e', 'A'], [], tUse, false⟩, ⟨['a'], [], tA, false⟩, ⟨['_', 'b'], [], tB, false⟩, ⟨['x'], [], tX, false⟩, ⟨['~'], [], .str [','], false⟩]

/-- The text of the file. -/
def issueText : Text := fileText issueLines

/-- The grammar. -/
def issueModule : Module := .mk issueRules []

/-- The lines of the grammar (`derive/tests/sequence.rs:5-18`). -/
def seqLines : List String := [
  "",
  "s1  = { \"a\" }",
  "s2  = { \"a\" - \"b\" }",
  "s3  = { \"a\" - \"b\" - \"c\" }",
  "s4  = { \"a\" - \"b\" - \"c\" - \"d\" }",
  "s5  = { \"a\" - \"b\" - \"c\" - \"d\" - \"e\" }",
  "s6  = { \"a\" - \"b\" - \"c\" - \"d\" - \"e\" - \"f\" }",
  "s7  = { \"a\" - \"b\" - \"c\" - \"d\" - \"e\" - \"f\" - \"g\" }",
  "s8  = { \"a\" - \"b\" - \"c\" - \"d\" - \"e\" - \"f\" - \"g\" - \"h\" }",
  "s9  = { \"a\" - \"b\" - \"c\" - \"d\" - \"e\" - \"f\" - \"g\" - \"h\" - \"i\" }",
  "s10 = { \"a\" - \"b\" - \"c\" - \"d\" - \"e\" - \"f\" - \"g\" - \"h\" - \"i\" - \"j\" }",
  "s11 = { \"a\" - \"b\" - \"c\" - \"d\" - \"e\" - \"f\" - \"g\" - \"h\" - \"i\" - \"j\" - \"k\" }",
  "s12 = { \"a\" - \"b\" - \"c\" - \"d\" - \"e\" - \"f\" - \"g\" - \"h\" - \"i\" - \"j\" - \"k\" - \"l\" }",
  ""]

/-- One letter after the other. -/
def seqOf : Text → Expr
  | [] => .str []
  | [x] => .str [x]
  | x :: y :: t => .seq (.str [x]) (seqOf (y :: t)) .none

/-- The names of the rules, and what they match (`derive/tests/sequence.rs:6-17`). -/
def seqTexts : List (Name × Text) := [
  (['s', '1'], ['a']),
  (['s', '2'], ['a', 'b']),
  (['s', '3'], ['a', 'b', 'c']),
  (['s', '4'], ['a', 'b', 'c', 'd']),
  (['s', '5'], ['a', 'b', 'c', 'd', 'e']),
  (['s', '6'], ['a', 'b', 'c', 'd', 'e', 'f']),
  (['s', '7'], ['a', 'b', 'c', 'd', 'e', 'f', 'g']),
  (['s', '8'], ['a', 'b', 'c', 'd', 'e', 'f', 'g', 'h']),
  (['s', '9'], ['a', 'b', 'c', 'd', 'e', 'f', 'g', 'h', 'i']),
  (['s', '1', '0'], ['a', 'b', 'c', 'd', 'e', 'f', 'g', 'h', 'i', 'j']),
  (['s', '1', '1'], ['a', 'b', 'c', 'd', 'e', 'f', 'g', 'h', 'i', 'j', 'k']),
  (['s', '1', '2'], ['a', 'b', 'c', 'd', 'e', 'f', 'g', 'h', 'i', 'j', 'k', 'l'])]

/-- The rules. -/
def seqRules : List Rule := seqTexts.map fun q => ⟨q.1, [], seqOf q.2, false⟩

/-- The text of the grammar. -/
def seqText : Text := fileText seqLines

/-- The grammar. -/
def seqModule : Module := .mk seqRules []

end Pest3.Small
