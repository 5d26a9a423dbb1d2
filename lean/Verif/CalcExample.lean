import Verif.JsonExample

/-!
# The calculator grammar of the examples (`derive/tests/calc.pest` with `derive/tests/common/base.pest`)

The text of the file, and the rules written in it as expressions of the model.  That these are the rules is not assumed: `C94_files` reads the
text with the model of the grammar reader.
-/

namespace Pest3.Calc
open Pest3 Pest3.Gen Pest3.Load Pest3.Json

/-- The lines of `derive/tests/calc.pest` (`derive/tests/calc.pest:1-17`). -/
def calcLines : List String := [
  "use common::base as common",
  "",
  "~ = common::whitespaces*",
  "",
  "program    =   pest::soi ~ expr ~ pest::eoi",
  "expr       =   prefix* ~ primary ~ postfix* ~ (infix ~ prefix* ~ primary ~ postfix* )*",
  "  infix    =  _{ add | sub | mul | div | pow }",
  "    add    =   \"+\" // Addition",
  "    sub    =   \"-\" // Subtraction",
  "    mul    =   \"*\" // Multiplication",
  "    div    =   \"/\" // Division",
  "    pow    =   \"^\" // Exponentiation",
  "  prefix   =  _{ neg }",
  "    neg    =   \"-\" // Negation",
  "  postfix  =  _{ fac }",
  "    fac    =   \"!\" // Factorial",
  "  primary  =  _{ common::int | \"(\" ~ expr ~ \")\" }"]

/-- `derive/tests/calc.pest:3` -/
def cTrivia : Expr :=
  (.rep (.path [['c', 'o', 'm', 'm', 'o', 'n'], ['w', 'h', 'i', 't', 'e', 's', 'p', 'a', 'c', 'e', 's']]))

/-- `derive/tests/calc.pest:5` -/
def cProgram : Expr :=
  (.seq (.path [['p', 'e', 's', 't'], ['s', 'o', 'i']]) (.seq (.path [['e', 'x', 'p', 'r']]) (.path [['p', 'e', 's', 't'], ['e', 'o', 'i']]) .optional) .optional)

/-- `derive/tests/calc.pest:6` -/
def cExpr : Expr :=
  (.seq (.rep (.path [['p', 'r', 'e', 'f', 'i', 'x']])) (.seq (.path [['p', 'r', 'i', 'm', 'a', 'r', 'y']]) (.seq (.rep (.path [['p', 'o', 's', 't', 'f', 'i', 'x']])) (.rep (.seq (.path [['i', 'n', 'f', 'i', 'x']]) (.seq (.rep (.path [['p', 'r', 'e', 'f', 'i', 'x']])) (.seq (.path [['p', 'r', 'i', 'm', 'a', 'r', 'y']]) (.rep (.path [['p', 'o', 's', 't', 'f', 'i', 'x']])) .optional) .optional) .optional)) .optional) .optional) .optional)

/-- `derive/tests/calc.pest:7` -/
def cInfix : Expr :=
  (.choice (.path [['a', 'd', 'd']]) (.choice (.path [['s', 'u', 'b']]) (.choice (.path [['m', 'u', 'l']]) (.choice (.path [['d', 'i', 'v']]) (.path [['p', 'o', 'w']])))))

/-- `derive/tests/calc.pest:8` -/
def cAdd : Expr :=
  (.str ['+'])

/-- `derive/tests/calc.pest:9` -/
def cSub : Expr :=
  (.str ['-'])

/-- `derive/tests/calc.pest:10` -/
def cMul : Expr :=
  (.str ['*'])

/-- `derive/tests/calc.pest:11` -/
def cDiv : Expr :=
  (.str ['/'])

/-- `derive/tests/calc.pest:12` -/
def cPow : Expr :=
  (.str ['^'])

/-- `derive/tests/calc.pest:13` -/
def cPrefix : Expr :=
  (.path [['n', 'e', 'g']])

/-- `derive/tests/calc.pest:14` -/
def cNeg : Expr :=
  (.str ['-'])

/-- `derive/tests/calc.pest:15` -/
def cPostfix : Expr :=
  (.path [['f', 'a', 'c']])

/-- `derive/tests/calc.pest:16` -/
def cFac : Expr :=
  (.str ['!'])

/-- `derive/tests/calc.pest:17` -/
def cPrimary : Expr :=
  (.choice (.path [['c', 'o', 'm', 'm', 'o', 'n'], ['i', 'n', 't']]) (.seq (.str ['(']) (.seq (.path [['e', 'x', 'p', 'r']]) (.str [')']) .optional) .optional))

/-- The rules. -/
def calcRules : List Rule := [
  ⟨['~'], [], cTrivia, false⟩,
  ⟨['p', 'r', 'o', 'g', 'r', 'a', 'm'], [], cProgram, false⟩,
  ⟨['e', 'x', 'p', 'r'], [], cExpr, false⟩,
  ⟨['i', 'n', 'f', 'i', 'x'], [], cInfix, true⟩,
  ⟨['a', 'd', 'd'], [], cAdd, false⟩,
  ⟨['s', 'u', 'b'], [], cSub, false⟩,
  ⟨['m', 'u', 'l'], [], cMul, false⟩,
  ⟨['d', 'i', 'v'], [], cDiv, false⟩,
  ⟨['p', 'o', 'w'], [], cPow, false⟩,
  ⟨['p', 'r', 'e', 'f', 'i', 'x'], [], cPrefix, true⟩,
  ⟨['n', 'e', 'g'], [], cNeg, false⟩,
  ⟨['p', 'o', 's', 't', 'f', 'i', 'x'], [], cPostfix, true⟩,
  ⟨['f', 'a', 'c'], [], cFac, false⟩,
  ⟨['p', 'r', 'i', 'm', 'a', 'r', 'y'], [], cPrimary, true⟩]

/-- The text of `derive/tests/calc.pest`. -/
def calcText : Text := fileText calcLines

/-- `common` -/
def alias : Name := ['c', 'o', 'm', 'm', 'o', 'n']

/-- `use common::base as common` (`derive/tests/calc.pest:1`). -/
def calcImport : ImportStmt := ⟨[alias, ['b', 'a', 's', 'e']], none, some alias⟩

/-- The items of the file: the import, the rules. -/
def calcItems : List FileItem := .imp calcImport :: calcRules.map .rule

/-- The grammar. -/
def calcModule : Module := .mk calcRules [.file alias baseModule]

end Pest3.Calc
