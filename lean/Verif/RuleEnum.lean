import Verif.Linkage

/-!
# The generated rule enumerations

Every generated module has an enumeration `Rule`; rules of imported modules are values of the enumeration of
the importing module, wrapped in the variant of the import.
-/

namespace Pest3.Gen
open Pest3

/-- The values of the generated enumerations `Rule` (`generator/src/common.rs:42-101`). -/
inductive RuleVal where
  | eoi
  | rule (name : Name)
  | sub (name : Name) (v : RuleVal)
deriving DecidableEq, Repr

/-- The files a module imports, by name. -/
def Module.fileNames (m : Module) : List Name :=
  m.imports.filterMap fun i => match i with
    | .builtin _ _ => none
    | .file x _ => some x

/-- The names of the variants (`common.rs:89-98`): `EOI`, the rules other than the trivia rules
(`:49-63`), the imported files (`:65-73`). -/
def Module.variants (m : Module) : List Name :=
  "EOI".toList :: ((m.rules.filter fun r => r.name ≠ optName ∧ r.name ≠ manName).map Rule.name ++ m.fileNames)

/-- The values of the enumeration of a module: the payload of a variant for an import is a value of the enumeration of
the imported module (`common.rs:65-73`). -/
inductive IsValue : Module → RuleVal → Prop
  | eoi {m} : IsValue m .eoi
  | rule {m r} : r ∈ m.rules → r.name ≠ optName → r.name ≠ manName → IsValue m (.rule r.name)
  | sub {m x m' v} : Import.file x m' ∈ m.imports → IsValue m' v → IsValue m (.sub x v)

/-- The names of the types and modules defined in the module `rules` that is generated for a grammar module
(`output.rs:264-269`): the trivia aliases, the modules of imported files (`:247`), the structs of the rules
(`generator.rs:263`). -/
def Output.items : Output → List Name
  | .mk content _ _ mods _ =>
    "__OptionalTrivia".toList :: "__MandatoryTrivia".toList :: (mods.map Prod.fst ++ content.map RuleStruct.name)

/-- `cvt_into` of the enumeration of the module imported as `x` (`output.rs:250-255`). -/
def cvtInto (x : Name) (v : RuleVal) : RuleVal := .sub x v

/-- `get_rule` of the struct of rule `name` in the module at `prefix`, for the enumeration `n` modules further up
(`generator.rs:212-220`): `super::Rule::name` followed by `.cvt_into()` `n` times.  Which `cvt_into` is meant
follows from the types: first that of the module itself, then that of the module it is in. -/
def ruleValue (pfx : List Name) (n : Nat) (name : Name) : RuleVal :=
  (pfx.reverse.take n).foldl (fun v x => cvtInto x v) (.rule name)

/-- The labels of the structs of the program, as the values of the enumeration of the top module. -/
def Labelled (out : Output) (R : Layout) (env : Env) (lab : Label → RuleVal) : Prop :=
  ∀ p o s ts, outAt out p = some o → s ∈ o.content → ts.length = s.args.length →
    lab (env (R.num p s.name ts)).label = ruleValue p p.length s.name

end Pest3.Gen
