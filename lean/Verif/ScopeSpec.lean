import Verif.ModuleLemmas
import Verif.GrammarSpec
import Verif.GraphSpec

/-!
# Specification: well-scoped grammars

Every reference names something that exists and is used with as many arguments as it has parameters.
-/

namespace Pest3.Gen
open Pest3

/-- How a path is used. -/
inductive Use where
  | plain
  | call (argc : Nat)
  | slice

/-- Namespaces of built-ins. -/
def namespaces : List (List Name) :=
  [["pest".toList], ["pest".toList, "stack".toList], ["pest".toList, "unicode".toList]]

/-- `q`, written in the root of `a`, can be used like that: without arguments it is a built-in that needs none or a rule without
parameters; with arguments it is `push` with one, a Unicode property with none, or a rule with as many parameters; only
`peek` can be sliced.  The namespaces of built-ins hide whatever else has their name. -/
def Usable (u : Unicode) (a : Module) (q : List Name) (use : Use) : Prop :=
  q ∉ namespaces ∧ match use with
  | .plain => (∃ full l, target u a [] q = some (.builtin full) ∧ builtinLeaf u full = some l) ∨
      ∃ p r, target u a [] q = some (.rule p r) ∧ r.args = []
  | .call n => (target u a [] q = some (.builtin pushPath) ∧ n = 1) ∨
      (∃ x, target u a [] q = some (.builtin ["pest".toList, "unicode".toList, x]) ∧ n = 0) ∨
      ∃ p r, target u a [] q = some (.rule p r) ∧ r.args.length = n
  | .slice => target u a [] q = some (.builtin peekPath)

/-- All references in the body of a rule are usable or parameters. -/
structure Scoped (u : Unicode) (a : Module) (r : Rule) : Prop where
  path : ∀ q, Sub (.path q) r.node → (∃ x ∈ r.args, q = [x]) ∨ Usable u a q .plain
  call : ∀ q args, Sub (.call q args) r.node → Usable u a q (.call args.length)
  slice : ∀ q range, Sub (.slice q range) r.node → Usable u a q .slice

/-- The module is well scoped. -/
structure WellScoped (u : Unicode) (a : Module) : Prop where
  /-- imports of built-ins exist -/
  imports : ∀ x src, Import.builtin x src ∈ a.imports → src ∈ namespaces ∨ IsBuiltin u src
  /-- no rule has the name of an import -/
  names : ∀ r ∈ a.rules, r.name ≠ optName → r.name ≠ manName → ∀ i ∈ a.imports, i.name ≠ r.name
  /-- trivia operators are defined -/
  trivia : TriviaDefined a.rules
  refs : ∀ r ∈ a.rules, Scoped u a r

/-- All modules of the grammar are well scoped. -/
def AllScoped (u : Unicode) (m : Module) : Prop := ∀ a, ModIn a m → WellScoped u a

end Pest3.Gen
