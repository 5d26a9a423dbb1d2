import Verif.ForestSpec

/-!
# Specification: expressions that do the same, and grammars that differ in such expressions
-/

namespace Pest3.Gen
open Pest3

section
variable (u : Unicode) (root : Module) (p ps : List Name)

/-- Written in a rule with the parameters `ps` of the module at `p`, both expressions match the same: for everything the parameters may stand for, from
every position and with every stack, either both fail, or both match up to the same position with the same stack, or neither does either.  (An operator for trivia that
is applied to a repetition is looked for in the notation, so it has to be the same.) -/
def AgreesAt (e e' : Expr) : Prop := sepTrivia e = sepTrivia e' ∧
  ∀ ρ, ρ.map Prod.fst = ps → ∀ c o, Meaning u root (.expr (.mk p ρ e)) c o ↔ Meaning u root (.expr (.mk p ρ e')) c o

/-- … and the matches have the same tokens. -/
def SameAt (e e' : Expr) : Prop := AgreesAt u root p ps e e' ∧
  ∀ ρ, ρ.map Prod.fst = ps → ∀ c c' F, Shows u root (.expr (.mk p ρ e)) c c' F ↔ Shows u root (.expr (.mk p ρ e')) c c' F

end

/-- The expressions do the same in all grammars. -/
def Same (e e' : Expr) : Prop := ∀ u root p ps, SameAt u root p ps e e'

/-- A rule whose expression has been exchanged. -/
structure RuleAlike (E : List Name → List Name → Expr → Expr → Prop) (p : List Name) (r r' : Rule) : Prop where
  name : r'.name = r.name
  args : r'.args = r.args
  silent : r'.silent = r.silent
  trivia : r.name = optName ∨ r.name = manName → r.args = []
  node : E p r.args r.node r'.node

mutual
/-- Grammars with the same rules and imports, up to expressions that are related by `E`. -/
inductive Alike (E : List Name → List Name → Expr → Expr → Prop) : List Name → Module → Module → Prop
  | mk {p rs rs' is is'} : RulesAlike E p rs rs' → ImportsAlike E p is is' → Alike E p (.mk rs is) (.mk rs' is')
inductive RulesAlike (E : List Name → List Name → Expr → Expr → Prop) : List Name → List Rule → List Rule → Prop
  | nil {p} : RulesAlike E p [] []
  | cons {p r r' rs rs'} : RuleAlike E p r r' → RulesAlike E p rs rs' → RulesAlike E p (r :: rs) (r' :: rs')
inductive ImportsAlike (E : List Name → List Name → Expr → Expr → Prop) : List Name → List Import → List Import → Prop
  | nil {p} : ImportsAlike E p [] []
  | builtin {p x src is is'} : ImportsAlike E p is is' → ImportsAlike E p (.builtin x src :: is) (.builtin x src :: is')
  | file {p x m m' is is'} : Alike E (p ++ [x]) m m' → ImportsAlike E p is is' → ImportsAlike E p (.file x m :: is) (.file x m' :: is')
end

end Pest3.Gen
