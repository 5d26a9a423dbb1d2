import Verif.AttemptSpec
import Verif.RewriteSpec

/-!
# Specification: expressions that lead to the same errors
-/

namespace Pest3.Gen
open Pest3

/-- A way to compare what happens that does not depend on what happens before, after and around it. -/
structure Comparison (Q : List Ev → List Ev → Prop) : Prop where
  refl : ∀ es, Q es es
  symm : ∀ es es', Q es es' → Q es' es
  trans : ∀ es es' es'', Q es es' → Q es' es'' → Q es es''
  append : ∀ es es' fs fs', Q es es' → Q fs fs' → Q (es ++ fs) (es' ++ fs')
  rule : ∀ l n f ok es es', Q es es' → Q [.rule l n f ok es] [.rule l n f ok es']

/-- Under all enclosing rules the same is to be reported, maybe in another order or more often; and if rules were tried on one side, then also on the other. -/
def SameReports (es es' : List Ev) : Prop :=
  (es.any Ev.isRule = true ↔ es'.any Ev.isRule = true) ∧ ∀ ups x, x ∈ Ev.reportsList ups es ↔ x ∈ Ev.reportsList ups es'

section
variable (Q : List Ev → List Ev → Prop) (u : Unicode) (root : Module) (rank : RuleVal → Label)

/-- Whatever `a` does, `b` does, too, and comparable things happen. -/
def Imitates (a b : Clo) : Prop :=
  ∀ f c o es, Tries u root rank f (.expr a) c o es → ∃ es', Tries u root rank f (.expr b) c o es' ∧ Q es es'

/-- Written in a rule with the parameters `ps` of the module at `p`, both expressions do the same, and comparable things happen, whether they match or not. -/
def TriesAt (p ps : List Name) (e e' : Expr) : Prop := sepTrivia e = sepTrivia e' ∧
  ∀ ρ, ρ.map Prod.fst = ps → Imitates Q u root rank (.mk p ρ e) (.mk p ρ e') ∧ Imitates Q u root rank (.mk p ρ e') (.mk p ρ e)

end

/-- In all grammars the expressions try the same rules at the same places in the same order. -/
def SameTries (e e' : Expr) : Prop := ∀ u root rank p ps, TriesAt Eq u root rank p ps e e'

/-- In all grammars the same is to be reported about the expressions, maybe in another order or more often. -/
def SameErrors (e e' : Expr) : Prop := ∀ u root rank p ps, TriesAt SameReports u root rank p ps e e'

/-- Expressions of literals and operators, without trivia. -/
inductive Wordless : Expr → Prop
  | literal {e l} : literal e = some l → Wordless e
  | seq {a b} : Wordless a → Wordless b → Wordless (.seq a b .none)
  | choice {a b} : Wordless a → Wordless b → Wordless (.choice a b)
  | opt {a} : Wordless a → Wordless (.opt a)
  | pos {a} : Wordless a → Wordless (.pos a)
  | neg {a} : Wordless a → Wordless (.neg a)
  | rep {e e' min max} : repetition e = some (e', min, max) → sepTrivia e' = .none → Wordless e' → Wordless e

/-- Two errors at the same place of the same text that name the same rules, as expected and as unexpected, and the same illegal accesses to the stack, under the same
enclosing rules; the order and the number of repetitions may differ. -/
structure SameNamed (t t' : Tracker) : Prop where
  position : t'.position = t.position
  keys : t'.attempts.map Prod.fst = t.attempts.map Prod.fst
  expected : ∀ k x, (∃ v, (k, v) ∈ t'.attempts ∧ x ∈ v.positives) ↔ ∃ v, (k, v) ∈ t.attempts ∧ x ∈ v.positives
  unexpected : ∀ k x, (∃ v, (k, v) ∈ t'.attempts ∧ x ∈ v.negatives) ↔ ∃ v, (k, v) ∈ t.attempts ∧ x ∈ v.negatives
  special : ∀ k x, (∃ v, (k, v) ∈ t'.attempts ∧ x ∈ v.specials) ↔ ∃ v, (k, v) ∈ t.attempts ∧ x ∈ v.specials

end Pest3.Gen
