import Verif.AnswerSpec
import Verif.FirstSpec

/-!
# Specification: how often rules are tried, and grammars in which the next character decides

The usual condition for predictive parsing (LL(1)), on the grammar as written.  What comes next is a character, or the end of the text (`none`).
-/

namespace Pest3
mutual
/-- The number of times that a rule is tried. -/
def Ev.count : Ev → Nat
  | .rule _ _ _ _ es => 1 + Ev.countList es
  | .special .. => 0
/-- The same for a list of events. -/
def Ev.countList : List Ev → Nat
  | [] => 0
  | e :: es => e.count + Ev.countList es
end
end Pest3

namespace Pest3.Gen
open Pest3

section
variable (u : Unicode) (root : Module)

/-- An expression, followed by what is followed by one of `F`, may match in front of `o`: it may take it, or match nothing and leave it to what follows. -/
inductive Directs (p : List Name) (F : Option Char → Prop) (e : Expr) : Option Char → Prop
  | takes {x} : Begins u root (.expr (.mk p [] e)) (.takes x) → Directs p F e (some x)
  | skips {o} : Begins u root (.expr (.mk p [] e)) (.skips o) → F o → Directs p F e o

/-- The same for trivia followed by an expression. -/
inductive Comes (p : List Name) (F : Option Char → Prop) (t : Trivia) (e : Expr) : Option Char → Prop
  | trivia {x} : Begins u root (.trivia p t) (.takes x) → Comes p F t e (some x)
  | next {o} : Begins u root (.trivia p t) (.skips o) → Directs u root p F e o → Comes p F t e o

/-- Expressions of the module at `p`, followed by one of `F`, for which the next character decides whether they match, and which alternative.  `fol` is what may follow the rules. -/
inductive Predictive (fol : List Name → Name → Option Char → Prop) (p : List Name) : (Option Char → Prop) → Expr → Prop
  /-- literals and what is built of them -/
  | mute {F e} : Mute u root p [] e → Predictive fol p F e
  | rule {F q p' r} : target u root p q = some (.rule p' r) → r.args = [] → (∀ o, F o → fol p' r.name o) → Predictive fol p F (.path q)
  /-- `G` is what may follow `l` -/
  | seq {F G l r t} : (∀ m f, modAt root p = some m → triviaRule m t = some f → Mute u root p [] f.node) → (∀ o, Comes u root p F t r o → G o) →
      Predictive fol p G l → Predictive fol p F r → Predictive fol p F (.seq l r t)
  | choice {F l r} : (∀ o, ¬ (Directs u root p F l o ∧ Directs u root p F r o)) → Predictive fol p F l → Predictive fol p F r → Predictive fol p F (.choice l r)
  | opt {F e} : (∀ x, Begins u root (.expr (.mk p [] e)) (.takes x) → ¬ F (some x)) → Predictive fol p F e → Predictive fol p F (.opt e)
  /-- what is repeated takes something, and can be followed by itself -/
  | rep {F e e' min max} : repetition e = some (e', min, max) → sepTrivia e' = .none → (∀ o, ¬ Begins u root (.expr (.mk p [] e')) (.skips o)) →
      (∀ x, Begins u root (.expr (.mk p [] e')) (.takes x) → ¬ F (some x)) →
      Predictive fol p (fun o => F o ∨ ∃ x, o = some x ∧ Begins u root (.expr (.mk p [] e')) (.takes x)) e' → Predictive fol p F e
  | separated {F e t} : Predictive fol p F e → Predictive fol p F (.separated e t)

/-- All rules without parameters are predictive. -/
def PredictiveGrammar (fol : List Name → Name → Option Char → Prop) : Prop :=
  ∀ p m r, modAt root p = some m → r ∈ m.rules → r.args = [] → Predictive u root fol p (fol p r.name) r.node

end
end Pest3.Gen
