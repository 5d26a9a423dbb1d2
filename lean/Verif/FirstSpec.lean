import Verif.RewriteSpec
import Verif.LeftSpec

/-!
# Specification: how matches begin, and alternatives that begin differently

The sets of first characters of predictive parsers, for grammars with predicates, parameters, trivia and the stack.  What comes next is a character, or the
end of the text (`none`).
-/

namespace Pest3.Gen
open Pest3

/-- How a match may begin: by taking a character, or by taking nothing at all in front of what comes next. -/
inductive First where
  | takes (x : Char)
  | skips (next : Option Char)

/-- What comes next in front of such a match. -/
def First.next : First → Option Char
  | .takes x => some x
  | .skips o => o

/-- How literals and built-ins may begin.  The stack may hold anything. -/
def leafBegins : Leaf → First → Prop
  | .str [], f => ∃ o, f = .skips o
  | .str (a :: _), f => f = .takes a
  | .insens [], f => ∃ o, f = .skips o
  | .insens (a :: _), f => ∃ x, f = .takes x ∧ x.toLower = a.toLower
  | .skipChar 0, f => ∃ o, f = .skips o
  | .skipChar (_ + 1), f => ∃ x, f = .takes x
  | .range lo hi, f => ∃ x, f = .takes x ∧ lo ≤ x ∧ x ≤ hi
  | .chr a, f => f = .takes a
  | .prop b, f => ∃ x, f = .takes x ∧ b x = true
  | .any, f => ∃ x, f = .takes x
  | .none, _ => False
  | .empty, f | .soi, f => ∃ o, f = .skips o
  | .eoi, f => f = .skips none
  | .newline, f => f = .takes '\n' ∨ f = .takes '\r'
  | .peekAll, _ | .peek, _ | .pop, _ | .popAll, _ | .slice2 _ _, _ | .slice1 _, _ => True
  | .drop, f => ∃ o, f = .skips o

/-- Literals and built-ins that match whatever comes after that. -/
def leafSurely : Leaf → Option Char → Prop
  | .str [], _ | .insens [], _ | .empty, _ => True
  | .str [a], o => o = some a
  | .insens [a], o => ∃ x, o = some x ∧ x.toLower = a.toLower
  | .range lo hi, o => ∃ x, o = some x ∧ lo ≤ x ∧ x ≤ hi
  | .chr a, o => o = some a
  | .prop b, o => ∃ x, o = some x ∧ b x = true
  | .any, o => o ≠ none
  | .eoi, o => o = none
  | .newline, o => o = some '\n' ∨ o = some '\r'
  | _, _ => False

section
variable (u : Unicode) (root : Module)

/-- The expression cannot fail in front of that. -/
inductive Surely : Clo → Option Char → Prop
  | literal {p ρ e l o} : literal e = some l → leafSurely l o → Surely (.mk p ρ e) o
  | builtin {p ρ e q full l o} : plainRef e = some q → NotParam ρ q → target u root p q = some (.builtin full) → builtinLeaf u full = some l → leafSurely l o →
      Surely (.mk p ρ e) o
  | param {p ρ x a o} : lookupClo x ρ = some a → Surely a o → Surely (.mk p ρ (.path [x])) o
  | rule {p ρ q p' r o} : NotParam ρ q → target u root p q = some (.rule p' r) → Surely (.mk p' [] r.node) o → Surely (.mk p ρ (.path q)) o
  | call {p ρ q args p' r o} : NotParam ρ q → target u root p q = some (.rule p' r) → r.args.length = args.length →
      Surely (.mk p' (r.args.zip (args.map (Clo.mk p ρ))) r.node) o → Surely (.mk p ρ (.call q args)) o
  | choiceL {p ρ l r o} : Surely (.mk p ρ l) o → Surely (.mk p ρ (.choice l r)) o
  | choiceR {p ρ l r o} : Surely (.mk p ρ r) o → Surely (.mk p ρ (.choice l r)) o
  | opt {p ρ e o} : Surely (.mk p ρ (.opt e)) o
  | rep {p ρ e o} : Surely (.mk p ρ (.rep e)) o
  | separated {p ρ e t o} : Surely (.mk p ρ e) o → Surely (.mk p ρ (.separated e t)) o

/-- How matches of an expression, or of trivia, may begin. -/
inductive Begins : SItem → First → Prop
  | literal {p ρ e l f} : literal e = some l → leafBegins l f → Begins (.expr (.mk p ρ e)) f
  | builtin {p ρ e q full l f} : plainRef e = some q → NotParam ρ q → target u root p q = some (.builtin full) → builtinLeaf u full = some l → leafBegins l f →
      Begins (.expr (.mk p ρ e)) f
  | slice {p ρ q range f} : Begins (.expr (.mk p ρ (.slice q range))) f
  | push {p ρ q e f} : NotParam ρ q → target u root p q = some (.builtin pushPath) → Begins (.expr (.mk p ρ e)) f → Begins (.expr (.mk p ρ (.call q [e]))) f
  | param {p ρ x a f} : lookupClo x ρ = some a → Begins (.expr a) f → Begins (.expr (.mk p ρ (.path [x]))) f
  | rule {p ρ q p' r f} : NotParam ρ q → target u root p q = some (.rule p' r) → Begins (.expr (.mk p' [] r.node)) f → Begins (.expr (.mk p ρ (.path q))) f
  | call {p ρ q args p' r f} : NotParam ρ q → target u root p q = some (.rule p' r) → r.args.length = args.length →
      Begins (.expr (.mk p' (r.args.zip (args.map (Clo.mk p ρ))) r.node)) f → Begins (.expr (.mk p ρ (.call q args))) f
  | pos {p ρ e f} : Begins (.expr (.mk p ρ e)) f → Begins (.expr (.mk p ρ (.pos e))) (.skips f.next)
  | neg {p ρ e o} : ¬ Surely u root (.mk p ρ e) o → Begins (.expr (.mk p ρ (.neg e))) (.skips o)
  | seqL {p ρ l r t x} : Begins (.expr (.mk p ρ l)) (.takes x) → Begins (.expr (.mk p ρ (.seq l r t))) (.takes x)
  | seqTrivia {p ρ l r t x} : Begins (.expr (.mk p ρ l)) (.skips (some x)) → Begins (.trivia p t) (.takes x) → Begins (.expr (.mk p ρ (.seq l r t))) (.takes x)
  | seqR {p ρ l r t f} : Begins (.expr (.mk p ρ l)) (.skips f.next) → Begins (.trivia p t) (.skips f.next) → Begins (.expr (.mk p ρ r)) f →
      Begins (.expr (.mk p ρ (.seq l r t))) f
  | choiceL {p ρ l r f} : Begins (.expr (.mk p ρ l)) f → Begins (.expr (.mk p ρ (.choice l r))) f
  | choiceR {p ρ l r f} : Begins (.expr (.mk p ρ r)) f → Begins (.expr (.mk p ρ (.choice l r))) f
  | opt {p ρ e f} : Begins (.expr (.mk p ρ e)) f → Begins (.expr (.mk p ρ (.opt e))) f
  | optNone {p ρ e o} : Begins (.expr (.mk p ρ (.opt e))) (.skips o)
  | rep {p ρ e e' min max f} : repetition e = some (e', min, max) → max ≠ 0 → Begins (.expr (.mk p ρ e')) f → Begins (.expr (.mk p ρ e)) f
  | repTrivia {p ρ e e' min max x} : repetition e = some (e', min, max) → Begins (.expr (.mk p ρ e')) (.skips (some x)) → Begins (.trivia p (sepTrivia e')) (.takes x) →
      Begins (.expr (.mk p ρ e)) (.takes x)
  | repNone {p ρ e e' min max o} : repetition e = some (e', min, max) → min = 0 ∨ max = 0 → Begins (.expr (.mk p ρ e)) (.skips o)
  | separated {p ρ e t f} : Begins (.expr (.mk p ρ e)) f → Begins (.expr (.mk p ρ (.separated e t))) f
  | triviaNone {p o} : Begins (.trivia p .none) (.skips o)
  | triviaRule {p m t r f} : modAt root p = some m → triviaRule m t = some r → Begins (.expr (.mk p [] r.node)) f → Begins (.trivia p t) f

/-- Whatever the parameters `ps` stand for, the two expressions do not both match in front of the same. -/
def BeginApart (p ps : List Name) (a b : Expr) : Prop :=
  ∀ ρ, ρ.map Prod.fst = ps → ∀ f f', Begins u root (.expr (.mk p ρ a)) f → Begins u root (.expr (.mk p ρ b)) f' → f.next ≠ f'.next

/-- The expression returns: everywhere it either matches or fails. -/
def AlwaysReturns (p ps : List Name) (a : Expr) : Prop := ∀ ρ, ρ.map Prod.fst = ps → ∀ c, ∃ o, Meaning u root (.expr (.mk p ρ a)) c o

end

/-- The alternatives of an expression. -/
def alternatives : Expr → List Expr
  | .choice l r => alternatives l ++ alternatives r
  | e => [e]

/-- An expression in which alternatives have been reordered; the alternatives where this has been done satisfy `D`. -/
inductive Reordered (D : List Expr → Prop) : Expr → Expr → Prop
  | refl {e} : Reordered D e e
  | order {e e'} : (alternatives e).Perm (alternatives e') → D (alternatives e) → Reordered D e e'
  | pos {e e'} : Reordered D e e' → Reordered D (.pos e) (.pos e')
  | neg {e e'} : Reordered D e e' → Reordered D (.neg e) (.neg e')
  | opt {e e'} : Reordered D e e' → Reordered D (.opt e) (.opt e')
  | rep {e e'} : Reordered D e e' → Reordered D (.rep e) (.rep e')
  | repOnce {e e'} : Reordered D e e' → Reordered D (.repOnce e) (.repOnce e')
  | repRange {e e' b} : Reordered D e e' → Reordered D (.repRange e b) (.repRange e' b)
  | separated {e e' t} : Reordered D e e' → Reordered D (.separated e t) (.separated e' t)
  | seq {l l' r r' t} : Reordered D l l' → Reordered D r r' → Reordered D (.seq l r t) (.seq l' r' t)
  | choice {l l' r r'} : Reordered D l l' → Reordered D r r' → Reordered D (.choice l r) (.choice l' r')
  | call {q es es'} : es.length = es'.length → (∀ x ∈ es.zip es', Reordered D x.1 x.2) → Reordered D (.call q es) (.call q es')

/-- A grammar in which, in rules without parameters, alternatives that begin differently in both grammars have been reordered. -/
def Reorders (u : Unicode) (root root' : Module) : Prop :=
  Alike (fun p ps e e' => Reordered (fun as => ps = [] ∧ as.Pairwise fun a b => BeginApart u root p [] a b ∧ BeginApart u root' p [] a b) e e') [] root root'

end Pest3.Gen
