import Verif.AttemptSpec

/-!
# Specification: rules that are the same, except for where they are written and what they are called

`Corresponds` relates two grammars by a relation between their rules: rules that are related have the same expression, up to references, which are to rules that are related, and the names of parameters.
-/

namespace Pest3.Gen
open Pest3

/-- The parameters `x` and `x'` are at the same place. -/
inductive SameParam : List Name → List Name → Name → Name → Prop
  | here {x x' ps ps'} : SameParam (x :: ps) (x' :: ps') x x'
  | there {x x' y y' ps ps'} : y ≠ x → y' ≠ x' → SameParam ps ps' x x' → SameParam (y :: ps) (y' :: ps') x x'

section
variable (u : Unicode) (root root' : Module) (B : List Name → Rule → List Name → Rule → Prop)

/-- Nothing, the same built-in, or rules that are related. -/
inductive TargetLike : Option Target → Option Target → Prop
  | none : TargetLike none none
  | builtin {q} : TargetLike (some (.builtin q)) (some (.builtin q))
  | rule {p r p' r'} : B p r p' r' → TargetLike (some (.rule p r)) (some (.rule p' r'))

/-- `q`, written in a rule with parameters `ps` of the module at `p` of the one grammar, and `q'` in the other. -/
inductive RefLike (p p' ps ps' : List Name) : List Name → List Name → Prop
  | param {x x'} : SameParam ps ps' x x' → RefLike p p' ps ps' [x] [x']
  | other {q q'} : (∀ x, q = [x] → x ∉ ps) → (∀ x, q' = [x] → x ∉ ps') → TargetLike B (target u root p q) (target u root' p' q') →
      RefLike p p' ps ps' q q'

/-- The trivia of the modules at `p` and `p'`. -/
inductive TriviaLike (p p' : List Name) : Trivia → Prop
  | none : TriviaLike p p' .none
  | absent {t} : (∀ m, modAt root p = some m → triviaRule m t = none) → (∀ m', modAt root' p' = some m' → triviaRule m' t = none) → TriviaLike p p' t
  | rule {t m m' r r'} : modAt root p = some m → modAt root' p' = some m' → triviaRule m t = some r → triviaRule m' t = some r' → r.args = [] → r'.args = [] →
      B p r p' r' → TriviaLike p p' t

/-- Expressions that are the same up to references. -/
inductive ExprLike (p p' ps ps' : List Name) : Expr → Expr → Prop
  | literal {e l} : literal e = some l → ExprLike p p' ps ps' e e
  | path {q q'} : RefLike u root root' B p p' ps ps' q q' → ExprLike p p' ps ps' (.path q) (.path q')
  | call {q q' args args'} : RefLike u root root' B p p' ps ps' q q' → args.length = args'.length →
      (∀ (i : Nat) a a', args[i]? = some a → args'[i]? = some a' → ExprLike p p' ps ps' a a') → ExprLike p p' ps ps' (.call q args) (.call q' args')
  | slice {q q' range} : RefLike u root root' B p p' ps ps' q q' → ExprLike p p' ps ps' (.slice q range) (.slice q' range)
  | pos {e e'} : ExprLike p p' ps ps' e e' → ExprLike p p' ps ps' (.pos e) (.pos e')
  | neg {e e'} : ExprLike p p' ps ps' e e' → ExprLike p p' ps ps' (.neg e) (.neg e')
  | opt {e e'} : ExprLike p p' ps ps' e e' → ExprLike p p' ps ps' (.opt e) (.opt e')
  | rep {e e'} : ExprLike p p' ps ps' e e' → ExprLike p p' ps ps' (.rep e) (.rep e')
  | repOnce {e e'} : ExprLike p p' ps ps' e e' → ExprLike p p' ps ps' (.repOnce e) (.repOnce e')
  | repRange {e e' range} : ExprLike p p' ps ps' e e' → ExprLike p p' ps ps' (.repRange e range) (.repRange e' range)
  | separated {e e' t} : ExprLike p p' ps ps' e e' → TriviaLike root root' B p p' t → ExprLike p p' ps ps' (.separated e t) (.separated e' t)
  | seq {l l' r r' t} : ExprLike p p' ps ps' l l' → ExprLike p p' ps ps' r r' → TriviaLike root root' B p p' t → ExprLike p p' ps ps' (.seq l r t) (.seq l' r' t)
  | choice {l l' r r'} : ExprLike p p' ps ps' l l' → ExprLike p p' ps ps' r r' → ExprLike p p' ps ps' (.choice l r) (.choice l' r')

/-- Rules that are related have as many parameters, are silent or not, and have the same expression up to references. -/
def Corresponds : Prop := ∀ p r p' r', B p r p' r' → r.args.length = r'.args.length ∧ r.silent = r'.silent ∧
  ExprLike u root root' B p p' r.args r'.args r.node r'.node

/-- The relabelling of tokens: rules that are related. -/
def LabelLike (a a' : RuleVal) : Prop := ∃ p r p' r', B p r p' r' ∧ a = ruleAt p r.name ∧ a' = ruleAt p' r'.name

mutual
/-- Tokens for the same text and of rules that are related, with such tokens inside. -/
inductive TokenLike : Pair RuleVal → Pair RuleVal → Prop
  | mk {a a' i j F F'} : LabelLike B a a' → TokensLike F F' → TokenLike (.mk a i j F) (.mk a' i j F')
inductive TokensLike : List (Pair RuleVal) → List (Pair RuleVal) → Prop
  | nil : TokensLike [] []
  | cons {t t' F F'} : TokenLike t t' → TokensLike F F' → TokensLike (t :: F) (t' :: F')
end

end

/-! ## Importing -/

/-- The value for a rule of a module, seen from further up. -/
def RuleVal.under (p : List Name) (v : RuleVal) : RuleVal := p.foldr .sub v

/-! ## Adding and reordering -/

/-- Every module of `root` is in `root'` at the same path, with its rules and built-ins, in any order. -/
def Extends (root root' : Module) : Prop := ∀ p m, modAt root p = some m → ∃ m', modAt root' p = some m' ∧ (∀ r ∈ m.rules, r ∈ m'.rules) ∧
  ∀ x src, Import.builtin x src ∈ m.imports → Import.builtin x src ∈ m'.imports

/-! ## Renaming -/

section
variable (f : Name → Name)

/-- Only names without path are renamed. -/
def renamePath : List Name → List Name
  | [x] => [f x]
  | q => q

mutual
/-- The expression with other names for rules and parameters. -/
def renameExpr : Expr → Expr
  | .str s => .str s
  | .insens s => .insens s
  | .range a b => .range a b
  | .path q => .path (renamePath f q)
  | .call q args => .call (renamePath f q) (renameExprs args)
  | .slice q r => .slice (renamePath f q) r
  | .pos e => .pos (renameExpr e)
  | .neg e => .neg (renameExpr e)
  | .seq l r t => .seq (renameExpr l) (renameExpr r) t
  | .choice l r => .choice (renameExpr l) (renameExpr r)
  | .opt e => .opt (renameExpr e)
  | .rep e => .rep (renameExpr e)
  | .repOnce e => .repOnce (renameExpr e)
  | .repRange e b => .repRange (renameExpr e) b
  | .separated e t => .separated (renameExpr e) t
def renameExprs : List Expr → List Expr
  | [] => []
  | e :: es => renameExpr e :: renameExprs es
end

/-- The rule with other names for itself, its parameters, and what it refers to. -/
def renameRule (r : Rule) : Rule := ⟨f r.name, r.args.map f, renameExpr f r.node, r.silent⟩

/-- The module with other names for its rules and their parameters. -/
def renameModule (m : Module) : Module := .mk (m.rules.map (renameRule f)) m.imports

/-- Different names remain different, and names of imports and of the trivia rules remain. -/
structure Renames (m : Module) : Prop where
  inj : ∀ x y, f x = f y → x = y
  opt : f optName = optName
  man : f manName = manName
  imports : ∀ i ∈ m.imports, f i.name = i.name

/-- The value of a rule of the top module is renamed. -/
def RuleVal.renamed : RuleVal → RuleVal
  | .rule x => .rule (f x)
  | v => v

end

end Pest3.Gen
