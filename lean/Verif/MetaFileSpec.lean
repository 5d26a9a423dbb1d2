import Verif.MetaFile
import Verif.MetaExprSpec

/-!
# Specification: what the items of a grammar file mean
-/

namespace Pest3.Load
open Pest3 Pest3.Gen
open Pest3.Meta (MetaRule)

/-- Letters without accents. -/
def isAlpha (x : Char) : Prop := ('a' ≤ x ∧ x ≤ 'z') ∨ ('A' ≤ x ∧ x ≤ 'Z')

/-- Names as written: letters, digits and `_`, not beginning with a digit. -/
inductive IsIdent : Name → Prop where
  | mk {x xs} : (x = '_' ∨ isAlpha x) → (∀ y ∈ xs, y = '_' ∨ isAlpha y ∨ ('0' ≤ y ∧ y ≤ '9')) → IsIdent (x :: xs)

/-- Names of rules: identifiers, and `~` and `^`, by which the rules for trivia are called. -/
def IsRuleName (x : Name) : Prop := IsIdent x ∨ x = ['~'] ∨ x = ['^']

/-- All names in the expression can be written. -/
inductive Named : Expr → Prop where
  | str (s) : Named (.str s)
  | insens (s) : Named (.insens s)
  | range (a b) : Named (.range a b)
  | path {q} : (∀ x ∈ q, IsIdent x) → Named (.path q)
  | call {q args} : (∀ x ∈ q, IsIdent x) → (∀ a ∈ args, Named a) → Named (.call q args)
  | slice {q r} : (∀ x ∈ q, IsIdent x) → Named (.slice q r)
  | pos {e} : Named e → Named (.pos e)
  | neg {e} : Named e → Named (.neg e)
  | seq {l r t} : Named l → Named r → Named (.seq l r t)
  | choice {l r} : Named l → Named r → Named (.choice l r)
  | opt {e} : Named e → Named (.opt e)
  | rep {e} : Named e → Named (.rep e)
  | repOnce {e} : Named e → Named (.repOnce e)
  | repRange {e r} : Named e → Named (.repRange e r)
  | separated {e t} : Named e → Named (.separated e t)

/-- Rules that can be written. -/
structure RuleOk (r : Rule) : Prop where
  name : IsRuleName r.name
  params : ∀ p ∈ r.args, IsIdent p
  expr : Writable r.node
  names : Named r.node

/-- Imports that can be written. -/
structure ImportOk (i : ImportStmt) : Prop where
  path : i.modPath ≠ []
  names : ∀ x ∈ i.modPath, IsIdent x
  alias : ∀ x ∈ i.alias, IsIdent x
  file : ∀ f ∈ i.file, ∃ s, pathOf s = f

/-- Items that can be written. -/
def ItemOk : FileItem → Prop
  | .rule r => RuleOk r
  | .imp i => ImportOk i
  | _ => True

/-- An import with arguments. -/
inductive ImportArgs : PTree → Prop where
  | mk {x y q a rest} : q ≠ [] → PTree.rule a = .call ∨ PTree.rule a = .slice → ImportArgs (.node .import x (.node .path y (pathTrees q ++ [a]) :: rest))

/-- What an item says, where raw strings mean what `raw` says. -/
inductive ItemMeans (raw : RawMeaning) : PTree → FileItem → Prop where
  | rule {t name params silent e x} : RuleShaped t name params silent e → WrittenBy raw (.expr e) (some x) →
      ItemMeans raw t (.rule ⟨name, params, x, silent⟩)
  /-- a literal in the rule stands for nothing -/
  | badRule {t name params silent e} : RuleShaped t name params silent e → WrittenBy raw (.expr e) none → ItemMeans raw t .invalid
  | imp {t q alias} : ImportShaped t q none alias → ItemMeans raw t (.imp ⟨q, none, alias⟩)
  | impFile {t q s f alias} : ImportShaped t q (some s) alias → Meta.Denotes s (some f) → ItemMeans raw t (.imp ⟨q, some (pathOf f), alias⟩)
  | badFile {t q s alias} : ImportShaped t q (some s) alias → Meta.Denotes s none → ItemMeans raw t .invalid
  | doc {t} : PTree.rule t = .grammarDoc → ItemMeans raw t .doc

end Pest3.Load
