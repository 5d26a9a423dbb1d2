import Verif.Ast

/-!
# Specification: occurrences of names and simultaneous substitution
-/

namespace Pest3.Gen
open Pest3 Pest3.Meta

/-- `Sub e' e`: `e'` is `e` itself or a part of it (including call arguments). -/
inductive Sub (e' : Expr) : Expr → Prop
  | refl : Sub e' e'
  | pos {e} : Sub e' e → Sub e' (.pos e)
  | neg {e} : Sub e' e → Sub e' (.neg e)
  | seqL {l r t} : Sub e' l → Sub e' (.seq l r t)
  | seqR {l r t} : Sub e' r → Sub e' (.seq l r t)
  | choiceL {l r} : Sub e' l → Sub e' (.choice l r)
  | choiceR {l r} : Sub e' r → Sub e' (.choice l r)
  | opt {e} : Sub e' e → Sub e' (.opt e)
  | rep {e} : Sub e' e → Sub e' (.rep e)
  | repOnce {e} : Sub e' e → Sub e' (.repOnce e)
  | repRange {e b} : Sub e' e → Sub e' (.repRange e b)
  | separated {e t} : Sub e' e → Sub e' (.separated e t)
  | arg {a p args} : a ∈ args → Sub e' a → Sub e' (.call p args)

/-- The parameter `x` is used in `e`. -/
def Occurs (x : Name) (e : Expr) : Prop := Sub (.path [x]) e

mutual
/-- Simultaneous substitution of expressions for single names used without arguments. -/
def Expr.subst (σ : Name → Option Expr) : Expr → Expr
  | .path [x] => (σ x).getD (.path [x])
  | .path p => .path p
  | .pos e => .pos (e.subst σ)
  | .neg e => .neg (e.subst σ)
  | .opt e => .opt (e.subst σ)
  | .rep e => .rep (e.subst σ)
  | .repOnce e => .repOnce (e.subst σ)
  | .repRange e b => .repRange (e.subst σ) b
  | .separated e t => .separated (e.subst σ) t
  | .seq l r t => .seq (l.subst σ) (r.subst σ) t
  | .choice l r => .choice (l.subst σ) (r.subst σ)
  | .call p args => .call p (substAll σ args)
  | .str s => .str s
  | .insens s => .insens s
  | .range a b => .range a b
  | .slice p r => .slice p r
/-- Substitution in every argument. -/
def substAll (σ : Name → Option Expr) : List Expr → List Expr
  | [] => []
  | a :: rest => a.subst σ :: substAll σ rest
end

theorem substAll_eq_map (σ : Name → Option Expr) (l : List Expr) : substAll σ l = l.map (Expr.subst σ) := by
  induction l with
  | nil => rfl
  | cons a l ih => simp [substAll, ih]

/-- Replace `x` by `n`. -/
def single (x : Name) (n : Expr) : Name → Option Expr := fun y => if y = x then some n else none

/-- In no call of `e` do two different arguments use `x`. -/
def OncePerCall (x : Name) (e : Expr) : Prop :=
  ∀ p pre a post, Sub (.call p (pre ++ a :: post)) e → Occurs x a → ∀ b ∈ post, ¬ Occurs x b

end Pest3.Gen
