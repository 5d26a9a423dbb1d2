import Verif.Meta

/-!
# Abstract syntax of grammars

`meta/src/parser.rs`.  A `ParseNode` is an expression with the span it was written at
(`meta/src/parser.rs:125-129`); the spans are only used in error messages and are dropped, so a
`ParseNode` is modelled by its expression.
-/

namespace Pest3.Gen
open Pest3 Pest3.Meta

/-- Names of rules, modules and parameters. -/
abbrev Name := Text

/-- `Trivia` (`meta/src/parser.rs:174-182`). -/
inductive Trivia where
  | none | optional | mandatory
deriving DecidableEq, Repr

/-- `ParseExpr` (`meta/src/parser.rs:200-215`).  The three shapes of the optional `PathArgs`
(`meta/src/parser.rs:137-141`) are three constructors. -/
inductive Expr where
  | str (s : Text)
  | insens (s : Text)
  | range (lo hi : Char)
  /-- `Path(p, None)` -/
  | path (p : List Name)
  /-- `Path(p, Some(Call(args)))` -/
  | call (p : List Name) (args : List Expr)
  /-- `Path(p, Some(Slice(r)))` -/
  | slice (p : List Name) (r : MetaRange Int)
  | pos (e : Expr)
  | neg (e : Expr)
  | seq (l r : Expr) (t : Trivia)
  | choice (l r : Expr)
  | opt (e : Expr)
  | rep (e : Expr)
  | repOnce (e : Expr)
  | repRange (e : Expr) (r : MetaRange Nat)
  | separated (e : Expr) (t : Trivia)
deriving Repr, BEq, Inhabited

/-- `ParseRule` (`meta/src/parser.rs:115-123`) without documentation and span. -/
structure Rule where
  name : Name
  args : List Name
  node : Expr
  silent : Bool
deriving Repr, Inhabited

/-- `p.len() == 1 && p[0] == arg_name` (`meta/src/parser.rs:220`). -/
def isName (x : Name) : List Name → Bool
  | [y] => y == x
  | _ => false

mutual
/-- `ParseExpr::replace` (`meta/src/parser.rs:218-246`): the new expression and the reported value. -/
def Expr.replace (x : Name) (n : Expr) : Expr → Expr × Bool
  | .path p => if isName x p then (n, true) else (.path p, false)
  | .pos e => let r := Expr.replace x n e; (.pos r.1, r.2)
  | .neg e => let r := Expr.replace x n e; (.neg r.1, r.2)
  | .opt e => let r := Expr.replace x n e; (.opt r.1, r.2)
  | .rep e => let r := Expr.replace x n e; (.rep r.1, r.2)
  | .repOnce e => let r := Expr.replace x n e; (.repOnce r.1, r.2)
  | .repRange e b => let r := Expr.replace x n e; (.repRange r.1 b, r.2)
  | .separated e t => let r := Expr.replace x n e; (.separated r.1 t, r.2)
  | .seq l r t => let a := Expr.replace x n l; let b := Expr.replace x n r; (.seq a.1 b.1 t, a.2 || b.2)
  | .choice l r => let a := Expr.replace x n l; let b := Expr.replace x n r; (.choice a.1 b.1, a.2 || b.2)
  | .call p args => let r := replaceAny x n args; (.call p r.1, r.2)
  | .str s => (.str s, false)
  | .insens s => (.insens s, false)
  | .range a b => (.range a b, false)
  | .slice p r => (.slice p r, false)
/-- `args.iter_mut().any(|arg| arg.expr.replace(..))` (`meta/src/parser.rs:241-243`): `any` stops at the first
element for which the closure returns true. -/
def replaceAny (x : Name) (n : Expr) : List Expr → List Expr × Bool
  | [] => ([], false)
  | a :: rest =>
    let r := Expr.replace x n a
    if r.2 then (r.1 :: rest, true)
    else let rs := replaceAny x n rest; (r.1 :: rs.1, rs.2)
end

end Pest3.Gen
