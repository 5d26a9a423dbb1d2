import Verif.Ast
import Verif.Codegen

/-!
# Model of the conversion of pairs to expressions and rules (`meta/src/parser.rs:457-579`, `:789-878`)

A `PTree` is a pair of pest 2 with all its inner pairs.  Functions returning `Result<T, Error<Rule>>` return
`Res (Option T)`: `.ok none` is a returned error (which one is dropped), `.panic` a panic.  The recursion follows the
nesting of the pairs and takes fuel.  Spans and documentation are dropped.
-/

namespace Pest3.Gen
open Pest3
open Pest3.Meta (MetaRange MetaRule MetaPair)

/-- A pair of pest 2: its rule, its text and its inner pairs. -/
inductive PTree where
  | node (rule : MetaRule) (text : Text) (inner : List PTree)
deriving Repr

def PTree.rule : PTree → MetaRule
  | .node r _ _ => r

def PTree.text : PTree → Text
  | .node _ t _ => t

def PTree.inner : PTree → List PTree
  | .node _ _ l => l

/-- The part of a pair seen by the functions for literals. -/
def PTree.pair (t : PTree) : MetaPair := ⟨t.rule, t.text, t.inner.map fun c => (c.rule, c.text)⟩

/-- A result of the functions for literals. -/
def ofMeta {α : Type} : Meta.Res α → Res (Option α)
  | .ok a => .ok (some a)
  | .error => .ok none
  | .panic => .panic

/-- The `?` operator. -/
def tryThen {α β : Type} (r : Res (Option α)) (k : α → Res (Option β)) : Res (Option β) :=
  andThen r fun
    | some a => k a
    | none => .ok none

/-- `skip` (`parser.rs:275-281`). -/
def skip (rule : MetaRule) : List PTree → List PTree
  | [] => []
  | p :: rest => if p.rule = rule then rest else p :: rest

/-! ## The Pratt parser of pest 2.8

External code.  Modelled is the documented algorithm for infix operators: the operand, then, as long as the next
operator binds tighter than `rbp`, the operator with its right operand, which for a right-associative operator is parsed with
the operator's precedence less one.  A pair without precedence where an operator is expected panics, as does the end of the pairs
where an operand is expected, and an operator there. -/

/-- Precedences of the (right-associative infix) operators. -/
abbrev Ops := MetaRule → Option Nat

/-- `PrattParser::new()`. -/
def noOps : Ops := fun _ => none

/-- The table made in `parse_rule` (`parser.rs:510-514`): one level per call of `op`. -/
def ruleOps : Ops
  | .choiceOperator => some 20
  | .sequenceOperator => some 30
  | .tildeOperator => some 30
  | .caretOperator => some 30
  | _ => none

/-- The closure `infix` of `parse_node` (`parser.rs:854-870`). -/
def infixNode (lhs : Option Expr) (op : PTree) (rhs : Option Expr) : Res (Option Expr) :=
  match lhs, rhs with
  | some l, some r => match op.rule with
    | .sequenceOperator => .ok (some (.seq l r .none))
    | .tildeOperator => .ok (some (.seq l r .optional))
    | .caretOperator => .ok (some (.seq l r .mandatory))
    | .choiceOperator => .ok (some (.choice l r))
    | _ => .panic
  | _, _ => .ok none

mutual
/-- `expr(pairs, rbp)`. -/
def prattExpr (ops : Ops) (primary : PTree → Res (Option Expr)) : Nat → Nat → List PTree → Res (Option Expr × List PTree)
  | 0, _, _ => .oof
  | fuel + 1, rbp, pairs => match pairs with
    | [] => .panic
    | p :: rest => match ops p.rule with
      | some _ => .panic
      | none => andThen (primary p) fun lhs => prattLoop ops primary fuel rbp lhs rest
/-- The loop of `expr`. -/
def prattLoop (ops : Ops) (primary : PTree → Res (Option Expr)) :
    Nat → Nat → Option Expr → List PTree → Res (Option Expr × List PTree)
  | 0, _, _, _ => .oof
  | fuel + 1, rbp, lhs, pairs => match pairs with
    | [] => .ok (lhs, [])
    | p :: rest => match ops p.rule with
      | none => .panic
      | some prec =>
        if rbp < prec then
          andThen (prattExpr ops primary fuel (prec - 1) rest) fun r =>
            andThen (infixNode lhs p r.1) fun e => prattLoop ops primary fuel rbp e r.2
        else .ok (lhs, p :: rest)
end

/-! ## Paths and terms; `node` is the recursive call of `parse_node` -/

/-- The loop over the identifiers of `parse_path_raw` (`parser.rs:551-554`), with the remaining pairs. -/
def pathNames : List PTree → List Name × List PTree
  | p :: q :: rest =>
    if p.rule = .identifier then
      if q.rule = .ancestryOperator then ((p.text :: (pathNames rest).1), (pathNames rest).2)
      else ((p.text :: (pathNames (q :: rest)).1), (pathNames (q :: rest)).2)
    else ([], p :: q :: rest)
  | [p] => if p.rule = .identifier then ([p.text], []) else ([], [p])
  | [] => ([], [])

/-- The loop over the arguments of `parse_path_raw` (`parser.rs:564-567`). -/
def callArgs (node : PTree → Res (Option Expr)) : List PTree → Res (Option (List Expr))
  | p :: q :: rest =>
    if p.rule = .expression then
      if q.rule = .comma then tryThen (node p) fun e => tryThen (callArgs node rest) fun es => .ok (some (e :: es))
      else tryThen (node p) fun e => tryThen (callArgs node (q :: rest)) fun es => .ok (some (e :: es))
    else .ok (some [])
  | [p] => if p.rule = .expression then tryThen (node p) fun e => .ok (some [e]) else .ok (some [])
  | [] => .ok (some [])

/-- `parse_path_raw` (`parser.rs:542-579`) with `parse_path`'s construction of the expression (`parser.rs:581-591`). -/
def parsePath (node : PTree → Res (Option Expr)) (p : PTree) : Res (Option Expr) :=
  match (pathNames p.inner).2 with
  | [] => .ok (some (.path (pathNames p.inner).1))
  | a :: _ => match a.rule with
    | .call => match a.inner with
      | [] => .panic
      | _ :: inner => tryThen (callArgs node inner) fun args => .ok (some (.call (pathNames p.inner).1 args))
    | .slice => tryThen (ofMeta (Meta.parseSlice a.pair)) fun r => .ok (some (.slice (pathNames p.inner).1 r))
    | _ => .panic

/-- `parse_prefix` (`parser.rs:531-540`). -/
def parsePrefix (p : PTree) (child : Expr) : Res Expr :=
  match p.rule with
  | .positivePredicate => .ok (.pos child)
  | .negativePredicate => .ok (.neg child)
  | _ => .panic

/-- `parse_postfix` (`parser.rs:789-805`). -/
def parsePostfix (p : PTree) (child : Expr) : Res (Option Expr) :=
  match p.rule with
  | .optionalOperator => .ok (some (.opt child))
  | .tildeOperator => .ok (some (.separated child .optional))
  | .caretOperator => .ok (some (.separated child .mandatory))
  | .repeatOperator => .ok (some (.rep child))
  | .repeatOnceOperator => .ok (some (.repOnce child))
  | .boundedRepeat => tryThen (ofMeta (Meta.parseBoundedRepeat p.pair)) fun r => .ok (some (.repRange child r))
  | _ => .panic

/-- The mutable variables of `parse_term`. -/
structure TermSt where
  pre : List PTree
  post : List PTree
  expression : Option Expr

/-- One iteration of the loop of `parse_term` (`parser.rs:816-836`). -/
def termStep (node : PTree → Res (Option Expr)) (p : PTree) (st : TermSt) : Res (Option TermSt) :=
  match p.rule with
  | .positivePredicate | .negativePredicate => .ok (some { st with pre := st.pre ++ [p] })
  | .optionalOperator | .tildeOperator | .caretOperator | .repeatOperator | .repeatOnceOperator | .boundedRepeat =>
    .ok (some { st with post := st.post ++ [p] })
  | .openingParen | .closingParen => .ok (some st)
  | .expression => tryThen (node p) fun e => .ok (some { st with expression := some e })
  | .path => tryThen (parsePath node p) fun e => .ok (some { st with expression := some e })
  | .string => tryThen (ofMeta (Meta.parseString p.pair)) fun s => .ok (some { st with expression := some (.str s) })
  | .rawString => tryThen (ofMeta (Meta.parseRawString p.pair)) fun s => .ok (some { st with expression := some (.str s) })
  | .insensitiveString =>
    tryThen (ofMeta (Meta.parseInsensitiveString p.pair)) fun s => .ok (some { st with expression := some (.insens s) })
  | .range =>
    tryThen (ofMeta (Meta.parseCharRange p.pair)) fun r => .ok (some { st with expression := some (.range r.1 r.2) })
  | _ => .panic

/-- The loop of `parse_term`. -/
def termLoop (node : PTree → Res (Option Expr)) : List PTree → TermSt → Res (Option TermSt)
  | [], st => .ok (some st)
  | p :: rest, st => tryThen (termStep node p st) fun st => termLoop node rest st

/-- `try_fold` over the postfix operators (`parser.rs:838-842`). -/
def foldPostfix : List PTree → Expr → Res (Option Expr)
  | [], e => .ok (some e)
  | p :: rest, e => tryThen (parsePostfix p e) fun e => foldPostfix rest e

/-- `rfold` over the prefix operators (`parser.rs:844-846`). -/
def foldPrefix : List PTree → Expr → Res Expr
  | [], e => .ok e
  | p :: rest, e => andThen (foldPrefix rest e) fun e => parsePrefix p e

/-- `parse_term` (`parser.rs:807-847`). -/
def parseTerm (node : PTree → Res (Option Expr)) (t : PTree) : Res (Option Expr) :=
  tryThen (termLoop node t.inner ⟨[], [], none⟩) fun st =>
    andThen (unwrap st.expression) fun e =>
      tryThen (foldPostfix st.post e) fun e => andThen (foldPrefix st.pre e) fun e => .ok (some e)

/-- `parse_node` (`parser.rs:849-878`). -/
def parseNode (ops : Ops) : Nat → PTree → Res (Option Expr)
  | 0, _ => .oof
  | fuel + 1, t =>
    andThen (prattExpr ops (parseTerm (parseNode ops fuel)) fuel 0 (skip .choiceOperator t.inner)) fun r => .ok r.1

/-! ## Rules -/

/-- The leading documentation comments of `parse_rule` (`parser.rs:467-478`) are dropped. -/
def dropDocs : List PTree → List PTree
  | [] => []
  | p :: rest => if p.rule = .ruleDoc then dropDocs rest else p :: rest

/-- `parse_rule` (`parser.rs:457-529`).  The pair after the name is taken for the parameters whatever it is
(`parser.rs:486-492`); without parameters it is the assignment operator, which has no inner pairs. -/
def parseRule (fuel : Nat) (t : PTree) : Res (Option Rule) :=
  match dropDocs t.inner with
  | name :: args :: rest =>
    let params := (args.inner.filter fun p => p.rule = .identifier).map PTree.text
    let rest := skip .assignmentOperator rest
    match rest with
    | [] => .panic
    | m :: _ =>
      let silent := decide (m.rule = .silentModifier)
      let rest := if silent then rest.tail else rest
      match skip .openingBrace rest with
      | e :: _ => tryThen (parseNode ruleOps fuel e) fun e => .ok (some ⟨name.text, params, e, silent⟩)
      | [] => .panic
  | _ => .panic

/-! ## Imports -/

/-- What `_parse` reads of `use path in "file" as alias` (`parser.rs:327-348`) before it looks for the module.  The path of the file is the
text given to `PathBuf::from`. -/
structure ImportText where
  modPath : List Name
  file : Option Text
  alias : Option Name
deriving DecidableEq, Repr

/-- The loop over the pairs after the path (`parser.rs:342-348`). -/
def importLoop : List PTree → Option Text → Option Name → Res (Option (Option Text × Option Name))
  | [], file, alias => .ok (some (file, alias))
  | p :: rest, file, alias => match p.rule with
    | .string => tryThen (ofMeta (Meta.stringContent p.pair)) fun s => importLoop rest (some s) alias
    | .identifier => importLoop rest file (some p.text)
    | _ => .panic

/-- The beginning of the case `Rule::import` of `_parse` (`parser.rs:327-348`); its Pratt parser has no operators.
With arguments the code panics (`todo!`) right after the path. -/
def parseImport (fuel : Nat) (t : PTree) : Res (Option ImportText) :=
  match t.inner with
  | [] => .panic
  | p :: rest => tryThen (parsePath (parseNode noOps fuel) p) fun
    | .path q => tryThen (importLoop rest none none) fun r => .ok (some ⟨q, r.1, r.2⟩)
    | _ => .panic

end Pest3.Gen
