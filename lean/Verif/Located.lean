import Verif.MetaFile
import Verif.Collect

/-!
# Model of the positions of pairs, nodes and errors (`meta/src/parser.rs:34-77`, `:457-878`)

The functions of `MetaExpr` once more, with the spans of the nodes they make and of the errors they return.  Paths of files, which all spans of one
file have in common, are left out.
-/

namespace Pest3.Gen
open Pest3
open Pest3.Meta (MetaRange MetaRule MetaPair)

/-- `Span` (`parser.rs:34-39`) without the path; also the span of a pair of pest 2. -/
structure Loc where
  start : Nat
  stop : Nat
deriving DecidableEq, Repr

/-- `Span::start` (`parser.rs:42-48`). -/
def Loc.withStart (l : Loc) (start : Nat) : Loc := ⟨start, l.stop⟩

/-- `Span::end` (`parser.rs:50-56`). -/
def Loc.withStop (l : Loc) (stop : Nat) : Loc := ⟨l.start, stop⟩

/-- `Span::union` (`parser.rs:70-76`). -/
def Loc.union (a b : Loc) : Loc := ⟨a.start, b.stop⟩

/-- A pair of pest 2 with its position. -/
inductive LTree where
  | node (rule : MetaRule) (text : Text) (loc : Loc) (inner : List LTree)
deriving Repr

def LTree.rule : LTree → MetaRule
  | .node r _ _ _ => r

def LTree.text : LTree → Text
  | .node _ t _ _ => t

def LTree.loc : LTree → Loc
  | .node _ _ l _ => l

def LTree.inner : LTree → List LTree
  | .node _ _ _ l => l

mutual
/-- The pair without positions. -/
def LTree.erase : LTree → PTree
  | .node r t _ l => .node r t (eraseAll l)
def LTree.eraseAll : List LTree → List PTree
  | [] => []
  | t :: l => t.erase :: LTree.eraseAll l
end

/-- The part of a pair seen by the functions for literals. -/
def LTree.pair (t : LTree) : MetaPair := ⟨t.rule, t.text, t.inner.map fun c => (c.rule, c.text)⟩

/-- The pairs of a rule, see `wrap`; positions are in bytes. -/
def wrapL (k : RKind) (m : Mode) (r : MetaRule) (c c' : Cfg) (ts : List LTree) : List LTree :=
  if k.token m then [.node r (between c c') ⟨utf8Len c.pre, utf8Len c'.pre⟩ ts] else ts

/-- The recogniser, see `recog`. -/
def recogL (g : Gram) : Nat → Mode → PE → Cfg → Res (Option (Cfg × List LTree))
  | 0, _, _, _ => .oof
  | fuel + 1, m, e, c => match e with
    | .str s => .ok ((eat s c).map (·, []))
    | .range a b => .ok ((eatIf (fun x => a ≤ x && x ≤ b) c).map (·, []))
    | .any => .ok ((eatIf (fun _ => true) c).map (·, []))
    | .soi => .ok (if c.pre = [] then some (c, []) else none)
    | .eoi => .ok (if c.suf = [] then some (c, []) else none)
    | .ref r =>
      tryThen (recogL g fuel ((g r).1.inside m) (g r).2 c) fun x => .ok (some (x.1, wrapL (g r).1 m r c x.1 x.2))
    | .seq e f =>
      tryThen (recogL g fuel m e c) fun x => tryThen (recogL g fuel m .skip x.1) fun y =>
        tryThen (recogL g fuel m f y.1) fun z => .ok (some (z.1, x.2 ++ z.2))
    | .choice e f =>
      andThen (recogL g fuel m e c) fun
        | some x => .ok (some x)
        | none => recogL g fuel m f c
    | .opt e =>
      andThen (recogL g fuel m e c) fun
        | some x => .ok (some x)
        | none => .ok (some (c, []))
    | .rep e =>
      andThen (recogL g fuel m e c) fun
        | some x => tryThen (recogL g fuel m (.more e) x.1) fun y => .ok (some (y.1, x.2 ++ y.2))
        | none => .ok (some (c, []))
    | .more e =>
      tryThen (recogL g fuel m .skip c) fun s =>
        andThen (recogL g fuel m e s.1) fun
          | some x => tryThen (recogL g fuel m (.more e) x.1) fun y => .ok (some (y.1, x.2 ++ y.2))
          | none => .ok (some (c, []))
    | .pos e => tryThen (recogL g fuel m e c) fun _ => .ok (some (c, []))
    | .neg e =>
      andThen (recogL g fuel m e c) fun
        | some _ => .ok none
        | none => .ok (some (c, []))
    | .push e =>
      tryThen (recogL g fuel m e c) fun x => .ok (some ({ x.1 with stk := x.1.stk ++ [between c x.1] }, x.2))
    | .peek => match c.stk.getLast? with
      | some s => .ok ((eat s c).map (·, []))
      | none => .ok none
    | .pop => match c.stk.getLast? with
      | some s => .ok ((eat s c).map fun c' => ({ c' with stk := c'.stk.dropLast }, []))
      | none => .ok none
    | .skip => match m with
      | .nonAtomic => tryThen (recogL g fuel .atomic skipBody c) fun x => .ok (some (x.1, []))
      | _ => .ok (some (c, []))

/-! ## Nodes and errors -/

/-- `ParseNode` (`parser.rs:125-129`): an expression with the spans of all its parts. -/
inductive SExpr where
  | str (s : Text) (l : Loc)
  | insens (s : Text) (l : Loc)
  | range (lo hi : Char) (l : Loc)
  | path (p : List Name) (l : Loc)
  | call (p : List Name) (args : List SExpr) (l : Loc)
  | slice (p : List Name) (r : MetaRange Int) (l : Loc)
  | pos (e : SExpr) (l : Loc)
  | neg (e : SExpr) (l : Loc)
  | seq (x y : SExpr) (t : Trivia) (l : Loc)
  | choice (x y : SExpr) (l : Loc)
  | opt (e : SExpr) (l : Loc)
  | rep (e : SExpr) (l : Loc)
  | repOnce (e : SExpr) (l : Loc)
  | repRange (e : SExpr) (r : MetaRange Nat) (l : Loc)
  | separated (e : SExpr) (t : Trivia) (l : Loc)
deriving Repr

/-- The field `span`. -/
def SExpr.span : SExpr → Loc
  | .str _ l | .insens _ l | .range _ _ l | .path _ l | .call _ _ l | .slice _ _ l | .pos _ l | .neg _ l | .seq _ _ _ l
  | .choice _ _ l | .opt _ l | .rep _ l | .repOnce _ l | .repRange _ _ l | .separated _ _ l => l

mutual
/-- The expression without the spans. -/
def SExpr.erase : SExpr → Expr
  | .str s _ => .str s
  | .insens s _ => .insens s
  | .range a b _ => .range a b
  | .path q _ => .path q
  | .call q args _ => .call q (eraseAll args)
  | .slice q r _ => .slice q r
  | .pos e _ => .pos e.erase
  | .neg e _ => .neg e.erase
  | .seq x y t _ => .seq x.erase y.erase t
  | .choice x y _ => .choice x.erase y.erase
  | .opt e _ => .opt e.erase
  | .rep e _ => .rep e.erase
  | .repOnce e _ => .repOnce e.erase
  | .repRange e r _ => .repRange e.erase r
  | .separated e t _ => .separated e.erase t
def SExpr.eraseAll : List SExpr → List Expr
  | [] => []
  | e :: l => e.erase :: SExpr.eraseAll l
end

/-- `Error::new_from_span` with a `CustomError`. -/
structure LErr where
  message : Text
  loc : Loc
deriving DecidableEq, Repr

/-- `Result<T, Error<Rule>>`, a panic, or no fuel. -/
abbrev LRes (α : Type) := Res (Except LErr α)

/-- The `?` operator. -/
def tryL {α β : Type} (r : LRes α) (k : α → LRes β) : LRes β :=
  andThen r fun
    | .ok a => k a
    | .error e => .ok (.error e)

/-- A result of the functions for literals whose errors are all the same. -/
def ofMetaL {α : Type} (e : LErr) : Meta.Res α → LRes α
  | .ok a => .ok (.ok a)
  | .error => .ok (.error e)
  | .panic => .panic

/-- `skip` (`parser.rs:275-281`). -/
def skipL (rule : MetaRule) : List LTree → List LTree
  | [] => []
  | p :: rest => if p.rule = rule then rest else p :: rest

/-! ## Literals -/

/-- `parse_string` (`parser.rs:619-632`). -/
def stringL (p : LTree) : LRes SExpr :=
  tryL (ofMetaL ⟨"incorrect string literal".toList, p.loc⟩ (Meta.parseString p.pair)) fun s => .ok (.ok (.str s p.loc))

/-- `parse_raw_string` (`parser.rs:634-644`), which returns no error. -/
def rawStringL (p : LTree) : LRes SExpr :=
  tryL (ofMetaL ⟨[], p.loc⟩ (Meta.parseRawString p.pair)) fun s => .ok (.ok (.str s p.loc))

/-- `parse_insensitive_string` (`parser.rs:646-659`). -/
def insensitiveL (p : LTree) : LRes SExpr :=
  tryL (ofMetaL ⟨"incorrect string literal".toList, p.loc⟩ (Meta.parseInsensitiveString p.pair)) fun s => .ok (.ok (.insens s p.loc))

/-- The content of a character (`parser.rs:665-672`, `:676-683`). -/
def characterL (p : LTree) : LRes Text :=
  match Meta.slice p.text 1 1 with
  | none => .panic
  | some s => match Meta.unescape s with
    | none => .ok (.error ⟨"incorrect char literal".toList, p.loc⟩)
    | some t => .ok (.ok t)

/-- `parse_char_range` (`parser.rs:661-691`). -/
def charRangeL (p : LTree) : LRes SExpr :=
  match p.inner with
  | a :: _ :: b :: _ =>
    tryL (characterL a) fun ca => tryL (characterL b) fun cb =>
      match ca, cb with
      | x :: _, y :: _ => .ok (.ok (.range x y p.loc))
      | _, _ => .panic
  | _ => .panic

/-- `pair_to` (`parser.rs:693-704`); both `usize` and `isize` have 8 bytes (64-bit target). -/
def pairTo {α : Type} (fromStr : Text → Option α) (p : LTree) : LRes α :=
  match fromStr p.text with
  | some n => .ok (.ok n)
  | none => .ok (.error ⟨"number cannot overflow 8 bytes".toList, p.loc⟩)

/-- The numbers of `parse_range` (`parser.rs:710-713`). -/
def numbersL {α : Type} (fromStr : Text → Option α) : List LTree → LRes (List α)
  | [] => .ok (.ok [])
  | p :: rest =>
    if p.rule = .number ∨ p.rule = .integer then
      tryL (pairTo fromStr p) fun n => tryL (numbersL fromStr rest) fun ns => .ok (.ok (n :: ns))
    else numbersL fromStr rest

/-- `parse_range` (`parser.rs:706-744`). -/
def rangeL {α : Type} (fromStr : Text → Option α) (pairs : List LTree) : LRes (MetaRange α) :=
  match pairs with
  | [] => .panic
  | _ :: pairs =>
    tryL (numbersL fromStr pairs) fun numbers =>
      match pairs.map LTree.rule with
      | [_, r1, _, _] =>
        if r1 = .rangeOperator then
          match numbers with
          | a :: b :: _ => .ok (.ok ⟨some a, some b⟩)
          | _ => .panic
        else .panic
      | [r0, r1, _] =>
        if r1 = .rangeOperator then
          match numbers with
          | a :: _ => .ok (.ok ⟨some a, none⟩)
          | _ => .panic
        else if r0 = .rangeOperator then
          match numbers with
          | a :: _ => .ok (.ok ⟨none, some a⟩)
          | _ => .panic
        else .panic
      | [r0, _] =>
        if r0 = .rangeOperator then .ok (.ok ⟨none, none⟩)
        else match numbers with
          | a :: _ => .ok (.ok ⟨some a, some a⟩)
          | _ => .panic
      | _ => .panic

/-- `inner_span` (`parser.rs:747-758`): from the first to the last pair between the braces. -/
def innerSpan (p : LTree) : Res Loc :=
  match p.inner with
  | _ :: q :: rest => match (q :: rest).reverse with
    | _ :: r :: _ => .ok ⟨q.loc.start, r.loc.stop⟩
    | _ => .panic
  | _ => .panic

/-- The range of `parse_bounded_repeat` (`parser.rs:746-787`). -/
def boundedL (p : LTree) : LRes (MetaRange Nat) :=
  tryL (rangeL Meta.usizeFromStr p.inner) fun range =>
    let fail (message : Text) : LRes (MetaRange Nat) := andThen (innerSpan p) fun l => .ok (.error ⟨message, l⟩)
    match range.start, range.stop with
    | some a, some b =>
      if a > b then fail ("repetition range void (".toList ++ (showNat a ++ (" > ".toList ++ (showNat b ++ ")".toList))))
      else if b = 0 then fail "cannot repeat 0 times".toList
      else .ok (.ok range)
    | _, some b => if b = 0 then fail "cannot repeat 0 times".toList else .ok (.ok range)
    | _, none => .ok (.ok range)

/-! ## Expressions -/

/-- The closure `infix` of `parse_node` (`parser.rs:854-870`). -/
def infixL (lhs : Except LErr SExpr) (op : LTree) (rhs : Except LErr SExpr) : LRes SExpr :=
  match lhs with
  | .error e => .ok (.error e)
  | .ok l => match rhs with
    | .error e => .ok (.error e)
    | .ok r =>
      let span := l.span.union r.span
      match op.rule with
      | .sequenceOperator => .ok (.ok (.seq l r .none span))
      | .tildeOperator => .ok (.ok (.seq l r .optional span))
      | .caretOperator => .ok (.ok (.seq l r .mandatory span))
      | .choiceOperator => .ok (.ok (.choice l r span))
      | _ => .panic

mutual
/-- `expr(pairs, rbp)` of the Pratt parser, see `prattExpr`. -/
def prattExprL (ops : Ops) (primary : LTree → LRes SExpr) : Nat → Nat → List LTree → Res (Except LErr SExpr × List LTree)
  | 0, _, _ => .oof
  | fuel + 1, rbp, pairs => match pairs with
    | [] => .panic
    | p :: rest => match ops p.rule with
      | some _ => .panic
      | none => andThen (primary p) fun lhs => prattLoopL ops primary fuel rbp lhs rest
/-- The loop of `expr`. -/
def prattLoopL (ops : Ops) (primary : LTree → LRes SExpr) :
    Nat → Nat → Except LErr SExpr → List LTree → Res (Except LErr SExpr × List LTree)
  | 0, _, _, _ => .oof
  | fuel + 1, rbp, lhs, pairs => match pairs with
    | [] => .ok (lhs, [])
    | p :: rest => match ops p.rule with
      | none => .panic
      | some prec =>
        if rbp < prec then
          andThen (prattExprL ops primary fuel (prec - 1) rest) fun r =>
            andThen (infixL lhs p r.1) fun e => prattLoopL ops primary fuel rbp e r.2
        else .ok (lhs, p :: rest)
end

/-- The loop over the identifiers of `parse_path_raw` (`parser.rs:551-554`), with the remaining pairs. -/
def pathNamesL : List LTree → List Name × List LTree
  | p :: q :: rest =>
    if p.rule = .identifier then
      if q.rule = .ancestryOperator then ((p.text :: (pathNamesL rest).1), (pathNamesL rest).2)
      else ((p.text :: (pathNamesL (q :: rest)).1), (pathNamesL (q :: rest)).2)
    else ([], p :: q :: rest)
  | [p] => if p.rule = .identifier then ([p.text], []) else ([], [p])
  | [] => ([], [])

/-- The loop over the arguments of `parse_path_raw` (`parser.rs:564-567`). -/
def callArgsL (node : LTree → LRes SExpr) : List LTree → LRes (List SExpr)
  | p :: q :: rest =>
    if p.rule = .expression then
      if q.rule = .comma then tryL (node p) fun e => tryL (callArgsL node rest) fun es => .ok (.ok (e :: es))
      else tryL (node p) fun e => tryL (callArgsL node (q :: rest)) fun es => .ok (.ok (e :: es))
    else .ok (.ok [])
  | [p] => if p.rule = .expression then tryL (node p) fun e => .ok (.ok [e]) else .ok (.ok [])
  | [] => .ok (.ok [])

/-- `parse_path` (`parser.rs:581-591`) with `parse_path_raw` (`:542-579`): the span of the whole pair. -/
def pathL (node : LTree → LRes SExpr) (p : LTree) : LRes SExpr :=
  match (pathNamesL p.inner).2 with
  | [] => .ok (.ok (.path (pathNamesL p.inner).1 p.loc))
  | a :: _ => match a.rule with
    | .call => match a.inner with
      | [] => .panic
      | _ :: inner => tryL (callArgsL node inner) fun args => .ok (.ok (.call (pathNamesL p.inner).1 args p.loc))
    | .slice => tryL (rangeL Meta.isizeFromStr a.inner) fun r => .ok (.ok (.slice (pathNamesL p.inner).1 r p.loc))
    | _ => .panic

/-- `parse_prefix` (`parser.rs:531-540`). -/
def prefixL (p : LTree) (child : SExpr) : Res SExpr :=
  let span := child.span.withStart p.loc.start
  match p.rule with
  | .positivePredicate => .ok (.pos child span)
  | .negativePredicate => .ok (.neg child span)
  | _ => .panic

/-- `parse_postfix` (`parser.rs:789-805`); a pair is never of the silent rule `overridable_operator` (`:791`). -/
def postfixL (p : LTree) (child : SExpr) : LRes SExpr :=
  let span := if p.rule = .overridableOperator then child.span.withStart p.loc.start else child.span.withStop p.loc.stop
  match p.rule with
  | .optionalOperator => .ok (.ok (.opt child span))
  | .tildeOperator => .ok (.ok (.separated child .optional span))
  | .caretOperator => .ok (.ok (.separated child .mandatory span))
  | .repeatOperator => .ok (.ok (.rep child span))
  | .repeatOnceOperator => .ok (.ok (.repOnce child span))
  | .boundedRepeat => tryL (boundedL p) fun r => .ok (.ok (.repRange child r span))
  | _ => .panic

/-- The mutable variables of `parse_term`. -/
structure TermStL where
  pre : List LTree
  post : List LTree
  expression : Option SExpr

/-- One iteration of the loop of `parse_term` (`parser.rs:816-836`). -/
def termStepL (node : LTree → LRes SExpr) (p : LTree) (st : TermStL) : LRes TermStL :=
  match p.rule with
  | .positivePredicate | .negativePredicate => .ok (.ok { st with pre := st.pre ++ [p] })
  | .optionalOperator | .tildeOperator | .caretOperator | .repeatOperator | .repeatOnceOperator | .boundedRepeat =>
    .ok (.ok { st with post := st.post ++ [p] })
  | .openingParen | .closingParen => .ok (.ok st)
  | .expression => tryL (node p) fun e => .ok (.ok { st with expression := some e })
  | .path => tryL (pathL node p) fun e => .ok (.ok { st with expression := some e })
  | .string => tryL (stringL p) fun e => .ok (.ok { st with expression := some e })
  | .rawString => tryL (rawStringL p) fun e => .ok (.ok { st with expression := some e })
  | .insensitiveString => tryL (insensitiveL p) fun e => .ok (.ok { st with expression := some e })
  | .range => tryL (charRangeL p) fun e => .ok (.ok { st with expression := some e })
  | _ => .panic

/-- The loop of `parse_term`. -/
def termLoopL (node : LTree → LRes SExpr) : List LTree → TermStL → LRes TermStL
  | [], st => .ok (.ok st)
  | p :: rest, st => tryL (termStepL node p st) fun st => termLoopL node rest st

/-- `try_fold` over the postfix operators (`parser.rs:838-842`). -/
def foldPostfixL : List LTree → SExpr → LRes SExpr
  | [], e => .ok (.ok e)
  | p :: rest, e => tryL (postfixL p e) fun e => foldPostfixL rest e

/-- `rfold` over the prefix operators (`parser.rs:844-846`). -/
def foldPrefixL : List LTree → SExpr → Res SExpr
  | [], e => .ok e
  | p :: rest, e => andThen (foldPrefixL rest e) fun e => prefixL p e

/-- `parse_term` (`parser.rs:807-847`). -/
def termL (node : LTree → LRes SExpr) (t : LTree) : LRes SExpr :=
  tryL (termLoopL node t.inner ⟨[], [], none⟩) fun st =>
    andThen (unwrap st.expression) fun e =>
      tryL (foldPostfixL st.post e) fun e => andThen (foldPrefixL st.pre e) fun e => .ok (.ok e)

/-- `parse_node` (`parser.rs:849-878`). -/
def nodeL (ops : Ops) : Nat → LTree → LRes SExpr
  | 0, _ => .oof
  | fuel + 1, t =>
    andThen (prattExprL ops (termL (nodeL ops fuel)) fuel 0 (skipL .choiceOperator t.inner)) fun r => .ok r.1

/-! ## Rules -/

/-- `ParseRule` (`parser.rs:115-123`) without documentation. -/
structure SRule where
  name : Name
  args : List Name
  span : Loc
  node : SExpr
  silent : Bool

/-- The rule without spans. -/
def SRule.erase (r : SRule) : Rule := ⟨r.name, r.args, r.node.erase, r.silent⟩

/-- The leading documentation comments, see `dropDocs`. -/
def dropDocsL : List LTree → List LTree
  | [] => []
  | p :: rest => if p.rule = .ruleDoc then dropDocsL rest else p :: rest

/-- `parse_rule` (`parser.rs:457-529`). -/
def ruleL (fuel : Nat) (t : LTree) : LRes SRule :=
  match dropDocsL t.inner with
  | name :: args :: rest =>
    let params := (args.inner.filter fun p => p.rule = .identifier).map LTree.text
    let rest := skipL .assignmentOperator rest
    match rest with
    | [] => .panic
    | m :: _ =>
      let silent := decide (m.rule = .silentModifier)
      let rest := if silent then rest.tail else rest
      match skipL .openingBrace rest with
      | e :: _ => tryL (nodeL ruleOps fuel e) fun e => .ok (.ok ⟨name.text, params, t.loc, e, silent⟩)
      | [] => .panic
  | _ => .panic

/-! ## Files -/

/-- `importLoop` (`parser.rs:342-348`). -/
def importLoopL : List LTree → Option Text → Option Name → LRes (Option Text × Option Name)
  | [], file, alias => .ok (.ok (file, alias))
  | p :: rest, file, alias => match p.rule with
    | .string =>
      tryL (ofMetaL ⟨"invalid string literal".toList, p.loc⟩ (Meta.stringContent p.pair)) fun s => importLoopL rest (some s) alias
    | .identifier => importLoopL rest file (some p.text)
    | _ => .panic

/-- The beginning of the case `Rule::import` of `_parse` (`parser.rs:327-348`), see `parseImport`. -/
def importL (fuel : Nat) (t : LTree) : LRes ImportText :=
  match t.inner with
  | [] => .panic
  | p :: rest => tryL (pathL (nodeL noOps fuel) p) fun
    | .path q _ => tryL (importLoopL rest none none) fun r => .ok (.ok ⟨q, r.1, r.2⟩)
    | _ => .panic

end Pest3.Gen

namespace Pest3.Load
open Pest3 Pest3.Gen
open Pest3.Meta (MetaRule)

/-- An item of a file, see `FileItem`. -/
inductive LItem where
  | rule (r : SRule)
  | imp (i : ImportStmt)
  | doc
  | invalid (e : LErr)
  | panics

/-- The item without positions. -/
def LItem.erase : LItem → FileItem
  | .rule r => .rule r.erase
  | .imp i => .imp i
  | .doc => .doc
  | .invalid _ => .invalid
  | .panics => .panics

/-- An item of which reading ends with a value, an error or a panic. -/
def settleL : LRes LItem → Res LItem
  | .ok (.ok i) => .ok i
  | .ok (.error e) => .ok (.invalid e)
  | .panic => .ok .panics
  | .oof => .oof

/-- The body of the loop of `_parse` (`parser.rs:324-402`), see `readItem`. -/
def readItemL (fuel : Nat) (t : LTree) : Option (Res LItem) :=
  match t.rule with
  | .import => some (settleL (tryL (importL fuel t) fun i => .ok (.ok (.imp ⟨i.modPath, i.file.map pathOf, i.alias⟩))))
  | .grammarRule => some (settleL (tryL (ruleL fuel t) fun r => .ok (.ok (.rule r))))
  | .grammarDoc => some (.ok .doc)
  | _ => none

/-- The loop. -/
def readItemsL (fuel : Nat) : List LTree → Res (List LItem)
  | [] => .ok []
  | t :: rest => match readItemL fuel t with
    | some i => andThen i fun i => andThen (readItemsL fuel rest) fun l => .ok (i :: l)
    | none => readItemsL fuel rest

/-- The items of a text, or `none` if it is no grammar.  The error `_parse` returns for its text is the first one among the items. -/
def readTextL (fuel : Nat) (text : Text) : Res (Option (List LItem)) :=
  tryThen (recogL metaGrammar fuel .nonAtomic (.ref .grammarRules) ⟨[], text, []⟩) fun x =>
    andThen (readItemsL fuel x.2) fun l => .ok (some l)

end Pest3.Load
