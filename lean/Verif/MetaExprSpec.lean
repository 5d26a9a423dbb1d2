import Verif.MetaExpr
import Verif.MetaSpec

/-!
# Specification: how expressions in grammars are read

`Written` says what an expression means by rules for each level of binding, loosest first: choices, sequences, prefix
operators, postfix operators, and what stands alone (literals, paths, parentheses).  Both binary levels group to the right.  `Shaped` is the
meta-grammar (`meta/src/grammar.pest:42-92`), which knows no levels.  The outcome `none` is that a literal in the expression stands for nothing.
-/

namespace Pest3.Gen
open Pest3
open Pest3.Meta (MetaRange MetaRule MetaPair Escape escaped)

/-- A pair without inner pairs. -/
def tok (r : MetaRule) (s : String) : PTree := .node r s.toList []

/-- `t` is a pair of the same rule with the same tokens; between them there may be blanks and comments. -/
def PTree.Spells (t : PTree) (p : MetaPair) : Prop := t.rule = p.rule ∧ t.pair.inner = p.inner

/-- Identifiers joined by `::`. -/
def pathTrees : List Name → List PTree
  | [] => []
  | [x] => [.node .identifier x []]
  | x :: y :: rest => .node .identifier x [] :: tok .ancestryOperator "::" :: pathTrees (y :: rest)

/-- Items joined by commas, with one more at the end if `trailing`. -/
def commaTrees (trailing : Bool) : List PTree → List PTree
  | [] => []
  | [a] => if trailing then [a, tok .comma ","] else [a]
  | a :: b :: rest => a :: tok .comma "," :: commaTrees trailing (b :: rest)

/-- A character between apostrophes and what it stands for.  An unescaped double quote is left out (see
`C43_quote_witness`). -/
inductive CharLit : Text → Option Char → Prop where
  | plain {c} : c ≠ '"' → c ≠ '\\' → CharLit [c] (some c)
  | escape {e v} : Escape e v → CharLit e (escaped v)
  | backslash : CharLit ['\\'] none

/-- An integer as written (`integer` of the meta-grammar). -/
inductive IntLit where
  | plain (n : Nat)
  | plus (n : Nat)
  | minus (n : Nat)

def IntLit.text : IntLit → Text
  | .plain n => Meta.decimal n
  | .plus n => '+' :: Meta.decimal n
  | .minus n => '-' :: Meta.decimal n

def IntLit.value : IntLit → Int
  | .plain n => n
  | .plus n => n
  | .minus n => -n

/-- An optional bound is representable. -/
def fits (a : Option IntLit) : Prop := ∀ x ∈ a, -2 ^ 63 ≤ x.value ∧ x.value < 2 ^ 63

instance (a : Option IntLit) : Decidable (fits a) := by
  unfold fits; cases a <;> simp <;> infer_instance

/-- The bounds of a slice. -/
def sliceSpec (a b : Option IntLit) : Option (MetaRange Int) :=
  if fits a ∧ fits b then some ⟨a.map IntLit.value, b.map IntLit.value⟩ else none

/-- The bounds of a repetition: they fit, at least one repetition is allowed, and the lower is not above the upper. -/
def boundsSpec (a b : Option Nat) : Option (MetaRange Nat) :=
  if (∀ x ∈ a, x < 2 ^ 64) ∧ (∀ x ∈ b, x < 2 ^ 64) ∧ b ≠ some 0 ∧ (∀ x ∈ a, ∀ y ∈ b, x ≤ y) then some ⟨a, b⟩ else none

/-- Prefix operators. -/
inductive Pre where
  | pos | neg
deriving DecidableEq, Repr

def Pre.tree : Pre → PTree
  | .pos => tok .positivePredicate "&"
  | .neg => tok .negativePredicate "!"

def Pre.apply : Pre → Expr → Expr
  | .pos, e => .pos e
  | .neg, e => .neg e

/-- Ways to repeat. -/
inductive PostOp where
  | opt | star | plus
  | bounds (a b : Option Nat)
  | exact (n : Nat)

/-- Postfix operators: a way to repeat, with trivia in between if it is preceded by `~` or `^`. -/
structure Post where
  sep : Option Trivia
  op : PostOp

/-- The operator written for a kind of trivia. -/
def sepTrees : Option Trivia → List PTree
  | some .optional => [tok .tildeOperator "~"]
  | some .mandatory => [tok .caretOperator "^"]
  | _ => []

/-- `p` is a pair for the operator. -/
def PostOp.IsTree : PostOp → PTree → Prop
  | .opt, p => p = tok .optionalOperator "?"
  | .star, p => p = tok .repeatOperator "*"
  | .plus, p => p = tok .repeatOnceOperator "+"
  | .bounds a b, p => p.Spells (Meta.repeatPair (a.map Meta.decimal) (b.map Meta.decimal))
  | .exact n, p => p.Spells (Meta.exactPair (Meta.decimal n))

def Post.sepApply (p : Post) (e : Expr) : Expr :=
  match p.sep with
  | some t => .separated e t
  | none => e

def Post.apply (p : Post) (e : Expr) : Option Expr :=
  match p.op with
  | .opt => some (.opt (p.sepApply e))
  | .star => some (.rep (p.sepApply e))
  | .plus => some (.repOnce (p.sepApply e))
  | .bounds a b => (boundsSpec a b).map (.repRange (p.sepApply e))
  | .exact n => (boundsSpec (some n) (some n)).map (.repRange (p.sepApply e))

/-- The postfix operators `ps` as pairs. -/
inductive PostTrees : List Post → List PTree → Prop where
  | nil : PostTrees [] []
  | cons {p t ps ts} : p.sep ≠ some .none → p.op.IsTree t → PostTrees ps ts →
      PostTrees (p :: ps) (sepTrees p.sep ++ t :: ts)

/-- Postfix operators apply in the order they are written. -/
def applyPosts : List Post → Expr → Option Expr
  | [], e => some e
  | p :: ps, e => (p.apply e).bind (applyPosts ps)

/-- Prefix operators apply from the innermost, that is the last. -/
def applyPres : List Pre → Expr → Expr
  | [], e => e
  | p :: ps, e => p.apply (applyPres ps e)

/-- The trivia meant by a binary operator of sequences. -/
def joins : MetaRule → Option Trivia
  | .sequenceOperator => some .none
  | .tildeOperator => some .optional
  | .caretOperator => some .mandatory
  | _ => none

/-- All of them, if all are there. -/
def allOf : List (Option Expr) → Option (List Expr)
  | [] => some []
  | o :: os => o.bind fun e => (allOf os).map (e :: ·)

/-- The parts of an expression. -/
inductive WItem where
  | expr (t : PTree)
  | choices (ts : List PTree)
  | sequence (ts : List PTree)
  | term (t : PTree)
  | primary (ts : List PTree)

/-- What a raw string with `n` signs `#` and the content `s` stands for. -/
abbrev RawMeaning := Nat → Text → Text → Prop

/-- Raw strings without signs stand for their content; those with signs are left out (see `C42_pound_witness`). -/
def RawPlain : RawMeaning := fun n s s' => n = 0 ∧ s' = s

/-- What raw strings are read as by the code: with signs, the second pair is a quote or a sign. -/
def RawRead : RawMeaning := fun n s s' => s' = match n with
  | 0 => s
  | 1 => ['"']
  | _ => ['#']

inductive WrittenBy (raw : RawMeaning) : WItem → Option Expr → Prop where
  | expression {x ts o} : WrittenBy raw (.choices ts) o → WrittenBy raw (.expr (.node .expression x ts)) o
  /-- a leading bar means nothing -/
  | leading {x bar ts o} : bar.rule = .choiceOperator → WrittenBy raw (.choices ts) o →
      WrittenBy raw (.expr (.node .expression x (bar :: ts))) o
  | alternative {ts o} : WrittenBy raw (.sequence ts) o → WrittenBy raw (.choices ts) o
  | choice {ts bar ts'} {a b : Option Expr} : WrittenBy raw (.sequence ts) a → bar.rule = .choiceOperator → WrittenBy raw (.choices ts') b →
      WrittenBy raw (.choices (ts ++ bar :: ts')) (a.bind fun a => b.map fun b => .choice a b)
  | single {t o} : WrittenBy raw (.term t) o → WrittenBy raw (.sequence [t]) o
  | seq {t op tr ts} {a b : Option Expr} : WrittenBy raw (.term t) a → joins op.rule = some tr → WrittenBy raw (.sequence ts) b →
      WrittenBy raw (.sequence (t :: op :: ts)) (a.bind fun a => b.map fun b => .seq a b tr)
  | term {x prim posts ts} {pres : List Pre} {o : Option Expr} : WrittenBy raw (.primary prim) o → PostTrees posts ts →
      WrittenBy raw (.term (.node .term x (pres.map Pre.tree ++ (prim ++ ts))))
        (o.bind fun e => (applyPosts posts e).map (applyPres pres))
  | paren {t o} : WrittenBy raw (.expr t) o → WrittenBy raw (.primary [tok .openingParen "(", t, tok .closingParen ")"]) o
  | str {t : PTree} {s : Text} {o : Option Text} : t.pair = Meta.stringPair s → Meta.Denotes s o → WrittenBy raw (.primary [t]) (o.map .str)
  | raw {t : PTree} {n : Nat} {s s' : Text} : t.pair = Meta.rawStringPair n s → raw n s s' → WrittenBy raw (.primary [t]) (some (.str s'))
  | insens {t : PTree} {s : Text} {o : Option Text} : t.pair = Meta.insensitivePair s → Meta.Denotes s o → WrittenBy raw (.primary [t]) (o.map .insens)
  | range {t : PTree} {a b : Text} {c d : Option Char} : t.Spells (Meta.rangePair a b) → CharLit a c → CharLit b d →
      WrittenBy raw (.primary [t]) (c.bind fun c => d.map fun d => .range c d)
  | path {x q} : q ≠ [] → WrittenBy raw (.primary [.node .path x (pathTrees q)]) (some (.path q))
  | call {x y q args os tr} : q ≠ [] → args.length = os.length → (∀ p ∈ args.zip os, WrittenBy raw (.expr p.1) p.2) →
      WrittenBy raw (.primary [.node .path x (pathTrees q ++ [.node .call y
        (tok .openingParen "(" :: (commaTrees tr args ++ [tok .closingParen ")"]))])])
        ((allOf os).map (.call q))
  | slice {x q} {t : PTree} {a b : Option IntLit} : q ≠ [] → t.Spells (Meta.slicePair (a.map IntLit.text) (b.map IntLit.text)) →
      WrittenBy raw (.primary [.node .path x (pathTrees q ++ [t])]) ((sliceSpec a b).map (.slice q))

/-- What an expression means. -/
abbrev Written := WrittenBy RawPlain

/-- The parts of an expression in the meta-grammar. -/
inductive ShItem where
  | expr (t : PTree)
  /-- `term ~ (infix_operator ~ term)*` -/
  | chain (ts : List PTree)
  | term (t : PTree)
  | node (ts : List PTree)

/-- `infix_operator`. -/
def IsInfix (r : MetaRule) : Prop :=
  r = .sequenceOperator ∨ r = .tildeOperator ∨ r = .caretOperator ∨ r = .choiceOperator

/-- The meta-grammar (`grammar.pest:42-92`), without `'"'` in character ranges, which are not read
as they should (C43), and with the raw strings that have a meaning. -/
inductive ShapedBy (raw : RawMeaning) : ShItem → Prop where
  /-- without the optional part, or with it but without the leading bar -/
  | plain {x ts} : ShapedBy raw (.chain ts) → ShapedBy raw (.expr (.node .expression x ts))
  /-- with the optional part and the leading bar -/
  | leading {x bar t bar' ts} : bar.rule = .choiceOperator → ShapedBy raw (.term t) → bar'.rule = .choiceOperator →
      ShapedBy raw (.chain ts) → ShapedBy raw (.expr (.node .expression x (bar :: t :: bar' :: ts)))
  | one {t} : ShapedBy raw (.term t) → ShapedBy raw (.chain [t])
  | more {t op ts} : ShapedBy raw (.term t) → IsInfix op.rule → ShapedBy raw (.chain ts) → ShapedBy raw (.chain (t :: op :: ts))
  | term {x prim posts ts} {pres : List Pre} : ShapedBy raw (.node prim) → PostTrees posts ts →
      ShapedBy raw (.term (.node .term x (pres.map Pre.tree ++ (prim ++ ts))))
  | paren {t} : ShapedBy raw (.expr t) → ShapedBy raw (.node [tok .openingParen "(", t, tok .closingParen ")"])
  | str {t : PTree} {s : Text} {o : Option Text} : t.pair = Meta.stringPair s → Meta.Denotes s o → ShapedBy raw (.node [t])
  | raw {t : PTree} {n : Nat} {s s' : Text} : t.pair = Meta.rawStringPair n s → raw n s s' → ShapedBy raw (.node [t])
  | insens {t : PTree} {s : Text} {o : Option Text} : t.pair = Meta.insensitivePair s → Meta.Denotes s o → ShapedBy raw (.node [t])
  | range {t : PTree} {a b : Text} {c d : Option Char} : t.Spells (Meta.rangePair a b) → CharLit a c → CharLit b d → ShapedBy raw (.node [t])
  | path {x q} : q ≠ [] → ShapedBy raw (.node [.node .path x (pathTrees q)])
  | call {x y q args tr} : q ≠ [] → (∀ a ∈ args, ShapedBy raw (.expr a)) →
      ShapedBy raw (.node [.node .path x (pathTrees q ++ [.node .call y
        (tok .openingParen "(" :: (commaTrees tr args ++ [tok .closingParen ")"]))])])
  | slice {x q} {t : PTree} {a b : Option IntLit} : q ≠ [] → t.Spells (Meta.slicePair (a.map IntLit.text) (b.map IntLit.text)) →
      ShapedBy raw (.node [.node .path x (pathTrees q ++ [t])])

/-- Without raw strings with `#`, which are not read as they should (C42). -/
abbrev Shaped := ShapedBy RawPlain

/-! ## Expressions that can be written -/

/-- Expressions that have a notation: `~` and `^` of repetitions stand before the operator of the repetition, bounds and
slices fit the machine's integers, and bounds are satisfiable. -/
inductive Writable : Expr → Prop where
  | str (s) : Writable (.str s)
  | insens (s) : Writable (.insens s)
  | range (a b) : Writable (.range a b)
  | path {q} : q ≠ [] → Writable (.path q)
  | call {q args} : q ≠ [] → (∀ a ∈ args, Writable a) → Writable (.call q args)
  | slice {q} {r : MetaRange Int} : q ≠ [] → (∀ x ∈ r.start, -2 ^ 63 ≤ x ∧ x < 2 ^ 63) → (∀ x ∈ r.stop, -2 ^ 63 ≤ x ∧ x < 2 ^ 63) →
      Writable (.slice q r)
  | pos {e} : Writable e → Writable (.pos e)
  | neg {e} : Writable e → Writable (.neg e)
  | seq {l r t} : Writable l → Writable r → Writable (.seq l r t)
  | choice {l r} : Writable l → Writable r → Writable (.choice l r)
  | opt {e} : Writable e → Writable (.opt e)
  | optSep {e t} : Writable e → t ≠ .none → Writable (.opt (.separated e t))
  | rep {e} : Writable e → Writable (.rep e)
  | repSep {e t} : Writable e → t ≠ .none → Writable (.rep (.separated e t))
  | repOnce {e} : Writable e → Writable (.repOnce e)
  | repOnceSep {e t} : Writable e → t ≠ .none → Writable (.repOnce (.separated e t))
  | repRange {e r} : Writable e → boundsSpec r.start r.stop = some r → Writable (.repRange e r)
  | repRangeSep {e t r} : Writable e → t ≠ .none → boundsSpec r.start r.stop = some r →
      Writable (.repRange (.separated e t) r)

/-! ## Rules and imports -/

/-- The pairs of a rule (`grammar_rule` of the meta-grammar) with what they say: the name as written, the parameters if there is a list of them,
whether it is silent, and the expression, with or without braces. -/
inductive RuleShaped : PTree → Name → List Name → Bool → PTree → Prop where
  | mk {x y docs name nameRule params silent e body} {ps : Option (List Name)} {tr : Bool} :
      (∀ d ∈ docs, PTree.rule d = .ruleDoc) →
      nameRule = .identifier ∨ nameRule = .tildeOperator ∨ nameRule = .caretOperator →
      params = (match ps with
        | none => []
        | some l => [.node .arguments y (tok .openingParen "(" ::
            (commaTrees tr (l.map fun p => .node .identifier p []) ++ [tok .closingParen ")"]))]) →
      e.rule = .expression →
      body = [e] ∨ body = [tok .openingBrace "{", e, tok .closingBrace "}"] →
      RuleShaped (.node .grammarRule x (docs ++ (.node nameRule name [] :: (params ++ (tok .assignmentOperator "=" ::
        ((if silent then [tok .silentModifier "_"] else []) ++ body)))))) name (ps.getD []) silent e

/-- The pairs of an import. -/
inductive ImportShaped : PTree → List Name → Option Text → Option Name → Prop where
  | mk {x y q} {file : Option (PTree × Text)} {alias : Option Name} : q ≠ [] →
      (∀ f ∈ file, f.1.pair = Meta.stringPair f.2) →
      ImportShaped (.node .import x (.node .path y (pathTrees q) :: ((file.map Prod.fst).toList ++
        (alias.map fun a => .node .identifier a []).toList))) q (file.map Prod.snd) alias

end Pest3.Gen
