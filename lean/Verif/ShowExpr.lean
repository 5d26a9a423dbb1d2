import Verif.Ast

/-!
# Expressions as text

`Display` for `ParseExpr` (`meta/src/parser.rs:249-273`), with which the generated code is documented.
-/

namespace Pest3.Gen
open Pest3 Pest3.Meta

/-- `char::escape_debug_ext` (Rust core) for the `Debug` of strings (`quote = '"'`) and characters (`quote = '\''`).  Which other characters
are written as they are (those that are printable and do not combine with the one before) is the parameter `plain`. -/
def escapeDebug (plain : Char → Bool) (quote c : Char) : Text :=
  if c = '\x00' then ['\\', '0']
  else if c = '\t' then ['\\', 't']
  else if c = '\r' then ['\\', 'r']
  else if c = '\n' then ['\\', 'n']
  else if c = '\\' then ['\\', '\\']
  else if c = quote then ['\\', quote]
  else if plain c then [c]
  else '\\' :: 'u' :: '{' :: (Nat.toDigits 16 c.toNat ++ ['}'])

/-- `{str:?}` (Rust core). -/
def showStr (plain : Char → Bool) (s : Text) : Text := '"' :: (s.flatMap (escapeDebug plain '"') ++ ['"'])

/-- `{char:?}` (Rust core). -/
def showChar (plain : Char → Bool) (c : Char) : Text := '\'' :: (escapeDebug plain '\'' c ++ ['\''])

/-- `Display` for `usize` (Rust core). -/
def showUsize (n : Nat) : Text := Nat.toDigits 10 n

/-- `Display` for `isize` (Rust core). -/
def showIsize (i : Int) : Text := if i < 0 then '-' :: showUsize i.natAbs else showUsize i.natAbs

/-- `Display` for `Range` (`parser.rs:103-114`). -/
def showRange {α : Type} (f : α → Text) (r : MetaRange α) : Text :=
  (r.start.map f).getD [] ++ '.' :: '.' :: (r.stop.map f).getD []

/-- `fmt_sep` (`parser.rs:157-171`). -/
def showSep (sep : Text) : List Text → Text
  | [] => []
  | x :: l => x ++ l.flatMap fun y => sep ++ y

/-- `Trivia::get_repr` (`parser.rs:184-192`). -/
def showTrivia : Trivia → Char
  | .none => '-'
  | .optional => '~'
  | .mandatory => '^'

mutual
/-- `Display` for `ParseExpr` (`parser.rs:249-273`), `ParseNode` (`:132-136`) and `PathArgs` (`:144-155`). -/
def showExpr (plain : Char → Bool) : Expr → Text
  | .str s => showStr plain s
  | .insens s => '^' :: showStr plain s
  | .range a b => showChar plain a ++ '.' :: '.' :: showChar plain b
  | .path q => showSep [':', ':'] q
  | .call q args => showSep [':', ':'] q ++ '(' :: (showSep [',', ' '] (showExprs plain args) ++ [')'])
  | .slice q r => showSep [':', ':'] q ++ '[' :: (showRange showIsize r ++ [']'])
  | .pos e => '&' :: showExpr plain e
  | .neg e => '!' :: showExpr plain e
  | .seq l r t => '(' :: (showExpr plain l ++ ' ' :: showTrivia t :: ' ' :: (showExpr plain r ++ [')']))
  | .choice l r => '(' :: (showExpr plain l ++ ' ' :: '|' :: ' ' :: (showExpr plain r ++ [')']))
  | .opt e => showExpr plain e ++ ['?']
  | .rep e => showExpr plain e ++ ['*']
  | .repOnce e => showExpr plain e ++ ['+']
  | .repRange e r => showExpr plain e ++ '[' :: (showRange showUsize r ++ [']'])
  | .separated e t => showExpr plain e ++ [showTrivia t]
/-- The arguments one by one. -/
def showExprs (plain : Char → Bool) : List Expr → List Text
  | [] => []
  | e :: es => showExpr plain e :: showExprs plain es
end

/-- The documentation of the struct for a rule (`generator/src/typed/generator.rs:160-163`). -/
def ruleDoc (plain : Char → Bool) (r : Rule) : Text :=
  "Generated for rule `".toList ++ (r.name ++ ("`. Grammar: `".toList ++ (showExpr plain r.node ++ "`.".toList)))

end Pest3.Gen
