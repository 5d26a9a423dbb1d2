import Verif.Idents
import Verif.MetaFileSpec

/-!
# Specification: identifiers of Rust

From the Rust reference, restricted to ASCII.
-/

namespace Pest3.Gen
open Pest3
open Pest3.Load (IsIdent)

/-- The keywords, strict and reserved, of Rust 2024. -/
def keywords : List Name :=
  ["as", "break", "const", "continue", "crate", "else", "enum", "extern", "false", "fn", "for", "if", "impl", "in", "let",
   "loop", "match", "mod", "move", "mut", "pub", "ref", "return", "self", "Self", "static", "struct", "super", "trait",
   "true", "type", "unsafe", "use", "where", "while", "async", "await", "dyn", "abstract", "become", "box", "do", "final",
   "macro", "override", "priv", "typeof", "unsized", "virtual", "yield", "try", "gen"].map String.toList

/-- What can be an identifier if it is written with `r#`: a word other than `_` and the keywords that are used in
paths. -/
structure RawName (x : Name) : Prop where
  word : IsIdent x
  free : x ∉ ["_", "self", "Self", "super", "crate"].map String.toList

/-- What can be an identifier as it is: a word other than `_` that is not a keyword. -/
structure PlainName (x : Name) : Prop where
  word : IsIdent x
  wild : x ≠ "_".toList
  free : x ∉ keywords

/-- The token is an identifier. -/
def Ident.Legal : Ident → Prop
  | .raw x => RawName x
  | .plain x => PlainName x

/-- The names that a module introduces, other than those of built-ins. -/
structure NamesFine (m : Module) : Prop where
  rules : ∀ r ∈ m.rules, r.name ≠ optName → r.name ≠ manName → RawName r.name
  params : ∀ r ∈ m.rules, r.name ≠ optName → r.name ≠ manName → ∀ x ∈ r.args, RawName x
  files : ∀ x ∈ m.fileNames, PlainName x

/-- The name given to the module of the rules. -/
def RulesName (x : Name) : Prop := PlainName x ∨ ∃ y, x = 'r' :: '#' :: y ∧ RawName y

end Pest3.Gen
