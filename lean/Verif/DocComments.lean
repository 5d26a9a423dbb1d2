import Verif.MetaFile
import Verif.RuleEnum
import Verif.Utf8

/-!
# Model of documentation comments

How `///` and `//!` become the documentation of the generated enumeration of rules.
-/

namespace Pest3.Load
open Pest3 Pest3.Gen
open Pest3.Meta (MetaRule)

/-- `char::is_whitespace` (Rust std): the Unicode property `White_Space`. -/
def isWhite (x : Char) : Bool :=
  let n := x.toNat
  (9 ≤ n && n ≤ 13) || n == 0x20 || n == 0x85 || n == 0xA0 || n == 0x1680 || (0x2000 ≤ n && n ≤ 0x200A) ||
    n == 0x2028 || n == 0x2029 || n == 0x202F || n == 0x205F || n == 0x3000

/-- `str::trim` (Rust std). -/
def trim (s : Text) : Text := ((s.dropWhile isWhite).reverse.dropWhile isWhite).reverse

/-- `parse_grammar_doc` and `parse_rule_doc` (`meta/src/parser.rs:593-617`).  The error is never made (`Some(string).ok_or`);
`&s[3..]` panics unless a character begins there. -/
def parseDoc (t : PTree) : Res Text :=
  match getFrom t.text 3 with
  | some s => .ok (trim s)
  | none => .panic

/-- The loop over the leading documentation of a rule in `parse_rule` (`parser.rs:467-478`). -/
def takeDocs : List PTree → Res (List Text)
  | [] => .ok []
  | p :: rest => if p.rule = .ruleDoc then andThen (parseDoc p) fun d => andThen (takeDocs rest) fun l => .ok (d :: l) else .ok []

/-- The fields `name` and `doc` of the result of `parse_rule` (`parser.rs:467-484`).  The other fields are those of `Gen.parseRule`. -/
def ruleDocs (t : PTree) : Res (Name × List Text) :=
  andThen (takeDocs t.inner) fun docs => match dropDocs t.inner with
    | name :: _ => .ok (name.text, docs)
    | [] => .panic

/-- The documentation of a module: of the grammar (`DocComment`, `meta/src/doc.rs`), and of the rules by name. -/
structure ModDocs where
  top : List Text
  rules : List (Name × List Text)
deriving DecidableEq, Repr

/-- The loop of `_parse` (`parser.rs:324-402`) as far as it concerns documentation. -/
def collectDocs : List PTree → ModDocs → Res ModDocs
  | [], m => .ok m
  | t :: rest, m => match t.rule with
    | .grammarRule => andThen (ruleDocs t) fun r => collectDocs rest { m with rules := m.rules ++ [r] }
    | .grammarDoc => andThen (parseDoc t) fun d => collectDocs rest { m with top := m.top ++ [d] }
    | _ => collectDocs rest m

/-- The documentation in a text, or `none` if it is no grammar. -/
def readDocs (fuel : Nat) (text : Text) : Res (Option ModDocs) :=
  tryThen (recogFile fuel text) fun ts => andThen (collectDocs ts ⟨[], []⟩) fun m => .ok (some m)

/-- `from_iter` for modules (`parser.rs:423-442`). -/
def joinDocs (l : List ModDocs) : ModDocs := ⟨(l.map ModDocs.top).flatten, (l.map ModDocs.rules).flatten⟩

/-- The variants of the generated enumeration with their attributes `doc` (`generator/src/common.rs:50-73`, `:92-98`);
`files` are the names of the imported files. -/
def variantDocs (m : ModDocs) (files : List Name) : List (Name × List Text) :=
  ("EOI".toList, []) :: (m.rules.filter (fun r => r.1 ≠ optName ∧ r.1 ≠ manName) ++ files.map fun x => (x, []))

/-- The attributes `doc` of the enumeration itself (`common.rs:88-92`). -/
def enumDocs (m : ModDocs) : List Text := m.top

end Pest3.Load
