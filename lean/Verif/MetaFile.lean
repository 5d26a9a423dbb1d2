import Verif.Loader
import Verif.MetaExpr
import Verif.MetaGrammar

/-!
# Model of reading a grammar file (`meta/src/parser.rs:311-405`, without the imported files)

The recogniser and the functions for rules and imports put together: the text of a file gives the items that `Load.runItems` works on.
-/

namespace Pest3.Load
open Pest3 Pest3.Gen
open Pest3.Meta (MetaRule)

/-- The parts of a text between slashes. -/
def splitSlash : Text → List Name
  | [] => [[]]
  | x :: rest =>
    if x = '/' then [] :: splitSlash rest
    else match splitSlash rest with
      | [] => [[x]]
      | a :: l => (x :: a) :: l

/-- `PathBuf::from` (Rust std, Unix), up to equality of paths: repeated slashes do not count, nor does `.` except at the beginning of a
relative path. -/
def pathOf (s : Text) : FPath :=
  match s with
  | '/' :: rest => ⟨true, (splitSlash rest).filter fun x => x ≠ [] && x ≠ dot⟩
  | _ => match splitSlash s with
    | [] => ⟨false, []⟩
    | x :: rest => ⟨false, (if x = [] then [] else [x]) ++ rest.filter fun x => x ≠ [] && x ≠ dot⟩

/-- An item of which reading ends with a value, an error or a panic. -/
def settle : Res (Option FileItem) → Res FileItem
  | .ok (some i) => .ok i
  | .ok none => .ok .invalid
  | .panic => .ok .panics
  | .oof => .oof

/-- The body of the loop of `_parse` (`parser.rs:324-402`) as far as it looks at the pair; `none`: there is nothing to do. -/
def readItem (fuel : Nat) (t : PTree) : Option (Res FileItem) :=
  match t.rule with
  | .import => some (settle (tryThen (parseImport fuel t) fun i => .ok (some (.imp ⟨i.modPath, i.file.map pathOf, i.alias⟩))))
  | .grammarRule => some (settle (tryThen (parseRule fuel t) fun r => .ok (some (.rule r))))
  | .grammarDoc => some (.ok .doc)
  | _ => none

/-- The loop. -/
def readItems (fuel : Nat) : List PTree → Res (List FileItem)
  | [] => .ok []
  | t :: rest => match readItem fuel t with
    | some i => andThen i fun i => andThen (readItems fuel rest) fun l => .ok (i :: l)
    | none => readItems fuel rest

/-- `grammar::Parser::parse(Rule::grammar_rules, input)` (`parser.rs:322`). -/
def recogFile (fuel : Nat) (text : Text) : Res (Option (List PTree)) :=
  tryThen (recog metaGrammar fuel .nonAtomic (.ref .grammarRules) ⟨[], text, []⟩) fun x => .ok (some x.2)

/-- The items of a text, or `none` if it is no grammar. -/
def readText (fuel : Nat) (text : Text) : Res (Option (List FileItem)) :=
  tryThen (recogFile fuel text) fun ts => andThen (readItems fuel ts) fun l => .ok (some l)

end Pest3.Load
