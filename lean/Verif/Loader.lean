import Verif.Codegen

/-!
# Model of loading grammar files (`meta/src/parser.rs:283-455`, `generator/src/typed/generator.rs:946-1025`)

External: the file system (`read_to_string`), assumed not to change during loading, and the parser of single files
(`grammar::Parser::parse` with the conversion of rules, `parser.rs:322`, `:457-529`).  They are the fields of `World`.
-/

namespace Pest3.Load
open Pest3 Pest3.Gen

/-- `std::path::PathBuf` on Unix: whether it is absolute, and its components; equality is that of components. -/
structure FPath where
  abs : Bool
  comps : List Name
deriving DecidableEq, Repr

/-- `..` and `.` are not file names. -/
def dotDot : Name := ['.', '.']
def dot : Name := ['.']

/-- `Path::parent` (Rust std): `None` for a root or empty path. -/
def FPath.parent (p : FPath) : Option FPath :=
  if p.comps = [] then none else some { p with comps := p.comps.dropLast }

/-- `Path::file_name` (Rust std). -/
def FPath.fileName (p : FPath) : Option Name :=
  match p.comps.getLast? with
  | some x => if x = dot ∨ x = dotDot then none else some x
  | none => none

/-- The part before the last dot and the part after it (`rsplit_file_at_dot`, Rust std); a dot at the beginning
does not count. -/
def splitDot (x : Name) : Name × Option Name :=
  match x.reverse.dropWhile (· != '.') with
  | [] => (x, none)
  | [_] => (x, none)
  | _ :: before => (before.reverse, some (x.reverse.takeWhile (· != '.')).reverse)

/-- `Path::extension` (Rust std). -/
def FPath.extension (p : FPath) : Option Name :=
  match p.fileName with
  | some x => (splitDot x).2
  | none => none

/-- `Path::with_extension` (Rust std): nothing happens without a file name. -/
def FPath.withExtension (p : FPath) (ext : Name) : FPath :=
  match p.fileName with
  | some x => { p with comps := p.comps.dropLast ++ [(splitDot x).1 ++ '.' :: ext] }
  | none => p

/-- `PathBuf::push` of a single relative component (Rust std). -/
def FPath.push (p : FPath) (x : Name) : FPath := { p with comps := p.comps ++ [x] }

/-- The extension of grammar files. -/
def pestExt : Name := "pest".toList

/-- The component for a section of a module path (`parser.rs:293-298`). -/
def section_ (x : Name) : Name := if x = "super".toList then dotDot else x

/-- `mod_path_to_fs_path` (`parser.rs:283-300`); `none`: it panics. -/
def modPathToFsPath (root : FPath) (modPath : List Name) : Option FPath :=
  match root.parent with
  | none => none
  | some path =>
    let path := if path.extension = some pestExt then { path with comps := path.comps.dropLast } else path
    some ((modPath.foldl (fun p x => p.push (section_ x)) path).withExtension pestExt)

/-- An import as written: `use path in "file" as alias` (`grammar.pest:14`).  `file` is the parsed path. -/
structure ImportStmt where
  modPath : List Name
  file : Option FPath
  alias : Option Name

/-- The items of a grammar file in order. `invalid` is an item on which the conversion returns an error, `panics` one on which it panics,
for example an import with arguments (`todo!`, `parser.rs:338-340`). -/
inductive FileItem where
  | imp (i : ImportStmt)
  | rule (r : Rule)
  | doc
  | invalid
  | panics

/-- What is external. -/
structure World where
  read : FPath → Option Text
  parse : Text → Option (List FileItem)

/-- `GrammarModule` (`parser.rs:414-421`) without documentation; of imported modules only the part used by the
generator is kept (`generator.rs:602` ignores their dependencies). The set of dependencies is a list without
repetitions. -/
structure LMod where
  deps : List FPath
  rules : List Rule
  imports : List Import

/-- The rules and imports. -/
def LMod.module (m : LMod) : Module := .mk m.rules m.imports

/-- The cache, and as ghost state the files read so far. -/
structure LState where
  cache : List (FPath × LMod)
  reads : List FPath

/-- `HashMap::get`. -/
def cacheGet (p : FPath) : List (FPath × LMod) → Option LMod
  | [] => none
  | (q, m) :: rest => if q = p then some m else cacheGet p rest

/-- `BTreeSet::insert`. -/
def insertDep (l : List FPath) (p : FPath) : List FPath := if p ∈ l then l else l ++ [p]

/-- `BTreeSet::extend`. -/
def extendDeps (l m : List FPath) : List FPath := m.foldl insertDep l

/-- Results: `err` is a returned error, `oof` that the recursion did not end within the fuel. -/
inductive Out (α : Type) where
  | ok (a : α)
  | err
  | panic
  | oof

/-- The name under which a module is imported (`parser.rs:348-351`); `none`: it panics. -/
def ImportStmt.name (i : ImportStmt) : Option Name :=
  match i.alias with
  | some a => some a
  | none => i.modPath.getLast?

/-- Whether a built-in module is imported (`parser.rs:353`). -/
def ImportStmt.isBuiltin (i : ImportStmt) : Bool := i.modPath.head? == some "pest".toList

/-- The file that is imported (`parser.rs:357-360`); `none`: it panics. -/
def ImportStmt.target (i : ImportStmt) (root : FPath) : Option FPath :=
  match i.file with
  | some p => some p
  | none => modPathToFsPath root i.modPath

/-- The import of a file (`parser.rs:364-393`), `load` being the recursive call. -/
def importFile (w : World) (load : FPath → Text → LState → Out (LMod × LState)) (path : FPath) (m : LMod) (st : LState) :
    Out (LMod × LMod × LState) :=
  match cacheGet path st.cache with
  | some module => .ok (module, m, st)
  | none =>
    match w.read path with
    | none => .err
    | some text =>
      match load path text { st with reads := st.reads ++ [path] } with
      | .ok (module, st) =>
        .ok (module, { m with deps := extendDeps (insertDep m.deps path) module.deps },
          { st with cache := (path, module) :: st.cache })
      -- `unwrap_or_else(|err| panic!("{}", err))`
      | .err => .panic
      | .panic => .panic
      | .oof => .oof

/-- The loop over the items of a file (`parser.rs:324-402`). -/
def runItems (w : World) (load : FPath → Text → LState → Out (LMod × LState)) (root : FPath) :
    List FileItem → LMod → LState → Out (LMod × LState)
  | [], m, st => .ok (m, st)
  | .invalid :: _, _, _ => .err
  | .panics :: _, _, _ => .panic
  | .doc :: rest, m, st => runItems w load root rest m st
  | .rule r :: rest, m, st => runItems w load root rest { m with rules := m.rules ++ [r] } st
  | .imp i :: rest, m, st =>
    match i.name with
    | none => .panic
    | some alias =>
      if i.isBuiltin then runItems w load root rest { m with imports := m.imports ++ [.builtin alias i.modPath] } st
      else match i.target root with
        | none => .panic
        | some path =>
          match importFile w load path m st with
          | .ok (module, m, st) =>
            runItems w load root rest { m with imports := m.imports ++ [.file alias module.module] } st
          | .err => .err
          | .panic => .panic
          | .oof => .oof

/-- `_parse` (`parser.rs:311-405`). -/
def parseText (w : World) : Nat → FPath → Text → LState → Out (LMod × LState)
  | 0, _, _, _ => .oof
  | fuel + 1, root, text, st =>
    match w.parse text with
    | none => .err
    | some items => runItems w (parseText w fuel) root items ⟨[], [], []⟩ st

/-- `parse` (`parser.rs:450-455`). -/
def parseGrammar (w : World) (fuel : Nat) (text : Text) (root : FPath) : Out (LMod × LState) :=
  parseText w fuel root text ⟨[], []⟩

/-- `FromIterator for GrammarModule` (`parser.rs:423-441`): the modules of several grammar attributes. -/
def joinModules : List LMod → LMod
  | [] => ⟨[], [], []⟩
  | m :: rest =>
    let r := joinModules rest
    ⟨extendDeps m.deps r.deps, m.rules ++ r.rules, m.imports ++ r.imports⟩

end Pest3.Load
