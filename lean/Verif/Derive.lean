import Verif.Inline
import Verif.MetaFile

/-!
# The derive macro

`parse_derive` (`generator/src/typed/attr.rs`), `get_string`, `get_bool` and `collect_data` (`generator/src/config.rs`), and
`derive_typed_parser` with `generate_typed` (`generator/src/typed/generator.rs:946-1020`): from the attributes of the
declaration to the generated code.

External: the environment (`CARGO_MANIFEST_DIR`, the current directory), the file system, and which texts are
identifiers of Rust.  They are the fields of `Setting`.
-/

namespace Pest3.Load
open Pest3 Pest3.Gen

/-- `syn::Meta` of an attribute, as far as it is looked at: `#[x]`, `#[x = ".."]`, `#[x = true]`, `#[x = ..]`, `#[x(..)]`. -/
inductive AttrMeta where
  | path
  | str (s : Text)
  | bool (b : Bool)
  | value
  | list
deriving DecidableEq, Repr

/-- An attribute.  `name` is `None` if the path is not a single identifier, so that `is_ident` is false. -/
structure Attr where
  name : Option Name
  arg : AttrMeta
deriving DecidableEq, Repr

/-- `get_string` (`config.rs:18-29`). -/
def getString : AttrMeta → Res Text
  | .str s => .ok s
  | _ => .panic

/-- `get_bool` (`config.rs:31-45`). -/
def getBool : AttrMeta → Res Bool
  | .path => .ok true
  | .bool b => .ok b
  | _ => .panic

/-- `GrammarSource` (`config.rs:13-17`). -/
inductive Source where
  | file (path : Text)
  | inline (text : Text)
deriving DecidableEq, Repr

/-- `Config` (`generator/src/typed/config.rs`). -/
structure Options where
  noPair : Bool
  noSpan : Bool
  noWarnings : Bool
  boxOnlyIfNeeded : Bool
  noGetter : Bool
  rulesMod : Option Name
deriving DecidableEq, Repr

/-- `Config::default()`. -/
def Options.default : Options := ⟨false, false, false, false, false, none⟩

/-- The part of the configuration that `Verif.Codegen` depends on. -/
def Options.config (o : Options) : Config := ⟨o.boxOnlyIfNeeded, o.noGetter, o.rulesMod⟩

/-- The body of the loop over the attributes (`attr.rs:13-40`).  `ident` is `syn::parse_str::<Ident>(..).is_ok()`. -/
def parseAttr (ident : Text → Bool) (a : Attr) (acc : List Source × Options) : Res (List Source × Options) :=
  if a.name = some "grammar".toList then andThen (getString a.arg) fun s => .ok (acc.1 ++ [.file s], acc.2)
  else if a.name = some "grammar_inline".toList then andThen (getString a.arg) fun s => .ok (acc.1 ++ [.inline s], acc.2)
  else if a.name = some "no_pair".toList then andThen (getBool a.arg) fun b => .ok (acc.1, { acc.2 with noPair := b })
  else if a.name = some "no_span".toList then andThen (getBool a.arg) fun b => .ok (acc.1, { acc.2 with noSpan := b })
  else if a.name = some "no_warnings".toList then andThen (getBool a.arg) fun b => .ok (acc.1, { acc.2 with noWarnings := b })
  else if a.name = some "box_all_rules".toList then
    andThen (getBool a.arg) fun b => .ok (acc.1, { acc.2 with boxOnlyIfNeeded := b })
  else if a.name = some "rules_mod".toList then
    andThen (getString a.arg) fun s =>
      if s = [] then .panic else if !ident s then .panic else .ok (acc.1, { acc.2 with rulesMod := some s })
  else .ok acc

/-- The loop (`attr.rs:12-41`). -/
def parseAttrs (ident : Text → Bool) : List Attr → List Source × Options → Res (List Source × Options)
  | [], acc => .ok acc
  | a :: rest, acc => andThen (parseAttr ident a acc) fun acc => parseAttrs ident rest acc

/-- `parse_derive` (`attr.rs:6-48`); the name and the generics of the type are left out. -/
def parseDerive (ident : Text → Bool) (attrs : List Attr) : Res (List Source × Options) :=
  andThen (parseAttrs ident attrs ([], Options.default)) fun acc => if acc.1 = [] then .panic else .ok acc

/-- The attributes the macro declares (`derive/src/lib.rs:53-62`).  The compiler accepts no others, unless they belong to something
else. -/
def declared : List Name :=
  ["grammar", "grammar_inline", "no_pair", "no_span", "no_warnings", "box_rules_only_if_needed", "no_getter",
   "rules_mod"].map String.toList

/-- What is external: `manifestDir` is the variable `CARGO_MANIFEST_DIR`, `exist` is `Path::exists`, `ident` is
`syn::parse_str::<Ident>(..).is_ok()`. -/
structure Setting where
  manifestDir : Option Text
  cwd : FPath
  exist : FPath → Bool
  ident : Text → Bool
  unicodeNames : List Name
  world : World

/-- `Path::join` (Rust std, Unix), up to equality of paths. -/
def FPath.join (p q : FPath) : FPath :=
  if q.abs then q else if p.abs = false ∧ p.comps = [] then q else ⟨p.abs, p.comps ++ q.comps.filter fun x => x ≠ dot⟩

/-- The directory of the package (`config.rs:53`, `generator.rs:1000`). -/
def Setting.root (env : Setting) : FPath := pathOf (env.manifestDir.getD ['.'])

/-- Where the file is looked for (`config.rs:63-67`). -/
def Setting.locate (env : Setting) (path : Text) : FPath :=
  if env.exist (env.root.join (pathOf path)) then env.root.join (pathOf path)
  else (env.root.join (pathOf "src/".toList)).join (pathOf path)

/-- The body of the loop of `collect_data` (`config.rs:51-81`). -/
def readSource (env : Setting) : Source → Res (Text × Option FPath)
  | .file path =>
    match (env.locate path).fileName with
    | none => .panic
    | some _ => match env.world.read (env.locate path) with
      | none => .panic
      | some data => .ok (data, some (env.locate path))
  | .inline text => .ok (text, none)

/-- `collect_data` (`config.rs:47-87`). -/
def collectData (env : Setting) : List Source → Res (List (Text × Option FPath))
  | [] => .ok []
  | s :: rest => andThen (readSource env s) fun d => andThen (collectData env rest) fun ds => .ok (d :: ds)

/-- The path that is given to the loader (`generator.rs:999-1002`). -/
def Setting.rootOf (env : Setting) (path : Option FPath) : FPath := (path.getD env.root).push "_.rs".toList

/-- The grammars one by one (`generator.rs:996-1008`); an error makes the macro panic. -/
def loadData (env : Setting) (fuel : Nat) : List (Text × Option FPath) → Res (List LMod)
  | [] => .ok []
  | (text, path) :: rest =>
    match parseGrammar env.world fuel text (env.rootOf path) with
    | .ok (m, _) => andThen (loadData env fuel rest) fun ms => .ok (m :: ms)
    | .err => .panic
    | .panic => .panic
    | .oof => .oof

/-- What is generated: the files that are included so that the compiler knows about them, whether the rules are without the
interface for pairs, and the code. -/
structure Derived where
  includes : List FPath
  noPair : Bool
  code : Output × GenSt

/-- `derive_typed_parser` with `generate_typed` (`generator.rs:946-1020`) and `generate_include` (`generator/src/common.rs:14-40`), as the derive
macro calls it (`derive/src/lib.rs:66`).  Paths are Unicode. -/
def derive (env : Setting) (fuel : Nat) (attrs : List Attr) : Res Derived :=
  andThen (parseDerive env.ident attrs) fun (sources, options) =>
  andThen (collectData env sources) fun data =>
  andThen (loadData env fuel data) fun mods =>
  andThen (generateTyped options.config env.unicodeNames fuel (joinModules mods).module) fun code =>
    .ok ⟨(data.filterMap Prod.snd ++ (joinModules mods).deps).map env.cwd.join, options.noPair, code⟩

end Pest3.Load
