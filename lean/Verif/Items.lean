import Verif.RuleEnum

/-!
# The generated items and the references between them

What `Tracker::collect` and `Output::collect` (`generator/src/typed/output.rs:87-185`, `:232-271`) emit, as a tree of
modules with the types they define, and the paths that the generated types are written with.  A type is recorded with
the number of its type and const parameters; lifetimes are not recorded.
-/

namespace Pest3.Gen
open Pest3

/-- The contents of a Rust module: the types in it with the number of their parameters, and the modules in it. -/
inductive Items where
  | mk (types : List (Name × Nat)) (mods : List (Name × Items))

/-- The types of a module. -/
def Items.types : Items → List (Name × Nat)
  | .mk types _ => types

/-- The module called `x`. -/
def findMod (x : Name) : List (Name × Items) → Option Items
  | [] => none
  | (y, i) :: rest => if y = x then some i else findMod x rest

/-- The module at a path. -/
def Items.at : Items → List Name → Option Items
  | i, [] => some i
  | .mk _ mods, x :: rest => match findMod x mods with
    | some i => i.at rest
    | none => none

/-! ## The library -/

/-- The types in `pest3_core::typed::template` that the generated code uses, with the number of their parameters
(`core/src/typed/template/mod.rs:31`, `:82`, `:183`, `:334`, `:402`, `:464`, `:557`, `:591`, `:635`, `:681`, `:718`,
`:776`, `:812`, `:868`, `:909`, `:969`, `:998`, `:1025-1062`, `template/repetition.rs:41`, `:215-221`). -/
def libTemplate : List (Name × Nat) :=
  [("Str".toList, 1), ("Insens".toList, 1), ("CharRange".toList, 2), ("Positive".toList, 1), ("Negative".toList, 1),
   ("any".toList, 0), ("soi".toList, 0), ("eoi".toList, 0), ("newline".toList, 0), ("peek_all".toList, 0),
   ("peek".toList, 0), ("drop".toList, 0), ("pop".toList, 0), ("pop_all".toList, 0), ("push".toList, 1),
   ("PeekSlice2".toList, 2), ("PeekSlice1".toList, 1), ("ascii_digit".toList, 0), ("ascii_nonzero_digit".toList, 0),
   ("ascii_bin_digit".toList, 0), ("ascii_oct_digit".toList, 0), ("ascii_hex_digit".toList, 0),
   ("ascii_alpha_lower".toList, 0), ("ascii_alpha_upper".toList, 0), ("ascii_alpha".toList, 0),
   ("ascii_alphanumeric".toList, 0), ("ascii".toList, 0), ("RepMinMax".toList, 4), ("RepMin".toList, 3),
   ("RepMax".toList, 3), ("Rep".toList, 2), ("RepOnce".toList, 2)]

/-- `format_ident!("Sequence{}", n)`. -/
def sequenceName (n : Nat) : Name := "Sequence".toList ++ showNat n
/-- `format_ident!("Choice{}", n)`. -/
def choiceName (n : Nat) : Name := "Choice".toList ++ showNat n

/-- `pest3_core::sequence`: `Sequence2` to `Sequence16` (`core/src/sequence.rs:106-298`), each with two parameters for every field
(`:21`). -/
def libSequence : List (Name × Nat) := (List.range' 2 15).map fun n => (sequenceName n, 2 * n)
/-- `pest3_core::choice`: `Choice2` to `Choice16` (`core/src/choice.rs:105-298`), each with one parameter for every variant
(`:18`). -/
def libChoice : List (Name × Nat) := (List.range' 2 15).map fun n => (choiceName n, n)

/-! ## The module `generics` -/

/-- A declaration in the module `generics`. -/
inductive Decl where
  /-- `pub use`, of a type that the library may or may not have -/
  | use (name : Name) (arity : Option Nat)
  /-- an invocation of `sequence_type!` or `choice_type!` -/
  | define (name : Name) (arity : Nat)

/-- The name that is declared. -/
def Decl.name : Decl → Name
  | .use x _ => x
  | .define x _ => x

/-- The number of parameters, if what is declared exists. -/
def Decl.arity : Decl → Option Nat
  | .use _ n => n
  | .define _ n => some n

/-- The elements of a `BTreeSet<usize>` in order. -/
def elements (l : List Nat) : List Nat := (List.range (l.foldl max 0 + 1)).filter fun n => l.contains n

/-- `fill` (`output.rs:92-130`): a type with more than 16 fields is defined by the macro, the others are taken from the
library.  The macros define a type with `arity n` parameters if they are given `n` fields (`core/src/sequence.rs:12-21`,
`core/src/choice.rs:14-18`). -/
def fill (name : Nat → Name) (lib : List (Name × Nat)) (arity : Nat → Nat) (lens : List Nat) : List Decl :=
  (elements lens).map fun n => if n > 16 then .define (name n) (arity n) else .use (name n) (lib.lookup (name n))

/-- The names in `pub use pest::typed::template::{..}` (`output.rs:156-176`). -/
def exported : List Name :=
  ["Positive", "Negative", "CharRange", "Str", "Insens", "Rep", "RepOnce", "RepMin", "RepMax", "RepMinMax", "soi", "eoi",
   "any", "peek", "PeekSlice1", "PeekSlice2", "peek_all", "drop", "push", "pop", "pop_all", "ascii_digit",
   "ascii_nonzero_digit", "ascii_bin_digit", "ascii_oct_digit", "ascii_hex_digit", "ascii_alpha_lower",
   "ascii_alpha_upper", "ascii_alpha", "ascii_alphanumeric", "ascii", "newline"].map String.toList

/-- The module `generics` (`output.rs:131-178`). -/
def genericsDecls (st : GenSt) : List Decl :=
  exported.map (fun x => .use x (libTemplate.lookup x)) ++ fill sequenceName libSequence (2 * ·) st.seqs ++
    fill choiceName libChoice id st.choices

/-- The types of declarations. -/
def declTypes (l : List Decl) : List (Name × Nat) := l.filterMap fun d => d.arity.map fun n => (d.name, n)

/-! ## The generated code -/

/-- `types_mod` (`output.rs:21-24`). -/
def typesMod (rulesMod : Option Name) : Name := rulesMod.getD "rules".toList

mutual
/-- What `Output::collect` (`output.rs:232-271`) emits, as the contents of the module around it: the enumeration
`Rule`, and the module of the rules.  The rules are structs with the parameters of the rule
(`generator.rs:262-268`). -/
def Output.code : Output → Items
  | .mk content _ _ mods rulesMod =>
    .mk [("Rule".toList, 0)] [(typesMod rulesMod,
      .mk (("__OptionalTrivia".toList, 0) :: ("__MandatoryTrivia".toList, 0) ::
        content.map fun s => (s.name, s.args.length)) (codeAll mods))]
/-- The modules for the imported files (`output.rs:244-257`). -/
def codeAll : List (Name × Output) → List (Name × Items)
  | [] => []
  | (x, o) :: rest => (x, o.code) :: codeAll rest
end

/-- The generated code (`generate_typed`, `generator.rs:975-981`): the code of the grammar, then what
`Tracker::collect` (`output.rs:87-185`) emits: the modules `wrapper` and `generics`, and `pest::typed::unicode`, with a
type for each property in `uni` (`core/src/typed/unicode.rs`). -/
def generated (uni : List Name) (out : Output) (st : GenSt) : Items :=
  match out.code with
  | .mk types mods => .mk types (mods ++
      [("wrapper".toList, .mk (st.wrappers.map fun w => (w.1, 0)) []),
       ("unicode".toList, .mk (uni.map fun x => (x, 0)) []),
       ("generics".toList, .mk (declTypes (genericsDecls st)) [])])

/-! ## References -/

/-- A path in the generated code: `super::` so many times, then the path, then the name, then so many arguments. -/
structure Ref where
  ups : Nat
  path : List Name
  name : Name
  arity : Nat
deriving DecidableEq, Repr

/-- `root` in the module `depth` imports down: `super` (`generator.rs:842`), and `super::super::` more for each import
(`:625`). -/
def rootUps : Nat → Nat
  | 0 => 1
  | depth + 1 => 2 + rootUps depth

/-- `#root::generics::name::<..>`. -/
def genericRef (depth : Nat) (name : Name) (arity : Nat) : Ref := ⟨rootUps depth, ["generics".toList], name, arity⟩

/-- `embed_trivia` (`generator.rs:345-352`); without trivia it is a type of the library. -/
def triviaRef : Trivia → List Ref
  | .none => []
  | .optional => [⟨0, [], "__OptionalTrivia".toList, 0⟩]
  | .mandatory => [⟨0, [], "__MandatoryTrivia".toList, 0⟩]

/-- `#sec::rules::` for every segment of the path but the last (`module.rs:66-69`). -/
def modsPath : List Name → List Name
  | [] => []
  | x :: rest => x :: "rules".toList :: modsPath rest

mutual
/-- The paths in a type that is written in a module `d` imports down (`generator.rs:354-548`,
`module.rs:65-137`).  `Option` is a type of the library. -/
def Ty.paths (d : Nat) : Ty → List Ref
  | .str w => [genericRef d "Str".toList 1, ⟨rootUps d, ["wrapper".toList], w, 0⟩]
  | .insens w => [genericRef d "Insens".toList 1, ⟨rootUps d, ["wrapper".toList], w, 0⟩]
  | .charRange _ _ => [genericRef d "CharRange".toList 2]
  | .param _ => []
  | .rule mods name args => ⟨0, modsPath mods, name, args.length⟩ :: Ty.pathsAll d args
  | .builtin name args => genericRef d name args.length :: Ty.pathsAll d args
  | .slice1 name _ => [genericRef d name 1]
  | .slice2 name _ _ => [genericRef d name 2]
  | .unicode x => [⟨rootUps d, ["unicode".toList], x, 0⟩]
  | .positive t => genericRef d "Positive".toList 1 :: t.paths d
  | .negative t => genericRef d "Negative".toList 1 :: t.paths d
  | .option t => t.paths d
  | .seq trivia fields =>
    genericRef d (sequenceName fields.length) (fields.length + trivia.length) :: (trivia.flatMap triviaRef ++ Ty.pathsAll d fields)
  | .choice alts => genericRef d (choiceName alts.length) alts.length :: Ty.pathsAll d alts
  | .rep t tr => genericRef d "Rep".toList 2 :: (triviaRef tr ++ t.paths d)
  | .repOnce t tr => genericRef d "RepOnce".toList 2 :: (triviaRef tr ++ t.paths d)
  | .repMin t tr _ => genericRef d "RepMin".toList 3 :: (triviaRef tr ++ t.paths d)
  | .repMax t tr _ => genericRef d "RepMax".toList 3 :: (triviaRef tr ++ t.paths d)
  | .repMinMax t tr _ _ => genericRef d "RepMinMax".toList 4 :: (triviaRef tr ++ t.paths d)
/-- The paths in several types. -/
def Ty.pathsAll (d : Nat) : List Ty → List Ref
  | [] => []
  | t :: rest => t.paths d ++ Ty.pathsAll d rest
end

mutual
/-- The parameters in a type. -/
def Ty.params : Ty → List Name
  | .str _ | .insens _ | .charRange _ _ | .slice1 _ _ | .slice2 _ _ _ | .unicode _ => []
  | .param x => [x]
  | .rule _ _ args => Ty.paramsAll args
  | .builtin _ args => Ty.paramsAll args
  | .positive t | .negative t | .option t => t.params
  | .seq _ fields => Ty.paramsAll fields
  | .choice alts => Ty.paramsAll alts
  | .rep t _ | .repOnce t _ | .repMin t _ _ | .repMax t _ _ | .repMinMax t _ _ _ => t.params
/-- The parameters in several types. -/
def Ty.paramsAll : List Ty → List Name
  | [] => []
  | t :: rest => t.params ++ Ty.paramsAll rest
end

mutual
/-- The types in the signature of an accessor (`Node::expand`, `getter.rs:103-170`), other than `Option`, `Vec`, tuples and
references. -/
def GNode.tys : GNode → List Ty
  | .rule t => [t]
  | .arg x => [.param x]
  | .content g | .seqI _ g | .choiceI _ _ g | .optional _ g | .contents g => g.tys
  | .tuple l => GNode.tysAll l
/-- The types in several signatures. -/
def GNode.tysAll : List GNode → List Ty
  | [] => []
  | g :: rest => g.tys ++ GNode.tysAll rest
end

/-- The enumerations a struct `d` imports down refers to: `super::Rule`, and `super::super::` more for every module
further up (`generator.rs:164`, `:171-176`, `:236-239`). -/
def ruleRefs (d : Nat) : List Ref := (List.range (d + 1)).map fun n => ⟨1 + 2 * n, [], "Rule".toList, 0⟩

/-- The module of the rules of the module at `p`. -/
def scopeOf (rulesMod : Option Name) (p : List Name) : List Name :=
  typesMod rulesMod :: p.flatMap fun x => [x, typesMod rulesMod]

/-! ## What a reference means in Rust -/

/-- The path, written in the module at `loc`, is that of a type with so many parameters. -/
def Ref.Resolves (top : Items) (loc : List Name) (r : Ref) : Prop :=
  r.ups ≤ loc.length ∧ ∃ i, top.at (loc.take (loc.length - r.ups) ++ r.path) = some i ∧ (r.name, r.arity) ∈ i.types

/-- The first segment of the path, if it does not begin with `super`. -/
def Ref.first (r : Ref) : Option Name := if r.ups = 0 then (r.path ++ [r.name]).head? else none

/-- In a module with contents `top`, the type `ty` can be written at `loc` inside an item with parameters `params`: the
paths in it exist, have the right number of arguments and do not begin with a parameter, and the parameters in it are
declared. -/
structure PathsGood (top : Items) (loc : List Name) (params : List Name) (d : Nat) (ty : Ty) : Prop where
  refs : ∀ r ∈ ty.paths d, r.Resolves top loc ∧ ∀ x ∈ params, r.first ≠ some x
  params : ∀ x ∈ ty.params, x ∈ params

end Pest3.Gen
