import Verif.Items

/-!
# The identifiers of the generated code

The identifiers that depend on the grammar are made with `format_ident!`, which panics for some texts, and whose result
is not always what Rust accepts as an identifier.
-/

namespace Pest3.Gen
open Pest3

/-- An identifier in a token stream: `r#x` or `x`. -/
inductive Ident where
  | raw (x : Name)
  | plain (x : Name)
deriving DecidableEq, Repr

/-- The characters an identifier begins with.  Only ASCII is considered. -/
def wordStart (x : Char) : Bool := x = '_' || ('a' ≤ x && x ≤ 'z') || ('A' ≤ x && x ≤ 'Z')

/-- The characters of identifiers. -/
def wordPart (x : Char) : Bool := wordStart x || ('0' ≤ x && x ≤ '9')

/-- The check in `Ident::new` and `Ident::new_raw` (external, `proc_macro2`). -/
def isWord : Name → Bool
  | [] => false
  | x :: xs => wordStart x && xs.all wordPart

/-- The texts for which there is no raw identifier. -/
def noRaw : List Name := ["_", "self", "Self", "super", "crate"].map String.toList

/-- `format_ident!` (external, `quote` and `proc_macro2`): a text that begins with `r#` gives a raw identifier
(`Ident::new_raw`), another one gives a plain identifier (`Ident::new`, which accepts keywords); both panic for texts that are not
words. -/
def formatIdent : Text → Res Ident
  | 'r' :: '#' :: x => if isWord x && !noRaw.contains x then .ok (.raw x) else .panic
  | x => if isWord x then .ok (.plain x) else .panic

/-- Several identifiers. -/
def formatAll : List Text → Res (List Ident)
  | [] => .ok []
  | t :: rest => andThen (formatIdent t) fun i => andThen (formatAll rest) fun is => .ok (i :: is)

/-- The text of `format_ident!("r#{}", x)`. -/
def rawText (x : Name) : Text := 'r' :: '#' :: x

mutual
/-- The texts of the identifiers in a type: parameters (`generator.rs:374`), rules and built-ins (`module.rs:66`), the modules on the path
of a rule (`:68`), slices (`:120-121`), Unicode properties (`:297`), string wrappers (`output.rs:66-70`), sequences and choices
(`generator.rs:439`, `:456`).  The text for a built-in that is sliced (`module.rs:66`) is not among them. -/
def Ty.idents : Ty → List Text
  | .str w | .insens w => [w]
  | .charRange _ _ => []
  | .param x => [rawText x]
  | .rule mods name args => rawText name :: (mods ++ Ty.identsAll args)
  | .builtin name args => rawText name :: Ty.identsAll args
  | .slice1 name _ => [name]
  | .slice2 name _ _ => [name]
  | .unicode x => [x]
  | .positive t | .negative t | .option t => t.idents
  | .seq _ fields => sequenceName fields.length :: Ty.identsAll fields
  | .choice alts => choiceName alts.length :: Ty.identsAll alts
  | .rep t _ | .repOnce t _ | .repMin t _ _ | .repMax t _ _ | .repMinMax t _ _ _ => t.idents
/-- The texts of the identifiers in several types. -/
def Ty.identsAll : List Ty → List Text
  | [] => []
  | t :: rest => t.idents ++ Ty.identsAll rest
end

/-- The texts of the identifiers in the code for a rule: its name, also as a variant (`generator.rs:60`, `common.rs:55`), its
parameters (`generator.rs:169`), its type, and its accessors (`getter.rs:249`, `:128`).  Fields and variants, which are
numbered, are left out. -/
def RuleStruct.idents (s : RuleStruct) : List Text :=
  rawText s.name :: (s.args.map rawText ++ (s.inner.idents ++
    s.getter.flatMap fun a => rawText a.1 :: a.2.tys.flatMap Ty.idents))

mutual
/-- The texts of the identifiers in the code for a module: the module of the rules (`output.rs:22`), the trivia, the rules, and the
imported files. -/
def Output.idents : Output → List Text
  | .mk content opt man mods rulesMod =>
    typesMod rulesMod :: (opt.toList.flatMap Ty.idents ++ (man.toList.flatMap Ty.idents ++
      (content.flatMap RuleStruct.idents ++ identsMods mods)))
/-- The texts of the identifiers for imported files: the variant (`common.rs:69`, `:78`), the module (`generator.rs:618`), and
those in it. -/
def identsMods : List (Name × Output) → List Text
  | [] => []
  | (x, o) :: rest => rawText x :: x :: (o.idents ++ identsMods rest)
end

end Pest3.Gen
