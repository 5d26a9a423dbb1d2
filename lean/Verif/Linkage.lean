import Verif.GrammarSpec

/-!
# What the generated types mean

The Rust compiler gives generated type expressions their meaning: paths are resolved relative to the module they
are written in, type parameters are replaced by arguments, and type aliases by their definition.  `close`
does this for one type expression, `Linked` says that an environment of rule structs is the one described by
the generator's output.
-/

namespace Pest3.Gen
open Pest3

/-- Closed types without components: names are those of the generated code. -/
inductive CLeaf where
  | str (s : Text)
  | insens (s : Text)
  | range (lo hi : Char)
  | builtin (x : Name)
  | unicode (ident : Name)
  | slice1 (name : Name) (a : Int)
  | slice2 (name : Name) (a b : Int)
deriving DecidableEq, Repr

/-- Closed types: module paths start at the top, there are no parameters.  The trivia aliases are those of a
module. -/
inductive CTy where
  | leaf (k : CLeaf)
  | push (t : CTy)
  | positive (t : CTy)
  | negative (t : CTy)
  | option (t : CTy)
  | seq (fields : List ((List Name × Trivia) × CTy))
  | choice (alts : List CTy)
  | rep (t : CTy) (trivia : List Name × Trivia) (min max : Nat)
  | rule (path : List Name) (name : Name) (args : List CTy)

/-- The content of a string wrapper (`CONTENT`). -/
def contentOf (w : Name) : List (Name × Text) → Text
  | [] => []
  | (x, s) :: rest => if x = w then s else contentOf w rest

/-- The type a parameter stands for. -/
def lookupC (x : Name) : List (Name × CTy) → Option CTy
  | [] => none
  | (y, t) :: rest => if y = x then some t else lookupC x rest

mutual
/-- The closed type for a type expression in module `path`.  An unknown parameter does not compile in Rust. -/
def close (wrappers : List (Name × Text)) (path : List Name) (σ : List (Name × CTy)) : Ty → CTy
  | .str w => .leaf (.str (contentOf w wrappers))
  | .insens w => .leaf (.insens (contentOf w wrappers))
  | .charRange lo hi => .leaf (.range lo hi)
  | .param x => (lookupC x σ).getD (.choice [])
  | .rule mods name args => .rule (path ++ mods) name (closeAll wrappers path σ args)
  | .builtin name args =>
    match closeAll wrappers path σ args with
    | [t] => if name = "push".toList then .push t else .leaf (.builtin name)
    | _ => .leaf (.builtin name)
  | .slice1 name a => .leaf (.slice1 name a)
  | .slice2 name a b => .leaf (.slice2 name a b)
  | .unicode ident => .leaf (.unicode ident)
  | .positive t => .positive (close wrappers path σ t)
  | .negative t => .negative (close wrappers path σ t)
  | .option t => .option (close wrappers path σ t)
  | .seq trivia fields => .seq ((trivia.map fun t => (path, t)).zip (closeAll wrappers path σ fields))
  | .choice alts => .choice (closeAll wrappers path σ alts)
  -- aliases: `template/repetition.rs:214-221`
  | .rep t tr => .rep (close wrappers path σ t) (path, tr) 0 usizeMax
  | .repOnce t tr => .rep (close wrappers path σ t) (path, tr) 1 usizeMax
  | .repMin t tr min => .rep (close wrappers path σ t) (path, tr) min usizeMax
  | .repMax t tr max => .rep (close wrappers path σ t) (path, tr) 0 max
  | .repMinMax t tr min max => .rep (close wrappers path σ t) (path, tr) min max
/-- Closing several types. -/
def closeAll (wrappers : List (Name × Text)) (path : List Name) (σ : List (Name × CTy)) : List Ty → List CTy
  | [] => []
  | t :: rest => close wrappers path σ t :: closeAll wrappers path σ rest
end

/-- The ranges of `ascii_*` types (`template/mod.rs:1023-1062`). -/
def rangeNode (lo hi : Char) : Node := .leaf (.range lo hi)

/-- The types re-exported in `generics` (`output.rs:149-177`) by their names; an unknown name does not compile. -/
def builtinNode (x : Name) : Node :=
  if x = "soi".toList then .leaf .soi
  else if x = "eoi".toList then .leaf .eoi
  else if x = "any".toList then .leaf .any
  else if x = "newline".toList then .leaf .newline
  else if x = "peek".toList then .leaf .peek
  else if x = "peek_all".toList then .leaf .peekAll
  else if x = "drop".toList then .leaf .drop
  else if x = "pop".toList then .leaf .pop
  else if x = "pop_all".toList then .leaf .popAll
  else if x = "ascii_digit".toList then rangeNode '0' '9'
  else if x = "ascii_nonzero_digit".toList then rangeNode '1' '9'
  else if x = "ascii_bin_digit".toList then rangeNode '0' '1'
  else if x = "ascii_oct_digit".toList then rangeNode '0' '7'
  else if x = "ascii_hex_digit".toList then .choice [rangeNode '0' '9', rangeNode 'a' 'f', rangeNode 'A' 'F']
  else if x = "ascii_alpha_lower".toList then rangeNode 'a' 'z'
  else if x = "ascii_alpha_upper".toList then rangeNode 'A' 'Z'
  else if x = "ascii_alpha".toList then .choice [rangeNode 'a' 'z', rangeNode 'A' 'Z']
  else if x = "ascii_alphanumeric".toList then
    .choice [.choice [rangeNode 'a' 'z', rangeNode 'A' 'Z'], rangeNode '0' '9']
  else if x = "ascii".toList then rangeNode '\x00' '\x7f'
  else .leaf .none

/-- The node type of a closed type without components; the property table of `pest2::unicode` is indexed by
lower case names in the specification. -/
def leafNode (u : Unicode) : CLeaf → Node
  | .str s => .leaf (.str s)
  | .insens s => .leaf (.insens s)
  | .range lo hi => .leaf (.range lo hi)
  | .builtin x => builtinNode x
  | .unicode ident => .leaf (.prop (u.table (ident.map Char.toLower)))
  | .slice1 name a => if name = "PeekSlice1".toList then .leaf (.slice1 a) else .leaf .none
  | .slice2 name a b => if name = "PeekSlice2".toList then .leaf (.slice2 a b) else .leaf .none

/-- How closed types are represented: the identifier of a rule instance and the node types of the trivia aliases. -/
structure Layout where
  num : List Name → Name → List CTy → RuleId
  triv : List Name × Trivia → Node

mutual
/-- The node type of a closed type. -/
def nodeOf (u : Unicode) (R : Layout) : CTy → Node
  | .leaf k => leafNode u k
  | .push t => .push (nodeOf u R t)
  | .positive t => .positive (nodeOf u R t)
  | .negative t => .negative (nodeOf u R t)
  | .option t => .opt (nodeOf u R t)
  | .seq fields => .seq (fieldsOf u R fields)
  | .choice alts => .choice (nodesOf u R alts)
  | .rep t tr min max => .rep (nodeOf u R t) (R.triv tr) min max
  | .rule path name args => .rule (R.num path name args)
/-- Several types. -/
def nodesOf (u : Unicode) (R : Layout) : List CTy → List Node
  | [] => []
  | t :: rest => nodeOf u R t :: nodesOf u R rest
/-- The fields of a sequence. -/
def fieldsOf (u : Unicode) (R : Layout) : List ((List Name × Trivia) × CTy) → List (Node × Node)
  | [] => []
  | (tr, t) :: rest => (R.triv tr, nodeOf u R t) :: fieldsOf u R rest
end

/-- The generated module of an import. -/
def outChild (x : Name) : List (Name × Output) → Option Output
  | [] => none
  | (y, o) :: rest => if y = x then some o else outChild x rest

/-- The generated module at a path (`output.rs:244-257`: a module for every import inside the module of the rules). -/
def outAt : Output → List Name → Option Output
  | o, [] => some o
  | .mk _ _ _ mods _, x :: rest => match outChild x mods with
    | some o => outAt o rest
    | none => none

/-- The rule structs of a generated module. -/
def Output.content : Output → List RuleStruct
  | .mk content _ _ _ _ => content
/-- The body of `__OptionalTrivia` or `__MandatoryTrivia`. -/
def Output.trivia : Output → Trivia → Option Ty
  | _, .none => none
  | .mk _ opt _ _ _, .optional => opt
  | .mk _ _ man _ _, .mandatory => man

/-- `env` and `R` describe the compiled program `out`: every instance of every struct has the body the struct
definition says, and the trivia aliases are what their definitions say (`output.rs:236-243`, `:264-269`;
`generator.rs:345-352`). -/
structure Linked (u : Unicode) (out : Output) (wrappers : List (Name × Text)) (R : Layout) (env : Env) : Prop where
  rule : ∀ p o s ts, outAt out p = some o → s ∈ o.content → ts.length = s.args.length →
    (env (R.num p s.name ts)).body = nodeOf u R (close wrappers p (s.args.zip ts) s.inner) ∧
    (env (R.num p s.name ts)).silent = s.silent
  noTrivia : ∀ p, R.triv (p, .none) = .leaf .empty
  trivia : ∀ p o t, t ≠ .none → outAt out p = some o → R.triv (p, t) =
    match o.trivia t with
    | some ty => nodeOf u R (close wrappers p [] ty)
    | none => .leaf .empty

end Pest3.Gen
