import Verif.Graph
import Verif.Interp
import Verif.Collect

/-!
# Code generation

`generator/src/typed/{generator,module,output,getter}.rs`.  The token stream of a type is modelled by its
syntax tree `Ty`.  The prefix `#root` (`super::super::..`) of items at the top of the generated code always
leads there and is left out; so are lifetimes and the `r#` of identifiers.
-/

namespace Pest3.Gen
open Pest3
open Pest3.Meta (MetaRange)

mutual
/-- `GrammarModule` (`meta/src/parser.rs:414-421`) without documentation and dependencies. -/
inductive Module where
  | mk (rules : List Rule) (imports : List Import)
/-- `Import` (`meta/src/parser.rs:302-309`). -/
inductive Import where
  | builtin (name : Name) (path : List Name)
  | file (name : Name) (m : Module)
end

/-- The rules of a module. -/
def Module.rules : Module → List Rule
  | .mk rules _ => rules
/-- The imports of a module. -/
def Module.imports : Module → List Import
  | .mk _ imports => imports

/-- The types in the generated code. -/
inductive Ty where
  /-- `generics::Str::<wrapper::W>` -/
  | str (w : Name)
  /-- `generics::Insens::<wrapper::W>` -/
  | insens (w : Name)
  /-- `generics::CharRange::<lo, hi>` -/
  | charRange (lo hi : Char)
  /-- a generics parameter -/
  | param (x : Name)
  /-- `m1::rules::m2::rules::name::<args>`, relative to the current `rules` module -/
  | rule (mods : List Name) (name : Name) (args : List Ty)
  /-- `generics::name::<args>` -/
  | builtin (name : Name) (args : List Ty)
  /-- `generics::name::<start>` -/
  | slice1 (name : Name) (start : Int)
  /-- `generics::name::<start, stop>` -/
  | slice2 (name : Name) (start stop : Int)
  /-- `unicode::IDENT` -/
  | unicode (ident : Name)
  /-- `generics::Positive::<t>` -/
  | positive (t : Ty)
  /-- `generics::Negative::<t>` -/
  | negative (t : Ty)
  /-- `Option::<t>` -/
  | option (t : Ty)
  /-- `generics::SequenceN::<t0, tr0, t1, tr1, ..>` -/
  | seq (trivia : List Trivia) (fields : List Ty)
  /-- `generics::ChoiceN::<t0, t1, ..>` -/
  | choice (alts : List Ty)
  /-- `generics::Rep::<t, tr>` -/
  | rep (t : Ty) (tr : Trivia)
  /-- `generics::RepOnce::<t, tr>` -/
  | repOnce (t : Ty) (tr : Trivia)
  /-- `generics::RepMin::<t, tr, min>` -/
  | repMin (t : Ty) (tr : Trivia) (min : Nat)
  /-- `generics::RepMax::<t, tr, max>` -/
  | repMax (t : Ty) (tr : Trivia) (max : Nat)
  /-- `generics::RepMinMax::<t, tr, min, max>` -/
  | repMinMax (t : Ty) (tr : Trivia) (min max : Nat)
deriving Repr, BEq, Inhabited

/-! ## Accessors (`getter.rs`) -/

/-- `Node` (`getter.rs:22-52`). -/
inductive GNode where
  | rule (t : Ty)
  | arg (x : Name)
  | content (g : GNode)
  | seqI (i : Nat) (g : GNode)
  | choiceI (i : Nat) (flat : Bool) (g : GNode)
  | optional (flat : Bool) (g : GNode)
  | contents (g : GNode)
  | tuple (l : List GNode)
deriving Repr, BEq, Inhabited

/-- `Edge` (`getter.rs:11-20`). -/
inductive Edge where
  | content | contentI (i : Nat) | choiceI (i : Nat) | optional | contents

/-- `Node::flattenable` (`getter.rs:61-69`). -/
def GNode.flattenable : GNode → Bool
  | .rule _ | .arg _ => false
  | .content g | .seqI _ g => g.flattenable
  | .choiceI _ false _ | .optional false _ => true
  | .choiceI _ true g | .optional true g => g.flattenable
  | .contents _ | .tuple _ => false

/-- `Node::wrap` (`getter.rs:70-78`). -/
def GNode.wrap (g : GNode) : Edge → GNode
  | .content => .content g
  | .contentI i => .seqI i g
  | .choiceI i => .choiceI i g.flattenable g
  | .optional => .optional g.flattenable g
  | .contents => .contents g

/-- `Node::merge` (`getter.rs:79-102`). -/
def GNode.merge : GNode → GNode → GNode
  | .tuple l, .tuple m => .tuple (l ++ m)
  | .tuple l, g => .tuple (l ++ [g])
  | g, .tuple m => .tuple (g :: m)
  | g, h => .tuple [g, h]

/-- `GetterByName` (`getter.rs:174-178`): the `BTreeMap` as a list of entries with different names. -/
abbrev Getter := List (Name × GNode)

/-- `GetterByName::prepend` (`getter.rs:214-220`). -/
def Getter.prepend (g : Getter) (e : Edge) : Getter := g.map fun (x, n) => (x, n.wrap e)

/-- One iteration of `GetterByName::join_mut` (`getter.rs:222-236`). -/
def Getter.joinOne : Getter → Name → GNode → Getter
  | [], x, n => [(x, n)]
  | (y, m) :: rest, x, n => if y = x then (y, m.merge n) :: rest else (y, m) :: Getter.joinOne rest x n

/-- `GetterByName::join` (`getter.rs:238-241`). -/
def Getter.join (g other : Getter) : Getter := other.foldl (fun g (x, n) => g.joinOne x n) g

/-! ## Module system (`module.rs`) -/

/-- `ModuleNode` and `RuleGenerics` (`module.rs:38-56`, `:147-151`).  Of a built-in rule: whether it can be
used without arguments, the two types for slices, and whether it can be called (with how many arguments).
`Absolute` only occurs for Unicode properties: the name and the type. -/
inductive ModNode where
  | collection (children : List (Name × ModNode))
  | rule (argc : Nat)
  | builtin (direct : Bool) (slice : Option (Name × Name)) (callable : Option (Option Nat))
  | absolute (name ident : Name)
deriving Repr, Inhabited

/-- `ProcessedPathArgs` (`generator.rs:72-76`), of the arguments of a call only the types are used. -/
inductive PArgs where
  | none
  | call (args : List Ty)
  | slice (r : MetaRange Int)

/-- `HashMap::get` on a collection. -/
def lookupChild (x : Name) : List (Name × ModNode) → Option ModNode
  | [] => none
  | (y, n) :: rest => if y = x then some n else lookupChild x rest

/-- `ModuleNode::child` (`module.rs:155-163`); all errors are `none`. -/
def ModNode.child (n : ModNode) (x : Name) : Option ModNode :=
  match n with
  | .collection children => lookupChild x children
  | _ => none

/-- The rest of `ModuleNode::resolve_node` (`module.rs:215-226`). -/
def ModNode.descend : ModNode → List Name → Option ModNode
  | n, [] => some n
  | n, x :: rest => match n.child x with
    | none => none
    | some c => c.descend rest

/-- `ModuleNode::resolve_node` (`module.rs:215-226`); the empty path is an error. -/
def ModNode.resolveNode (n : ModNode) : List Name → Option ModNode
  | [] => none
  | x :: rest => n.descend (x :: rest)

/-- `RuleGenerics::call` and `ModuleNode::get` (`module.rs:58-144`, `:164-187`): the type and the accessor of a
reference, `none` for every error.  `path` is not empty. -/
def ModNode.get (n : ModNode) (path : List Name) (args : PArgs) : Option (Ty × Getter) :=
  let name := path.getLastD []
  let result (t : Ty) (x : Name) : Option (Ty × Getter) := some (t, [(x, .rule t)])
  match n with
  | .collection _ => none
  | .absolute x ident =>
    match args with
    | .none | .call [] => result (.unicode ident) x
    | _ => none
  | .rule argc =>
    match argc, args with
    | 0, .none => result (.rule path.dropLast name []) name
    | 0, .call as => if as.isEmpty then result (.rule path.dropLast name []) name else none
    | _, .slice _ => none
    | _, .none => none
    | argc, .call as => if argc = as.length then result (.rule path.dropLast name as) name else none
  | .builtin direct slice callable =>
    match args with
    | .none => if direct then result (.builtin name []) name else none
    | .slice r =>
      match slice with
      | none => none
      | some (slice1, slice2) =>
        let start := r.start.getD 0
        match r.stop with
        | some stop => result (.slice2 slice2 start stop) name
        | none => result (.slice1 slice1 start) name
    | .call as =>
      match callable with
      | none => none
      | some none => result (.builtin name as) name
      | some (some argc) => if argc = as.length then result (.builtin name as) name else none

/-- `HashMap::insert`: the new children and whether there was an entry before. -/
def insertChild (children : List (Name × ModNode)) (x : Name) (n : ModNode) : List (Name × ModNode) × Bool :=
  ((x, n) :: children.filter (fun c => !(c.1 == x)), (lookupChild x children).isSome)

/-- `ModuleNode::alias` and the insertion of `ModuleNode::insert_rule` (`module.rs:188-214`): the new node and
whether the result is `Ok`. -/
def ModNode.alias (n : ModNode) (child : ModNode) (x : Name) : ModNode × Bool :=
  match n with
  | .collection children => let r := insertChild children x child; (.collection r.1, !r.2)
  | n => (n, false)

/-- `ModuleSystem` (`module.rs:232-235`). -/
structure ModSys where
  root : ModNode
  pest : ModNode

/-- `ModuleSystem::new` (`module.rs:334-338`). -/
def ModSys.new (pest : ModNode) : ModSys := ⟨.collection [], pest⟩

/-- `ModuleSystem::resolve_node` (`module.rs:345-352`). -/
def ModSys.resolveNode (s : ModSys) (path : List Name) : Option ModNode :=
  match s.pest.resolveNode path with
  | some n => some n
  | none => s.root.resolveNode path

/-- `ModuleSystem::resolve` (`module.rs:353-366`). -/
def ModSys.resolve (s : ModSys) (path : List Name) (args : PArgs) : Option (Ty × Getter) :=
  match s.resolveNode path with
  | none => none
  | some n => if path.isEmpty then none else n.get path args

/-- `ModuleSystem::insert` (`module.rs:339-341`). -/
def ModSys.insert (s : ModSys) (n : ModNode) (x : Name) : ModSys × Bool :=
  let r := s.root.alias n x
  ({ s with root := r.1 }, r.2)

/-- `ModuleSystem::insert_rule` (`module.rs:342-344`). -/
def ModSys.insertRule (s : ModSys) (r : Rule) : ModSys × Bool := s.insert (.rule r.args.length) r.name

/-- `ModuleSystem::alias` (`module.rs:367-374`). -/
def ModSys.alias (s : ModSys) (source : List Name) (x : Name) : ModSys × Bool :=
  match s.resolveNode source with
  | none => (s, false)
  | some n => s.insert n x

/-- `make_global` (`module.rs:238-333`); the list of Unicode property names is external
(`pest2::unicode::unicode_property_names`, upper case identifiers). -/
def makeGlobal (unicodeNames : List Name) : ModNode :=
  let direct (x : String) : Name × ModNode := (x.toList, .builtin true none none)
  let stack : List (Name × ModNode) :=
    [("peek".toList, .builtin true (some ("PeekSlice1".toList, "PeekSlice2".toList)) none),
     direct "peek_all", direct "drop", ("push".toList, .builtin false none (some (some 1))),
     direct "pop", direct "pop_all"]
  let unicode : List (Name × ModNode) := unicodeNames.map fun x =>
    (x.map Char.toLower, .absolute (x.map Char.toLower) (x.map Char.toUpper))
  let pest : List (Name × ModNode) :=
    [direct "soi", direct "eoi", direct "any", direct "ascii_digit", direct "ascii_nonzero_digit",
     direct "ascii_bin_digit", direct "ascii_oct_digit", direct "ascii_hex_digit", direct "ascii_alpha_lower",
     direct "ascii_alpha_upper", direct "ascii_alpha", direct "ascii_alphanumeric", direct "ascii",
     direct "newline", ("stack".toList, .collection stack), ("unicode".toList, .collection unicode)]
  .collection [("pest".toList, .collection pest)]

/-! ## Expressions (`generator.rs:301-550`) -/

/-- The mutable `Tracker` of the generator (`output.rs:29-34`). -/
structure GenSt where
  /-- `wrapper_counter` -/
  counter : List (Text × Nat)
  /-- `wrappers`: the structs emitted, name and content -/
  wrappers : List (Name × Text)
  /-- `sequences` -/
  seqs : List Nat
  /-- `choices` -/
  choices : List Nat
deriving Repr, DecidableEq

/-- `Tracker::new` (`output.rs:36-43`). -/
def GenSt.new : GenSt := ⟨[], [], [], []⟩

/-- `format_ident!("W{}", index)`. -/
def wrapperName (i : Nat) : Name := 'W' :: showNat i

/-- `BTreeMap::get` on `wrapper_counter`. -/
def lookupWrapper (s : Text) : List (Text × Nat) → Option Nat
  | [] => none
  | (t, i) :: rest => if t = s then some i else lookupWrapper s rest

/-- `Tracker::insert_string_wrapper` (`output.rs:63-86`). -/
def GenSt.insertString (st : GenSt) (s : Text) : Name × GenSt :=
  match lookupWrapper s st.counter with
  | some i => (wrapperName i, st)
  | none =>
    let i := st.counter.length
    (wrapperName i, { st with counter := (s, i) :: st.counter, wrappers := st.wrappers ++ [(wrapperName i, s)] })

/-- `record_seq` (`output.rs:45-47`). -/
def GenSt.recordSeq (st : GenSt) (n : Nat) : GenSt := { st with seqs := n :: st.seqs }
/-- `record_choice` (`output.rs:49-51`). -/
def GenSt.recordChoice (st : GenSt) (n : Nat) : GenSt := { st with choices := n :: st.choices }

/-- The loop of `collect_sequence` (`generator.rs:308-314`). -/
def seqTail (t : Trivia) : Expr → List (Trivia × Expr)
  | .seq l r t' => (t, l) :: seqTail t' r
  | e => [(t, e)]

/-- `collect_sequence` (`generator.rs:301-315`). -/
def collectSequence (l r : Expr) (t : Trivia) : List (Trivia × Expr) := (.none, l) :: seqTail t r

/-- The loop of `collect_choices` (`generator.rs:320-324`). -/
def choiceTail : Expr → List Expr
  | .choice l r => l :: choiceTail r
  | e => [e]

/-- `collect_choices` (`generator.rs:317-326`). -/
def collectChoices (l r : Expr) : List Expr := l :: choiceTail r

/-- `get_trivia` (`generator.rs:328-333`). -/
def getTrivia : Expr → Trivia
  | .separated _ t => t
  | _ => .none

/-- `for (i, ..) in vec.into_iter().enumerate() { getter = getter.join(child.getter.edge(i)) }`
(`generator.rs:434-438`, `:456-460`). -/
def joinAll (edge : Nat → Edge) : Nat → Getter → List Getter → Getter
  | _, g, [] => g
  | i, g, c :: rest => joinAll edge (i + 1) (g.join (c.prepend (edge i))) rest

/-- Sequencing of computations that may panic or run out of fuel. -/
def andThen {α β : Type} : Res α → (α → Res β) → Res β
  | .ok a, k => k a
  | .panic, _ => .panic
  | .oof, _ => .oof

/-- `unwrap`. -/
def unwrap {α : Type} : Option α → Res α
  | some a => .ok a
  | none => .panic

mutual
/-- `process_expr` (`generator.rs:336-550`) for a rule with the given parameters. -/
def processExpr (params : List Name) (sys : ModSys) : Nat → Expr → GenSt → Res ((Ty × Getter) × GenSt)
  | 0, _, _ => .oof
  | fuel + 1, e, st =>
    let unary (e : Expr) (k : Ty × Getter → Ty × Getter) : Res ((Ty × Getter) × GenSt) :=
      andThen (processExpr params sys fuel e st) fun (r, st) => .ok (k r, st)
    match e with
    | .str s => let r := st.insertString s; .ok ((.str r.1, []), r.2)
    | .insens s => let r := st.insertString s; .ok ((.insens r.1, []), r.2)
    | .range lo hi => .ok ((.charRange lo hi, []), st)
    | .path p =>
      match p with
      | [x] =>
        if params.contains x then .ok ((.param x, [(x, .arg x)]), st)
        else andThen (unwrap (sys.resolve p .none)) fun r => .ok (r, st)
      | _ => andThen (unwrap (sys.resolve p .none)) fun r => .ok (r, st)
    | .slice p range =>
      match p with
      | [x] =>
        if params.contains x then .ok ((.param x, [(x, .arg x)]), st)
        else andThen (unwrap (sys.resolve p (.slice range))) fun r => .ok (r, st)
      | _ => andThen (unwrap (sys.resolve p (.slice range))) fun r => .ok (r, st)
    | .call p args =>
      let general := andThen (processAll params sys fuel args st) fun (rs, st) =>
        andThen (unwrap (sys.resolve p (.call (rs.map Prod.fst)))) fun r => .ok (r, st)
      match p with
      | [x] => if params.contains x then .ok ((.param x, [(x, .arg x)]), st) else general
      | _ => general
    | .pos e => unary e fun r => (.positive r.1, r.2.prepend .content)
    | .neg e => unary e fun r => (.negative r.1, [])
    | .seq l r t =>
      let vec := collectSequence l r t
      andThen (processAll params sys fuel (vec.map Prod.snd) st) fun (rs, st) =>
        .ok ((.seq (vec.map Prod.fst) (rs.map Prod.fst), joinAll .contentI 0 [] (rs.map Prod.snd)),
          st.recordSeq rs.length)
    | .choice l r =>
      andThen (processAll params sys fuel (collectChoices l r) st) fun (rs, st) =>
        .ok ((.choice (rs.map Prod.fst), joinAll .choiceI 0 [] (rs.map Prod.snd)), st.recordChoice rs.length)
    | .opt e => unary e fun r => (.option r.1, r.2.prepend .optional)
    | .rep e => unary e fun r => (.rep r.1 (getTrivia e), r.2.prepend .contents)
    | .repOnce e => unary e fun r => (.repOnce r.1 (getTrivia e), r.2.prepend .contents)
    | .repRange e range => unary e fun r =>
      (match range.start, range.stop with
        | some a, some b => .repMinMax r.1 (getTrivia e) a b
        | some a, none => .repMin r.1 (getTrivia e) a
        | none, some b => .repMax r.1 (getTrivia e) b
        | none, none => .rep r.1 (getTrivia e), r.2.prepend .contents)
    | .separated e _ => processExpr params sys fuel e st
/-- The calls of `process_expr` for several expressions in order. -/
def processAll (params : List Name) (sys : ModSys) : Nat → List Expr → GenSt → Res (List (Ty × Getter) × GenSt)
  | 0, _, _ => .oof
  | _ + 1, [], st => .ok ([], st)
  | fuel + 1, e :: rest, st =>
    andThen (processExpr params sys fuel e st) fun (r, st) =>
      andThen (processAll params sys fuel rest st) fun (rs, st) => .ok (r :: rs, st)
end

/-! ## Rules and modules (`generator.rs:552-657`) -/

/-- The configuration (`generator/src/typed/config.rs`), as far as it influences what is modelled. -/
structure Config where
  boxOnlyIfNeeded : Bool
  noGetter : Bool
  rulesMod : Option Name

/-- What `create_rule` (`generator.rs:150-281`) is given for a rule. -/
structure RuleStruct where
  name : Name
  args : List Name
  silent : Bool
  boxed : Bool
  inner : Ty
  getter : Getter

/-- `Output` (`output.rs:194-202`). -/
inductive Output where
  | mk (content : List RuleStruct) (optTrivia manTrivia : Option Ty) (modules : List (Name × Output))
    (rulesMod : Option Name)

/-- Enough fuel for `processExpr` on `e`. -/
def Expr.fuel (e : Expr) : Nat := 2 * e.size

/-- The loop of `process_rule` over the rules of a module (`generator.rs:552-587`, `:644-655`). -/
def processRuleList (cfg : Config) (reach : RefMap) (sys : ModSys) :
    List Rule → (List RuleStruct × Option Ty × Option Ty) → GenSt →
    Res ((List RuleStruct × Option Ty × Option Ty) × GenSt)
  | [], out, st => .ok (out, st)
  | r :: rest, (content, opt, man), st =>
    andThen (processExpr r.args sys r.node.fuel r.node st) fun ((ty, g), st) =>
      if r.name = optName then processRuleList cfg reach sys rest (content, some ty, man) st
      else if r.name = manName then processRuleList cfg reach sys rest (content, opt, some ty) st
      else
        let s : RuleStruct :=
          ⟨r.name, r.args, r.silent, ruleBoxed cfg.boxOnlyIfNeeded reach r, ty, if cfg.noGetter then [] else g⟩
        processRuleList cfg reach sys rest (content ++ [s], opt, man) st

/-- `for rule in rules.iter() { .. mod_sys.insert_rule(rule).unwrap() }` (`generator.rs:638-643`). -/
def insertRules : List Rule → ModSys → Res ModSys
  | [], sys => .ok sys
  | r :: rest, sys =>
    if r.name = optName ∨ r.name = manName then insertRules rest sys
    else
      let s := sys.insertRule r
      if s.2 then insertRules rest s.1 else .panic

mutual
/-- `process_rules` (`generator.rs:589-657`): the output and the final module system. -/
def processModule (cfg : Config) (pest : ModNode) : Module → GenSt → Res ((Output × ModSys) × GenSt)
  | .mk rules imports, st =>
    andThen (processImports cfg pest imports (ModSys.new pest) st) fun ((mods, sys), st) =>
    andThen (unwrap (collectReachability rules)) fun reach =>
    andThen (insertRules rules sys) fun sys =>
    andThen (processRuleList cfg reach sys rules ([], none, none) st) fun ((content, opt, man), st) =>
      .ok ((.mk content opt man mods cfg.rulesMod, sys), st)
/-- The closure over the imports (`generator.rs:605-635`); the result of `mod_sys.insert` is ignored. -/
def processImports (cfg : Config) (pest : ModNode) :
    List Import → ModSys → GenSt → Res ((List (Name × Output) × ModSys) × GenSt)
  | [], sys, st => .ok (([], sys), st)
  | .builtin name path :: rest, sys, st =>
    let r := sys.alias path name
    if r.2 then processImports cfg pest rest r.1 st else .panic
  | .file name m :: rest, sys, st =>
    andThen (processModule cfg pest m st) fun ((out, child), st) =>
    andThen (processImports cfg pest rest (sys.insert child.root name).1 st) fun ((outs, sys), st) =>
      .ok (((name, out) :: outs, sys), st)
end

/-- `generate_typed` (`generator.rs:945-983`) after inlining: the output and the generator's tracker. -/
def generateModule (cfg : Config) (unicodeNames : List Name) (m : Module) : Res (Output × GenSt) :=
  andThen (processModule cfg (makeGlobal unicodeNames) m GenSt.new) fun ((out, _), st) => .ok (out, st)

end Pest3.Gen
