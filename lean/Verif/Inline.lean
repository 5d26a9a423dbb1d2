import Verif.Codegen

/-!
# Model of inlining silent rules with parameters (`generator/src/typed/generator.rs:849-943`)
-/

namespace Pest3.Gen
open Pest3

/-- `Ord for str`: bytewise, which is the order by code points. -/
def strLt : Name → Name → Bool
  | _, [] => false
  | [], _ :: _ => true
  | a :: as, b :: bs => decide (a < b) || (a == b && strLt as bs)

/-- `Ord for Option<&str>`. -/
def keyLt : Option Name → Option Name → Bool
  | none, none => false
  | none, some _ => true
  | some _, none => false
  | some a, some b => strLt a b

/-- `BTreeMap<Option<&str>, BTreeMap<&str, &ParseRule>>`: sorted by the key; the inner map is the list of the rules it was
collected from. -/
abbrev SilentMap := List (Option Name × List Rule)

/-- `BTreeMap::insert`. -/
def SilentMap.insert (k : Option Name) (v : List Rule) : SilentMap → SilentMap
  | [] => [(k, v)]
  | (k', v') :: rest =>
    if k = k' then (k, v) :: rest
    else if keyLt k k' then (k, v) :: (k', v') :: rest
    else (k', v') :: SilentMap.insert k v rest

/-- `BTreeMap::extend`. -/
def SilentMap.extend (a : SilentMap) (b : SilentMap) : SilentMap := b.foldl (fun a kv => a.insert kv.1 kv.2) a

/-- `BTreeMap::get` of the inner map: of several rules of one name the last was inserted. -/
def getRule (rules : List Rule) (x : Name) : Option Rule := rules.reverse.find? fun r => r.name = x

/-- `rule.silent && !rule.args.is_empty()`. -/
def Rule.inlined (r : Rule) : Bool := r.silent && !r.args.isEmpty

mutual
/-- `collect_silent_rules_with_args` (`generator.rs:849-870`). -/
def collectSilent (key : Option Name) : Module → SilentMap
  | .mk rules imports => collectSilentImports imports (SilentMap.insert key (rules.filter Rule.inlined) [])
/-- Its loop over the imports. -/
def collectSilentImports : List Import → SilentMap → SilentMap
  | [], acc => acc
  | .builtin _ _ :: rest, acc => collectSilentImports rest acc
  | .file x m :: rest, acc => collectSilentImports rest (acc.extend (collectSilent (some x) m))
end

/-- `silent_rules.iter().find_map(|(mod_path, rules)| rules.get(rule_name))` (`generator.rs:888-890`). -/
def findSilent (sm : SilentMap) (x : Name) : Option Rule := sm.findSome? fun kv => getRule kv.2 x

/-- The loop replacing the parameters one after the other (`generator.rs:893-899`): the new expression and `replaced`. -/
def replaceArgs : List (Name × Expr) → Expr → Expr × Bool
  | [], e => (e, false)
  | (x, a) :: rest, e =>
    let r := Expr.replace x a e
    let s := replaceArgs rest r.1
    (s.1, r.2 || s.2)

/-- One round of the inner loop (`generator.rs:880-912`): the expression at the node afterwards, and `replaced`. -/
def inlineStep (sm : SilentMap) : Expr → Res (Expr × Bool)
  | .call p args =>
    match p.getLast? with
    | none => .ok (.call p args, false)
    | some x =>
      match findSilent sm x with
      | none => .ok (.call p args, false)
      | some f =>
        if f.args.length = args.length then
          let r := replaceArgs (f.args.zip args) f.node
          if r.2 then .ok r else .ok (.call p args, false)
        else .panic
  | e => .ok (e, false)

/-- The work on one node: the inner loop, then the nodes it pushes (`generator.rs:877-938`).  The nodes on the stack are
disjoint parts of the rule, so working on them one by one is the same as recursion; `oof`: the inner loop or the recursion
does not end. -/
def inlineNode (sm : SilentMap) : Nat → Expr → Res Expr
  | 0, _ => .oof
  | fuel + 1, e =>
    andThen (inlineStep sm e) fun (e, replaced) =>
    if replaced then inlineNode sm fuel e
    else match e with
      | .seq l r t => andThen (inlineNode sm fuel l) fun l => andThen (inlineNode sm fuel r) fun r => .ok (.seq l r t)
      | .choice l r => andThen (inlineNode sm fuel l) fun l => andThen (inlineNode sm fuel r) fun r => .ok (.choice l r)
      | .opt e => andThen (inlineNode sm fuel e) fun e => .ok (.opt e)
      | .rep e => andThen (inlineNode sm fuel e) fun e => .ok (.rep e)
      | .repOnce e => andThen (inlineNode sm fuel e) fun e => .ok (.repOnce e)
      | .separated e t => andThen (inlineNode sm fuel e) fun e => .ok (.separated e t)
      | .repRange e b => andThen (inlineNode sm fuel e) fun e => .ok (.repRange e b)
      | .pos e => andThen (inlineNode sm fuel e) fun e => .ok (.pos e)
      | .neg e => andThen (inlineNode sm fuel e) fun e => .ok (.neg e)
      | e => .ok e

/-- The loop over the rules (`generator.rs:875-941`). -/
def inlineRules (sm : SilentMap) (fuel : Nat) : List Rule → Res (List Rule)
  | [] => .ok []
  | r :: rest =>
    andThen (inlineNode sm fuel r.node) fun e => andThen (inlineRules sm fuel rest) fun rest => .ok ({ r with node := e } :: rest)

/-- `inline_silent_rules_with_args` (`generator.rs:872-943`). -/
def inlineModule (fuel : Nat) (m : Module) : Res Module :=
  andThen (inlineRules (collectSilent none m) fuel (m.rules.filter fun r => !r.silent || r.args.isEmpty)) fun rules =>
    .ok (.mk rules m.imports)

/-- `generate_typed` (`generator.rs:945-983`): inlining, then generation. -/
def generateTyped (cfg : Config) (unicodeNames : List Name) (fuel : Nat) (m : Module) : Res (Output × GenSt) :=
  andThen (inlineModule fuel m) fun m => generateModule cfg unicodeNames m

end Pest3.Gen
