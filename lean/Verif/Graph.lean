import Verif.Ast

/-!
# Which rules refer to which rules, and which rules are boxed

`generator/src/typed/generator.rs:659-827`.  A `BTreeSet` is a list up to membership and repetition, a
`BTreeMap` is a function; both are only used for insertion, lookup, union and removal.
-/

namespace Pest3.Gen
open Pest3 Pest3.Meta

mutual
/-- `PartialEq` of `ParseExpr` (derived, `meta/src/parser.rs:200`). -/
def Expr.eqb : Expr → Expr → Bool
  | .str a, .str b => a == b
  | .insens a, .insens b => a == b
  | .range a b, .range c d => a == c && b == d
  | .path p, .path q => p == q
  | .call p as, .call q bs => p == q && eqbAll as bs
  | .slice p r, .slice q s => p == q && decide (r = s)
  | .pos a, .pos b => a.eqb b
  | .neg a, .neg b => a.eqb b
  | .seq a b t, .seq c d u => a.eqb c && b.eqb d && decide (t = u)
  | .choice a b, .choice c d => a.eqb c && b.eqb d
  | .opt a, .opt b => a.eqb b
  | .rep a, .rep b => a.eqb b
  | .repOnce a, .repOnce b => a.eqb b
  | .repRange a r, .repRange b s => a.eqb b && decide (r = s)
  | .separated a t, .separated b u => a.eqb b && decide (t = u)
  | _, _ => false
/-- Element-wise comparison of argument lists. -/
def eqbAll : List Expr → List Expr → Bool
  | [], [] => true
  | a :: as, b :: bs => a.eqb b && eqbAll as bs
  | _, _ => false
end

/-- The out parameters of the collection: the two flags and the set of names. -/
structure Used where
  opt : Bool
  man : Bool
  names : List Name
deriving Repr, DecidableEq

/-- The closure `mark` (`generator.rs:666-674`). -/
def Used.mark (u : Used) : Trivia → Used
  | .mandatory => { u with man := true }
  | .optional => { u with opt := true }
  | .none => u

/-- `if path.len() == 1 { used.insert(&path[0]) }` (`generator.rs:698-700`). -/
def Used.insertPath (u : Used) : List Name → Used
  | [x] => { u with names := x :: u.names }
  | _ => u

/-- The closure `f` (`generator.rs:675-706`).  The vector `nodes` is a stack: its last element is the
head of the list. -/
def visit (e : Expr) (nodes : List Expr) (u : Used) : List Expr × Used :=
  match e with
  | .str _ | .insens _ | .range _ _ => (nodes, u)
  | .pos n | .neg n => (n :: nodes, u)
  | .seq l r t => (r :: l :: nodes, u.mark t)
  | .choice l r => (r :: l :: nodes, u)
  | .opt n | .rep n | .repOnce n | .repRange n _ => (n :: nodes, u)
  | .path p => (nodes, u.insertPath p)
  | .slice p _ => (nodes, u.insertPath p)
  | .call p args => (args.reverse ++ nodes, u.insertPath p)
  | .separated n t => (n :: nodes, u.mark t)

/-- `while let Some(expr) = nodes.pop() { .. }` (`generator.rs:708-713`), at most `fuel` iterations. -/
def collectLoop (root : Expr) : Nat → List Expr → Used → Option Used
  | _, [], u => some u
  | 0, _ :: _, _ => none
  | fuel + 1, e :: nodes, u =>
    if e.eqb root then collectLoop root fuel nodes u
    else
      let r := visit e nodes u
      collectLoop root fuel r.1 r.2

mutual
/-- Number of nodes of an expression, a bound for the number of iterations. -/
def Expr.size : Expr → Nat
  | .pos e | .neg e | .opt e | .rep e | .repOnce e => e.size + 1
  | .repRange e _ => e.size + 1
  | .separated e _ => e.size + 1
  | .seq l r _ => l.size + r.size + 1
  | .choice l r => l.size + r.size + 1
  | .call _ args => sizeAll args + 1
  | _ => 1
/-- Number of nodes of all arguments. -/
def sizeAll : List Expr → Nat
  | [] => 0
  | a :: as => a.size + sizeAll as
end

/-- `collect_used_rule_without_trivia_into` (`generator.rs:659-715`); `used` are the names already there. -/
def collectUsedInto (rule : Rule) (used : List Name) : Option Used :=
  let r := visit rule.node [] ⟨false, false, used⟩
  collectLoop rule.node rule.node.size r.1 r.2

/-- `collect_used_rule` (`generator.rs:724-755`): `none` is the panic of `expect` for an undefined trivia.
Of the two optional sets of names only the presence is used. -/
def collectUsedRule (rule : Rule) (optTrivia manTrivia : Bool) (res : List Name) : Option (List Name) :=
  match collectUsedInto rule res with
  | none => none
  | some u =>
    if (u.opt && !optTrivia) || (u.man && !manTrivia) then none else some u.names

/-- The names of the trivia rules. -/
def optName : Name := ['~']
/-- The name of the rule for mandatory trivia. -/
def manName : Name := ['^']

/-- `rules.iter().find(|rule| rule.name == "..").is_some()` (`generator.rs:797-798`). -/
def definesRule (rules : List Rule) (x : Name) : Bool := rules.any fun r => r.name == x

/-- `BTreeMap<&str, BTreeSet<&str>>`. -/
abbrev RefMap := Name → Option (List Name)

/-- `res.insert(k, v)` and `res.remove(k)`. -/
def RefMap.set (m : RefMap) (k : Name) (v : Option (List Name)) : RefMap := fun x => if x = k then v else m x

/-- The first loop of `collect_reachability` (`generator.rs:802-805`). -/
def collectRefs (opt man : Bool) : List Rule → RefMap → Option RefMap
  | [], m => some m
  | r :: rest, m =>
    match collectUsedRule r opt man ((m r.name).getD []) with
    | none => none
    | some s => collectRefs opt man rest (m.set r.name (some s))

/-- `new`: the references of `cur` added to it (`generator.rs:814-819`). -/
def extendRefs (m : RefMap) (cur : List Name) : List Name :=
  cur ++ cur.flatMap fun x => (m x).getD []

/-- One pass over the rules (`generator.rs:811-824`). -/
def reachPass : List Rule → RefMap → RefMap
  | [], m => m
  | r :: rest, m =>
    match m r.name with
    | none => reachPass rest m
    | some cur =>
      let m' := m.set r.name none
      let new := extendRefs m' cur
      if new.contains r.name then reachPass rest m'
      else reachPass rest (m'.set r.name (some new))

/-- `for _ in 0..rules.len()` (`generator.rs:807`). -/
def reachLoop (rules : List Rule) : Nat → RefMap → RefMap
  | 0, m => m
  | k + 1, m => reachLoop rules k (reachPass rules m)

/-- `collect_reachability` (`generator.rs:795-827`); `none` is a panic. -/
def collectReachability (rules : List Rule) : Option RefMap :=
  (collectRefs (definesRule rules optName) (definesRule rules manName) rules (fun _ => none)).map
    (reachLoop rules rules.length)

/-- `RuleInfo::new` (`generator.rs:52-70`): whether the content of the rule is boxed. -/
def ruleBoxed (onlyIfNeeded : Bool) (reachability : RefMap) (rule : Rule) : Bool :=
  !onlyIfNeeded || (reachability rule.name).isNone

end Pest3.Gen
