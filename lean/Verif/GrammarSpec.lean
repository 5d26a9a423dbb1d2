import Verif.Codegen
import Verif.Peg
import Verif.AstSpec

/-!
# Specification: what a grammar means

A big-step semantics of grammar *source* expressions: a rule refers to other rules by paths through the
imported modules, a parameter stands for the argument expression together with the place it was written at.
Neither types nor tables nor generated names occur.
-/

namespace Pest3.Gen
open Pest3
open Pest3.Meta (MetaRange)

/-! ## Names -/

/-- The built-in expressions of the namespace `pest` without arguments. -/
def pestLeaves : List (Name × Leaf) :=
  [("soi".toList, .soi), ("eoi".toList, .eoi), ("any".toList, .any), ("newline".toList, .newline),
   ("ascii_digit".toList, .range '0' '9'), ("ascii_nonzero_digit".toList, .range '1' '9'),
   ("ascii_bin_digit".toList, .range '0' '1'), ("ascii_oct_digit".toList, .range '0' '7'),
   ("ascii_hex_digit".toList, .prop fun c =>
     decide (('0' ≤ c ∧ c ≤ '9') ∨ ('a' ≤ c ∧ c ≤ 'f') ∨ ('A' ≤ c ∧ c ≤ 'F'))),
   ("ascii_alpha_lower".toList, .range 'a' 'z'), ("ascii_alpha_upper".toList, .range 'A' 'Z'),
   ("ascii_alpha".toList, .prop fun c => decide (('a' ≤ c ∧ c ≤ 'z') ∨ ('A' ≤ c ∧ c ≤ 'Z'))),
   ("ascii_alphanumeric".toList, .prop fun c =>
     decide ((('a' ≤ c ∧ c ≤ 'z') ∨ ('A' ≤ c ∧ c ≤ 'Z')) ∨ ('0' ≤ c ∧ c ≤ '9'))),
   ("ascii".toList, .range '\x00' '\x7f')]

/-- The built-in expressions of the namespace `pest::stack` without arguments. -/
def stackLeaves : List (Name × Leaf) :=
  [("peek".toList, .peek), ("peek_all".toList, .peekAll), ("drop".toList, .drop), ("pop".toList, .pop),
   ("pop_all".toList, .popAll)]

/-- The Unicode properties: their names (in lower case) and the predicates. -/
structure Unicode where
  names : List Name
  table : Name → Char → Bool

/-- A built-in without arguments. -/
def builtinLeaf (u : Unicode) : List Name → Option Leaf
  | [a, x] => if a = "pest".toList then pestLeaves.lookup x else none
  | [a, b, x] =>
    if a = "pest".toList ∧ b = "stack".toList then stackLeaves.lookup x
    else if a = "pest".toList ∧ b = "unicode".toList ∧ x ∈ u.names then some (.prop (u.table x)) else none
  | _ => none

/-- `pest::stack::peek`, which can be sliced. -/
def peekPath : List Name := ["pest".toList, "stack".toList, "peek".toList]
/-- `pest::stack::push`, which has one argument. -/
def pushPath : List Name := ["pest".toList, "stack".toList, "push".toList]

/-- `p` names a built-in. -/
def IsBuiltin (u : Unicode) (p : List Name) : Prop := (builtinLeaf u p).isSome ∨ p = pushPath

instance (u : Unicode) (p : List Name) : Decidable (IsBuiltin u p) := by unfold IsBuiltin; infer_instance

/-- What a path refers to. -/
inductive Target where
  /-- a built-in, by its full path -/
  | builtin (p : List Name)
  /-- a rule, and the path of its module -/
  | rule (path : List Name) (r : Rule)

/-- The name an import is known by. -/
def Import.name : Import → Name
  | .builtin x _ => x
  | .file x _ => x

/-- The rule of that name. -/
def findRule (rules : List Rule) (x : Name) : Option Rule := rules.find? fun r => r.name = x

/-- What the path `p`, written in module `m` at `cur`, refers to, not considering full paths of built-ins. -/
def lookupIn (u : Unicode) : Module → List Name → List Name → Option Target
  | _, _, [] => none
  | m, cur, x :: rest =>
    match m.imports.find? fun i => i.name = x with
    | some (.builtin _ src) => if IsBuiltin u (src ++ rest) then some (.builtin (src ++ rest)) else none
    | some (.file _ m') => lookupIn u m' (cur ++ [x]) rest
    | none =>
      if rest = [] ∧ x ≠ optName ∧ x ≠ manName then (findRule m.rules x).map (.rule cur) else none

/-- The module imported as `x`. -/
def Module.child (m : Module) (x : Name) : Option Module :=
  match m.imports.find? fun i => i.name = x with
  | some (.file _ m') => some m'
  | _ => none

/-- The module at a path. -/
def modAt : Module → List Name → Option Module
  | m, [] => some m
  | m, x :: rest => match m.child x with
    | some m' => modAt m' rest
    | none => none

/-- What the path `p`, written in the module at `cur`, refers to. -/
def target (u : Unicode) (root : Module) (cur p : List Name) : Option Target :=
  if IsBuiltin u p then some (.builtin p)
  else match modAt root cur with
    | none => none
    | some m => lookupIn u m cur p

/-! ## Meaning -/

/-- An expression, the path of the module it was written in, and what the parameters in it stand for. -/
inductive Clo where
  | mk (path : List Name) (env : List (Name × Clo)) (e : Expr)

/-- What the parameter `x` stands for. -/
def lookupClo (x : Name) : List (Name × Clo) → Option Clo
  | [] => none
  | (y, c) :: rest => if y = x then some c else lookupClo x rest

/-- `p` is not a parameter. -/
def NotParam (env : List (Name × Clo)) (p : List Name) : Prop := ∀ x, p = [x] → lookupClo x env = none

/-- Literals. -/
def literal : Expr → Option Leaf
  | .str s => some (.str s)
  | .insens s => some (.insens s)
  | .range lo hi => some (.range lo hi)
  | _ => none

/-- References without arguments. -/
def plainRef : Expr → Option (List Name)
  | .path q => some q
  | .call q [] => some q
  | _ => none

/-- The trivia between the items of a repetition of `e`. -/
def sepTrivia : Expr → Trivia
  | .separated _ t => t
  | _ => .none

/-- The item, minimal and maximal number of a repetition; a counter is a `usize`. -/
def repetition : Expr → Option (Expr × Nat × Nat)
  | .rep e => some (e, 0, usizeMax)
  | .repOnce e => some (e, 1, usizeMax)
  | .repRange e r => some (e, r.start.getD 0, r.stop.getD usizeMax)
  | _ => none

/-- The rule defining the trivia. -/
def triviaRule (m : Module) : Trivia → Option Rule
  | .none => none
  | .optional => findRule m.rules optName
  | .mandatory => findRule m.rules manName

/-- What is matched: an expression, the trivia of a module, one item of a repetition, or the items from
the `i`-th on. -/
inductive SItem where
  | expr (e : Clo)
  | trivia (path : List Name) (t : Trivia)
  | unit (e : Clo) (path : List Name) (t : Trivia) (i : Nat)
  | reps (e : Clo) (path : List Name) (t : Trivia) (min max i : Nat)

/-- Big-step semantics of grammar expressions, `root` being the grammar. -/
inductive Meaning (u : Unicode) (root : Module) : SItem → Cfg → Option Cfg → Prop
  -- literals and built-ins
  | literalOk {p ρ e l c m stk rest} : literal e = some l → leafSpec l c = some (m, stk) → c.suf = m ++ rest →
      Meaning u root (.expr (.mk p ρ e)) c (some ⟨c.pre ++ m, rest, stk⟩)
  | literalFail {p ρ e l c} : literal e = some l → leafSpec l c = none → Meaning u root (.expr (.mk p ρ e)) c none
  | builtinOk {p ρ e q full l c m stk rest} : plainRef e = some q → NotParam ρ q →
      target u root p q = some (.builtin full) →
      builtinLeaf u full = some l → leafSpec l c = some (m, stk) → c.suf = m ++ rest →
      Meaning u root (.expr (.mk p ρ e)) c (some ⟨c.pre ++ m, rest, stk⟩)
  | builtinFail {p ρ e q full l c} : plainRef e = some q → NotParam ρ q →
      target u root p q = some (.builtin full) →
      builtinLeaf u full = some l → leafSpec l c = none → Meaning u root (.expr (.mk p ρ e)) c none
  | sliceOk {p ρ q range l c m stk rest} : NotParam ρ q → target u root p q = some (.builtin peekPath) →
      l = (match range.stop with
        | some b => Leaf.slice2 (range.start.getD 0) b
        | none => Leaf.slice1 (range.start.getD 0)) →
      leafSpec l c = some (m, stk) → c.suf = m ++ rest →
      Meaning u root (.expr (.mk p ρ (.slice q range))) c (some ⟨c.pre ++ m, rest, stk⟩)
  | sliceFail {p ρ q range l c} : NotParam ρ q → target u root p q = some (.builtin peekPath) →
      l = (match range.stop with
        | some b => Leaf.slice2 (range.start.getD 0) b
        | none => Leaf.slice1 (range.start.getD 0)) →
      leafSpec l c = none → Meaning u root (.expr (.mk p ρ (.slice q range))) c none
  | pushOk {p ρ q e c m rest stk} : NotParam ρ q → target u root p q = some (.builtin pushPath) →
      Meaning u root (.expr (.mk p ρ e)) c (some ⟨c.pre ++ m, rest, stk⟩) →
      Meaning u root (.expr (.mk p ρ (.call q [e]))) c (some ⟨c.pre ++ m, rest, stk ++ [m]⟩)
  | pushFail {p ρ q e c} : NotParam ρ q → target u root p q = some (.builtin pushPath) →
      Meaning u root (.expr (.mk p ρ e)) c none → Meaning u root (.expr (.mk p ρ (.call q [e]))) c none
  -- a parameter stands for the argument
  | param {p ρ x e c r} : lookupClo x ρ = some e → Meaning u root (.expr e) c r →
      Meaning u root (.expr (.mk p ρ (.path [x]))) c r
  -- a rule stands for its body, the parameters for the arguments
  | rule {p ρ q p' r c res} : NotParam ρ q → target u root p q = some (.rule p' r) → r.args = [] →
      Meaning u root (.expr (.mk p' [] r.node)) c res → Meaning u root (.expr (.mk p ρ (.path q))) c res
  | call {p ρ q args p' r c res} : NotParam ρ q → target u root p q = some (.rule p' r) →
      r.args.length = args.length →
      Meaning u root (.expr (.mk p' (r.args.zip (args.map (Clo.mk p ρ))) r.node)) c res →
      Meaning u root (.expr (.mk p ρ (.call q args))) c res
  -- predicates
  | posOk {p ρ e c c'} : Meaning u root (.expr (.mk p ρ e)) c (some c') →
      Meaning u root (.expr (.mk p ρ (.pos e))) c (some c)
  | posFail {p ρ e c} : Meaning u root (.expr (.mk p ρ e)) c none → Meaning u root (.expr (.mk p ρ (.pos e))) c none
  | negOk {p ρ e c} : Meaning u root (.expr (.mk p ρ e)) c none → Meaning u root (.expr (.mk p ρ (.neg e))) c (some c)
  | negFail {p ρ e c c'} : Meaning u root (.expr (.mk p ρ e)) c (some c') →
      Meaning u root (.expr (.mk p ρ (.neg e))) c none
  -- `l t r`: first `l`, then the trivia, then `r`
  | seq {p ρ l r t c c1 c2 res} : Meaning u root (.expr (.mk p ρ l)) c (some c1) →
      Meaning u root (.trivia p t) c1 (some c2) → Meaning u root (.expr (.mk p ρ r)) c2 res →
      Meaning u root (.expr (.mk p ρ (.seq l r t))) c res
  | seqFail {p ρ l r t c} : Meaning u root (.expr (.mk p ρ l)) c none →
      Meaning u root (.expr (.mk p ρ (.seq l r t))) c none
  | seqTriviaFail {p ρ l r t c c1} : Meaning u root (.expr (.mk p ρ l)) c (some c1) →
      Meaning u root (.trivia p t) c1 none → Meaning u root (.expr (.mk p ρ (.seq l r t))) c none
  -- `l | r`: `l`, or if it fails `r`
  | choiceL {p ρ l r c c'} : Meaning u root (.expr (.mk p ρ l)) c (some c') →
      Meaning u root (.expr (.mk p ρ (.choice l r))) c (some c')
  | choiceR {p ρ l r c res} : Meaning u root (.expr (.mk p ρ l)) c none → Meaning u root (.expr (.mk p ρ r)) c res →
      Meaning u root (.expr (.mk p ρ (.choice l r))) c res
  | optSome {p ρ e c c'} : Meaning u root (.expr (.mk p ρ e)) c (some c') →
      Meaning u root (.expr (.mk p ρ (.opt e))) c (some c')
  | optNone {p ρ e c} : Meaning u root (.expr (.mk p ρ e)) c none →
      Meaning u root (.expr (.mk p ρ (.opt e))) c (some c)
  | rep {p ρ e e' min max c r} : repetition e = some (e', min, max) →
      Meaning u root (.reps (.mk p ρ e') p (sepTrivia e') min max 0) c r → Meaning u root (.expr (.mk p ρ e)) c r
  | separated {p ρ e t c r} : Meaning u root (.expr (.mk p ρ e)) c r →
      Meaning u root (.expr (.mk p ρ (.separated e t))) c r
  -- trivia: nothing, or the rule of the module
  | triviaNone {p c} : Meaning u root (.trivia p .none) c (some c)
  | triviaRule {p m t r c res} : modAt root p = some m → triviaRule m t = some r →
      Meaning u root (.expr (.mk p [] r.node)) c res → Meaning u root (.trivia p t) c res
  -- greedy repetition
  | unitFirst {e p t c r} : Meaning u root (.expr e) c r → Meaning u root (.unit e p t 0) c r
  | unitNext {e p t i c c' r} : Meaning u root (.trivia p t) c (some c') → Meaning u root (.expr e) c' r →
      Meaning u root (.unit e p t (i + 1)) c r
  | unitTriviaFail {e p t i c} : Meaning u root (.trivia p t) c none → Meaning u root (.unit e p t (i + 1)) c none
  | repsMax {e p t min max i c} : max ≤ i → Meaning u root (.reps e p t min max i) c (some c)
  | repsMore {e p t min max i c c' r} : i < max → Meaning u root (.unit e p t i) c (some c') →
      Meaning u root (.reps e p t min max (i + 1)) c' r → Meaning u root (.reps e p t min max i) c r
  | repsFew {e p t min max i c} : i < max → Meaning u root (.unit e p t i) c none → i < min →
      Meaning u root (.reps e p t min max i) c none
  | repsStop {e p t min max i c} : i < max → Meaning u root (.unit e p t i) c none → min ≤ i →
      Meaning u root (.reps e p t min max i) c (some c)

/-! ## Well-formed grammars -/

/-- The parameters of a rule are used without arguments. -/
def ParamsPlain (r : Rule) : Prop :=
  ∀ x ∈ r.args, (∀ args, ¬ Sub (.call [x] args) r.node) ∧ ∀ range, ¬ Sub (.slice [x] range) r.node

/-- Names in a module are not ambiguous: rules have different names, imports have different names, none is
called `pest`, a single built-in (other than a Unicode property) is not imported under another name, trivia rules have no parameters, and
parameters are used without arguments. -/
structure WellNamed (u : Unicode) (m : Module) : Prop where
  rules : (m.rules.map Rule.name).Nodup
  imports : (m.imports.map Import.name).Nodup
  pest : ∀ i ∈ m.imports, i.name ≠ "pest".toList
  alias : ∀ x src, Import.builtin x src ∈ m.imports → src.head? = some "pest".toList ∧
    (IsBuiltin u src → src.getLast? = some x ∨ src[1]? = some "unicode".toList)
  trivia : ∀ r ∈ m.rules, r.name = optName ∨ r.name = manName → r.args = []
  plain : ∀ r ∈ m.rules, ParamsPlain r

end Pest3.Gen
