import Verif.ScopeSpec
import Verif.Termination

/-!
# Specification: grammars without left recursion

As in the usual check of parsing expression grammars, on the grammar as written: which expressions may match the empty text, and what may be tried
before any character has been taken.  Rules may have parameters; what is said about them is assumed for each rule once, not for each use.
-/

namespace Pest3.Gen
open Pest3

/-- What may be tried first: a rule, by the path of its module and its name, or a parameter. -/
inductive Head where
  | rule (path : List Name) (x : Name)
  | param (x : Name)

/-- What is assumed about rules. -/
structure Assumed where
  /-- the rules that may match the empty text -/
  empty : List Name → Name → Prop
  /-- the parameters that may be given something that may match the empty text -/
  emptyArg : List Name → Name → Name → Prop
  /-- the parameters that may be tried before any character has been taken -/
  first : List Name → Name → Name → Prop
  /-- an order of the rules -/
  rank : List Name → Name → Nat

section
variable (u : Unicode) (root : Module) (g : Assumed) (p : List Name) (r : Rule)

/-- The name of the rule for the trivia. -/
def triviaName : Trivia → Option Name
  | .none => none
  | .optional => some optName
  | .mandatory => some manName

/-- An expression in rule `r` of the module at `p` may match the empty text. -/
inductive CanBeEmpty : Expr → Prop
  | literal {e l} : literal e = some l → l.mayEmpty → CanBeEmpty e
  | builtin {e q full l} : plainRef e = some q → target u root p q = some (.builtin full) → builtinLeaf u full = some l → l.mayEmpty → CanBeEmpty e
  | slice {q range} : CanBeEmpty (.slice q range)
  | push {q e} : target u root p q = some (.builtin pushPath) → CanBeEmpty e → CanBeEmpty (.call q [e])
  | param {x} : x ∈ r.args → g.emptyArg p r.name x → CanBeEmpty (.path [x])
  | rule {q p' r'} : target u root p q = some (.rule p' r') → g.empty p' r'.name → CanBeEmpty (.path q)
  | call {q args p' r'} : target u root p q = some (.rule p' r') → g.empty p' r'.name → CanBeEmpty (.call q args)
  | pos {e} : CanBeEmpty (.pos e)
  | neg {e} : CanBeEmpty (.neg e)
  | opt {e} : CanBeEmpty (.opt e)
  | seq {l r t} : CanBeEmpty l → CanBeEmpty r → CanBeEmpty (.seq l r t)
  | choiceL {l r} : CanBeEmpty l → CanBeEmpty (.choice l r)
  | choiceR {l r} : CanBeEmpty r → CanBeEmpty (.choice l r)
  | repZero {e e' min max} : repetition e = some (e', min, max) → min = 0 ∨ max = 0 → CanBeEmpty e
  | rep {e e' min max} : repetition e = some (e', min, max) → CanBeEmpty e' → CanBeEmpty e
  | separated {e t} : CanBeEmpty e → CanBeEmpty (.separated e t)

/-- What an expression in rule `r` of the module at `p` may try before any character has been taken. -/
inductive MayStart : Expr → Head → Prop
  | param {x} : x ∈ r.args → MayStart (.path [x]) (.param x)
  | rule {q p' r'} : target u root p q = some (.rule p' r') → MayStart (.path q) (.rule p' r'.name)
  | call {q args p' r'} : target u root p q = some (.rule p' r') → MayStart (.call q args) (.rule p' r'.name)
  | arg {q args p' r' x a h} : target u root p q = some (.rule p' r') → (x, a) ∈ r'.args.zip args → g.first p' r'.name x → MayStart a h → MayStart (.call q args) h
  | push {q e h} : target u root p q = some (.builtin pushPath) → MayStart e h → MayStart (.call q [e]) h
  | pos {e h} : MayStart e h → MayStart (.pos e) h
  | neg {e h} : MayStart e h → MayStart (.neg e) h
  | opt {e h} : MayStart e h → MayStart (.opt e) h
  | seqL {l r t h} : MayStart l h → MayStart (.seq l r t) h
  | seqTrivia {l r' t x} : CanBeEmpty u root g p r l → triviaName t = some x → MayStart (.seq l r' t) (.rule p x)
  | seqR {l r' t h} : CanBeEmpty u root g p r l → MayStart r' h → MayStart (.seq l r' t) h
  | choiceL {l r h} : MayStart l h → MayStart (.choice l r) h
  | choiceR {l r h} : MayStart r h → MayStart (.choice l r) h
  | rep {e e' min max h} : repetition e = some (e', min, max) → MayStart e' h → MayStart e h
  | repTrivia {e e' min max x} : repetition e = some (e', min, max) → CanBeEmpty u root g p r e' → triviaName (sepTrivia e') = some x → MayStart e (.rule p x)
  | separated {e t h} : MayStart e h → MayStart (.separated e t) h

end

/-- No rule may try itself before a character has been taken, nor may rules do so in turn. -/
structure NotLeftRecursive (u : Unicode) (root : Module) (g : Assumed) : Prop where
  /-- rules that may match the empty text are assumed to -/
  empty : ∀ p m r, modAt root p = some m → r ∈ m.rules → CanBeEmpty u root g p r r.node → g.empty p r.name
  /-- so are parameters given something that may match the empty text -/
  args : ∀ p m r, modAt root p = some m → r ∈ m.rules → ∀ q args p' r', Sub (.call q args) r.node → target u root p q = some (.rule p' r') →
    ∀ x a, (x, a) ∈ r'.args.zip args → CanBeEmpty u root g p r a → g.emptyArg p' r'.name x
  /-- and parameters that may be tried first -/
  first : ∀ p m r, modAt root p = some m → r ∈ m.rules → ∀ x, MayStart u root g p r r.node (.param x) → g.first p r.name x
  /-- what a rule may try first has a lower rank -/
  rank : ∀ p m r, modAt root p = some m → r ∈ m.rules → ∀ p' x, MayStart u root g p r r.node (.rule p' x) → g.rank p' x < g.rank p r.name

/-- An expression in a rule with parameters `ps` of the module at `p` always tries the rule `x` of the module at `p'` before anything else can fail or take a character. -/
inductive Leads (u : Unicode) (root : Module) (p ps : List Name) : Expr → List Name → Name → Prop
  | rule {q p' r'} : (∀ x ∈ ps, q ≠ [x]) → target u root p q = some (.rule p' r') → Leads u root p ps (.path q) p' r'.name
  | call {q args p' r'} : target u root p q = some (.rule p' r') → Leads u root p ps (.call q args) p' r'.name
  | push {q e p' x} : target u root p q = some (.builtin pushPath) → Leads u root p ps e p' x → Leads u root p ps (.call q [e]) p' x
  | pos {e p' x} : Leads u root p ps e p' x → Leads u root p ps (.pos e) p' x
  | neg {e p' x} : Leads u root p ps e p' x → Leads u root p ps (.neg e) p' x
  | opt {e p' x} : Leads u root p ps e p' x → Leads u root p ps (.opt e) p' x
  | seq {l r t p' x} : Leads u root p ps l p' x → Leads u root p ps (.seq l r t) p' x
  | choice {l r p' x} : Leads u root p ps l p' x → Leads u root p ps (.choice l r) p' x
  | rep {e e' min max p' x} : repetition e = some (e', min, max) → max ≠ 0 → Leads u root p ps e' p' x → Leads u root p ps e p' x
  | separated {e t p' x} : Leads u root p ps e p' x → Leads u root p ps (.separated e t) p' x

/-- Each of these rules always tries one of them first. -/
def LeftRecursive (u : Unicode) (root : Module) (among : List Name → Name → Prop) : Prop :=
  ∀ p m x r, among p x → modAt root p = some m → findRule m.rules x = some r → ∃ p' x', among p' x' ∧ Leads u root p r.args r.node p' x'

end Pest3.Gen
