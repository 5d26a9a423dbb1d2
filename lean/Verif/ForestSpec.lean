import Verif.RuleEnum
import Verif.Pairs

/-!
# Specification: the tokens of a match

`Shows` says which tokens a match of a grammar expression has, in terms of the grammar as written: every
application of a rule that is not silent is a token for the text it matched, within the token of the rule it
was applied in.  There are none for text matched by lookahead, by trivia, or inside silent rules.
-/

namespace Pest3.Gen
open Pest3

/-- The rule `x` of the module at a path, as seen from the top. -/
def ruleAt : List Name → Name → RuleVal
  | [], x => .rule x
  | m :: p, x => .sub m (ruleAt p x)

/-- The tokens of an application of rule `r` of module `p` that matched from `c` to `c'`, `F` being those inside. -/
def tokens (p : List Name) (r : Rule) (c c' : Cfg) (F : List (Pair RuleVal)) : List (Pair RuleVal) :=
  if r.silent then [] else [.mk (ruleAt p r.name) (utf8Len c.pre) (utf8Len c'.pre) F]

/-- The tokens of a match. -/
inductive Shows (u : Unicode) (root : Module) : SItem → Cfg → Cfg → List (Pair RuleVal) → Prop
  | literal {p ρ e l c c'} : literal e = some l → Meaning u root (.expr (.mk p ρ e)) c (some c') →
      Shows u root (.expr (.mk p ρ e)) c c' []
  | builtin {p ρ e q full l c c'} : plainRef e = some q → NotParam ρ q → target u root p q = some (.builtin full) →
      builtinLeaf u full = some l → Meaning u root (.expr (.mk p ρ e)) c (some c') →
      Shows u root (.expr (.mk p ρ e)) c c' []
  | slice {p ρ q range c c'} : Meaning u root (.expr (.mk p ρ (.slice q range))) c (some c') →
      Shows u root (.expr (.mk p ρ (.slice q range))) c c' []
  | push {p ρ q e c m rest stk F} : NotParam ρ q → target u root p q = some (.builtin pushPath) →
      Shows u root (.expr (.mk p ρ e)) c ⟨c.pre ++ m, rest, stk⟩ F →
      Shows u root (.expr (.mk p ρ (.call q [e]))) c ⟨c.pre ++ m, rest, stk ++ [m]⟩ F
  | param {p ρ x e c c' F} : lookupClo x ρ = some e → Shows u root (.expr e) c c' F →
      Shows u root (.expr (.mk p ρ (.path [x]))) c c' F
  | rule {p ρ q p' r c c' F} : NotParam ρ q → target u root p q = some (.rule p' r) → r.args = [] →
      Shows u root (.expr (.mk p' [] r.node)) c c' F → Shows u root (.expr (.mk p ρ (.path q))) c c' (tokens p' r c c' F)
  | call {p ρ q args p' r c c' F} : NotParam ρ q → target u root p q = some (.rule p' r) → r.args.length = args.length →
      Shows u root (.expr (.mk p' (r.args.zip (args.map (Clo.mk p ρ))) r.node)) c c' F →
      Shows u root (.expr (.mk p ρ (.call q args))) c c' (tokens p' r c c' F)
  | pos {p ρ e c c'} : Meaning u root (.expr (.mk p ρ (.pos e))) c (some c') → Shows u root (.expr (.mk p ρ (.pos e))) c c' []
  | neg {p ρ e c c'} : Meaning u root (.expr (.mk p ρ (.neg e))) c (some c') → Shows u root (.expr (.mk p ρ (.neg e))) c c' []
  | seq {p ρ l r t c c1 c2 c' F G} : Shows u root (.expr (.mk p ρ l)) c c1 F → Meaning u root (.trivia p t) c1 (some c2) →
      Shows u root (.expr (.mk p ρ r)) c2 c' G → Shows u root (.expr (.mk p ρ (.seq l r t))) c c' (F ++ G)
  | choiceL {p ρ l r c c' F} : Shows u root (.expr (.mk p ρ l)) c c' F → Shows u root (.expr (.mk p ρ (.choice l r))) c c' F
  | choiceR {p ρ l r c c' F} : Meaning u root (.expr (.mk p ρ l)) c none → Shows u root (.expr (.mk p ρ r)) c c' F →
      Shows u root (.expr (.mk p ρ (.choice l r))) c c' F
  | optSome {p ρ e c c' F} : Shows u root (.expr (.mk p ρ e)) c c' F → Shows u root (.expr (.mk p ρ (.opt e))) c c' F
  | optNone {p ρ e c} : Meaning u root (.expr (.mk p ρ e)) c none → Shows u root (.expr (.mk p ρ (.opt e))) c c []
  | rep {p ρ e e' min max c c' F} : repetition e = some (e', min, max) →
      Shows u root (.reps (.mk p ρ e') p (sepTrivia e') min max 0) c c' F → Shows u root (.expr (.mk p ρ e)) c c' F
  | separated {p ρ e t c c' F} : Shows u root (.expr (.mk p ρ e)) c c' F →
      Shows u root (.expr (.mk p ρ (.separated e t))) c c' F
  | unitFirst {e p t c c' F} : Shows u root (.expr e) c c' F → Shows u root (.unit e p t 0) c c' F
  | unitNext {e p t i c c1 c' F} : Meaning u root (.trivia p t) c (some c1) → Shows u root (.expr e) c1 c' F →
      Shows u root (.unit e p t (i + 1)) c c' F
  | repsMax {e p t min max i c} : max ≤ i → Shows u root (.reps e p t min max i) c c []
  | repsMore {e p t min max i c c1 c' F G} : i < max → Shows u root (.unit e p t i) c c1 F →
      Shows u root (.reps e p t min max (i + 1)) c1 c' G → Shows u root (.reps e p t min max i) c c' (F ++ G)
  | repsStop {e p t min max i c} : i < max → Meaning u root (.unit e p t i) c none → min ≤ i →
      Shows u root (.reps e p t min max i) c c []

end Pest3.Gen
