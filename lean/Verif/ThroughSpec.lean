import Verif.AttemptSpec
import Verif.InlineSpec

/-!
# Specification: tokens and events of grammars with silent rules with parameters

A call of a silent rule with parameters of the top module is replaced by the body of the rule (`generator/src/typed/generator.rs:872-943`, `963`: C46), so
it leaves no trace: the tokens inside of it are tokens of where it is called, and it is not among the rules that were tried.  All other applications of rules are as in `Shows` and `Tries`; in particular
nothing inside of a silent rule without parameters is a token.
-/

namespace Pest3.Gen
open Pest3 Pest3.Meta

/-- The tokens of a call of rule `r` of module `p`, `F` being those inside. -/
def callTokens (p : List Name) (r : Rule) (c c' : Cfg) (F : List (Pair RuleVal)) : List (Pair RuleVal) :=
  if p = [] ∧ r.inlined = true then F else tokens p r c c' F

/-- The events of a call of rule `r` of module `p`, `es` being those inside. -/
def callTried (rank : RuleVal → Label) (p : List Name) (r : Rule) (flag : Bool) (c : Cfg) (res : Option Cfg) (es : List Ev) : List Ev :=
  if p = [] ∧ r.inlined = true then es else tried rank p r flag c res es

/-- The tokens of a match: as `Shows`, except that calls of silent rules with parameters of the top module are transparent. -/
inductive ShowsThrough (u : Unicode) (root : Module) : SItem → Cfg → Cfg → List (Pair RuleVal) → Prop
  | literal {p ρ e l c c'} : literal e = some l → Meaning u root (.expr (.mk p ρ e)) c (some c') →
      ShowsThrough u root (.expr (.mk p ρ e)) c c' []
  | builtin {p ρ e q full l c c'} : plainRef e = some q → NotParam ρ q → target u root p q = some (.builtin full) →
      builtinLeaf u full = some l → Meaning u root (.expr (.mk p ρ e)) c (some c') →
      ShowsThrough u root (.expr (.mk p ρ e)) c c' []
  | slice {p ρ q range c c'} : Meaning u root (.expr (.mk p ρ (.slice q range))) c (some c') →
      ShowsThrough u root (.expr (.mk p ρ (.slice q range))) c c' []
  | push {p ρ q e c m rest stk F} : NotParam ρ q → target u root p q = some (.builtin pushPath) →
      ShowsThrough u root (.expr (.mk p ρ e)) c ⟨c.pre ++ m, rest, stk⟩ F →
      ShowsThrough u root (.expr (.mk p ρ (.call q [e]))) c ⟨c.pre ++ m, rest, stk ++ [m]⟩ F
  | param {p ρ x e c c' F} : lookupClo x ρ = some e → ShowsThrough u root (.expr e) c c' F →
      ShowsThrough u root (.expr (.mk p ρ (.path [x]))) c c' F
  | rule {p ρ q p' r c c' F} : NotParam ρ q → target u root p q = some (.rule p' r) → r.args = [] →
      ShowsThrough u root (.expr (.mk p' [] r.node)) c c' F → ShowsThrough u root (.expr (.mk p ρ (.path q))) c c' (tokens p' r c c' F)
  | call {p ρ q args p' r c c' F} : NotParam ρ q → target u root p q = some (.rule p' r) → r.args.length = args.length →
      ShowsThrough u root (.expr (.mk p' (r.args.zip (args.map (Clo.mk p ρ))) r.node)) c c' F →
      ShowsThrough u root (.expr (.mk p ρ (.call q args))) c c' (callTokens p' r c c' F)
  | pos {p ρ e c c'} : Meaning u root (.expr (.mk p ρ (.pos e))) c (some c') → ShowsThrough u root (.expr (.mk p ρ (.pos e))) c c' []
  | neg {p ρ e c c'} : Meaning u root (.expr (.mk p ρ (.neg e))) c (some c') → ShowsThrough u root (.expr (.mk p ρ (.neg e))) c c' []
  | seq {p ρ l r t c c1 c2 c' F G} : ShowsThrough u root (.expr (.mk p ρ l)) c c1 F → Meaning u root (.trivia p t) c1 (some c2) →
      ShowsThrough u root (.expr (.mk p ρ r)) c2 c' G → ShowsThrough u root (.expr (.mk p ρ (.seq l r t))) c c' (F ++ G)
  | choiceL {p ρ l r c c' F} : ShowsThrough u root (.expr (.mk p ρ l)) c c' F → ShowsThrough u root (.expr (.mk p ρ (.choice l r))) c c' F
  | choiceR {p ρ l r c c' F} : Meaning u root (.expr (.mk p ρ l)) c none → ShowsThrough u root (.expr (.mk p ρ r)) c c' F →
      ShowsThrough u root (.expr (.mk p ρ (.choice l r))) c c' F
  | optSome {p ρ e c c' F} : ShowsThrough u root (.expr (.mk p ρ e)) c c' F → ShowsThrough u root (.expr (.mk p ρ (.opt e))) c c' F
  | optNone {p ρ e c} : Meaning u root (.expr (.mk p ρ e)) c none → ShowsThrough u root (.expr (.mk p ρ (.opt e))) c c []
  | rep {p ρ e e' min max c c' F} : repetition e = some (e', min, max) →
      ShowsThrough u root (.reps (.mk p ρ e') p (sepTrivia e') min max 0) c c' F → ShowsThrough u root (.expr (.mk p ρ e)) c c' F
  | separated {p ρ e t c c' F} : ShowsThrough u root (.expr (.mk p ρ e)) c c' F →
      ShowsThrough u root (.expr (.mk p ρ (.separated e t))) c c' F
  | unitFirst {e p t c c' F} : ShowsThrough u root (.expr e) c c' F → ShowsThrough u root (.unit e p t 0) c c' F
  | unitNext {e p t i c c1 c' F} : Meaning u root (.trivia p t) c (some c1) → ShowsThrough u root (.expr e) c1 c' F →
      ShowsThrough u root (.unit e p t (i + 1)) c c' F
  | repsMax {e p t min max i c} : max ≤ i → ShowsThrough u root (.reps e p t min max i) c c []
  | repsMore {e p t min max i c c1 c' F G} : i < max → ShowsThrough u root (.unit e p t i) c c1 F →
      ShowsThrough u root (.reps e p t min max (i + 1)) c1 c' G → ShowsThrough u root (.reps e p t min max i) c c' (F ++ G)
  | repsStop {e p t min max i c} : i < max → Meaning u root (.unit e p t i) c none → min ≤ i →
      ShowsThrough u root (.reps e p t min max i) c c []

/-- The events: as `Tries`, except that calls of silent rules with parameters of the top module are transparent. -/
inductive TriesThrough (u : Unicode) (root : Module) (rank : RuleVal → Label) : Bool → SItem → Cfg → Option Cfg → List Ev → Prop
  -- literals try nothing
  | literal {f p ρ e l c res} : literal e = some l → Meaning u root (.expr (.mk p ρ e)) c res →
      TriesThrough u root rank f (.expr (.mk p ρ e)) c res []
  -- built-ins try nothing; those that need more on the stack than there is are reported
  | builtinOk {f p ρ e q full l c c'} : plainRef e = some q → NotParam ρ q → target u root p q = some (.builtin full) →
      builtinLeaf u full = some l → Meaning u root (.expr (.mk p ρ e)) c (some c') →
      TriesThrough u root rank f (.expr (.mk p ρ e)) c (some c') []
  | builtinFail {f p ρ e q full l c} : plainRef e = some q → NotParam ρ q → target u root p q = some (.builtin full) →
      builtinLeaf u full = some l → Meaning u root (.expr (.mk p ρ e)) c none →
      TriesThrough u root rank f (.expr (.mk p ρ e)) c none (leafEvents l c)
  | sliceOk {f p ρ q range c c'} : Meaning u root (.expr (.mk p ρ (.slice q range))) c (some c') →
      TriesThrough u root rank f (.expr (.mk p ρ (.slice q range))) c (some c') []
  | sliceFail {f p ρ q range l c} : l = (match range.stop with
        | some b => Leaf.slice2 (range.start.getD 0) b
        | none => Leaf.slice1 (range.start.getD 0)) →
      Meaning u root (.expr (.mk p ρ (.slice q range))) c none →
      TriesThrough u root rank f (.expr (.mk p ρ (.slice q range))) c none (leafEvents l c)
  | pushOk {f p ρ q e c m rest stk es} : NotParam ρ q → target u root p q = some (.builtin pushPath) →
      TriesThrough u root rank f (.expr (.mk p ρ e)) c (some ⟨c.pre ++ m, rest, stk⟩) es →
      TriesThrough u root rank f (.expr (.mk p ρ (.call q [e]))) c (some ⟨c.pre ++ m, rest, stk ++ [m]⟩) es
  | pushFail {f p ρ q e c es} : NotParam ρ q → target u root p q = some (.builtin pushPath) →
      TriesThrough u root rank f (.expr (.mk p ρ e)) c none es → TriesThrough u root rank f (.expr (.mk p ρ (.call q [e]))) c none es
  -- a parameter stands for the argument
  | param {f p ρ x e c r es} : lookupClo x ρ = some e → TriesThrough u root rank f (.expr e) c r es →
      TriesThrough u root rank f (.expr (.mk p ρ (.path [x]))) c r es
  -- rules, silent or not
  | rule {f p ρ q p' r c res es} : NotParam ρ q → target u root p q = some (.rule p' r) → r.args = [] →
      TriesThrough u root rank f (.expr (.mk p' [] r.node)) c res es →
      TriesThrough u root rank f (.expr (.mk p ρ (.path q))) c res (tried rank p' r f c res es)
  | call {f p ρ q args p' r c res es} : NotParam ρ q → target u root p q = some (.rule p' r) →
      r.args.length = args.length →
      TriesThrough u root rank f (.expr (.mk p' (r.args.zip (args.map (Clo.mk p ρ))) r.node)) c res es →
      TriesThrough u root rank f (.expr (.mk p ρ (.call q args))) c res (callTried rank p' r f c res es)
  -- predicates say what is wanted
  | posOk {f p ρ e c c' es} : TriesThrough u root rank true (.expr (.mk p ρ e)) c (some c') es →
      TriesThrough u root rank f (.expr (.mk p ρ (.pos e))) c (some c) es
  | posFail {f p ρ e c es} : TriesThrough u root rank true (.expr (.mk p ρ e)) c none es →
      TriesThrough u root rank f (.expr (.mk p ρ (.pos e))) c none es
  | negOk {f p ρ e c es} : TriesThrough u root rank false (.expr (.mk p ρ e)) c none es →
      TriesThrough u root rank f (.expr (.mk p ρ (.neg e))) c (some c) es
  | negFail {f p ρ e c c' es} : TriesThrough u root rank false (.expr (.mk p ρ e)) c (some c') es →
      TriesThrough u root rank f (.expr (.mk p ρ (.neg e))) c none es
  | seq {f p ρ l r t c c1 c2 res es es' es''} : TriesThrough u root rank f (.expr (.mk p ρ l)) c (some c1) es →
      TriesThrough u root rank f (.trivia p t) c1 (some c2) es' → TriesThrough u root rank f (.expr (.mk p ρ r)) c2 res es'' →
      TriesThrough u root rank f (.expr (.mk p ρ (.seq l r t))) c res (es ++ (es' ++ es''))
  | seqFail {f p ρ l r t c es} : TriesThrough u root rank f (.expr (.mk p ρ l)) c none es →
      TriesThrough u root rank f (.expr (.mk p ρ (.seq l r t))) c none es
  | seqTriviaFail {f p ρ l r t c c1 es es'} : TriesThrough u root rank f (.expr (.mk p ρ l)) c (some c1) es →
      TriesThrough u root rank f (.trivia p t) c1 none es' → TriesThrough u root rank f (.expr (.mk p ρ (.seq l r t))) c none (es ++ es')
  | choiceL {f p ρ l r c c' es} : TriesThrough u root rank f (.expr (.mk p ρ l)) c (some c') es →
      TriesThrough u root rank f (.expr (.mk p ρ (.choice l r))) c (some c') es
  | choiceR {f p ρ l r c res es es'} : TriesThrough u root rank f (.expr (.mk p ρ l)) c none es →
      TriesThrough u root rank f (.expr (.mk p ρ r)) c res es' → TriesThrough u root rank f (.expr (.mk p ρ (.choice l r))) c res (es ++ es')
  | optSome {f p ρ e c c' es} : TriesThrough u root rank f (.expr (.mk p ρ e)) c (some c') es →
      TriesThrough u root rank f (.expr (.mk p ρ (.opt e))) c (some c') es
  | optNone {f p ρ e c es} : TriesThrough u root rank f (.expr (.mk p ρ e)) c none es →
      TriesThrough u root rank f (.expr (.mk p ρ (.opt e))) c (some c) es
  | rep {f p ρ e e' min max c r es} : repetition e = some (e', min, max) →
      TriesThrough u root rank f (.reps (.mk p ρ e') p (sepTrivia e') min max 0) c r es → TriesThrough u root rank f (.expr (.mk p ρ e)) c r es
  | separated {f p ρ e t c r es} : TriesThrough u root rank f (.expr (.mk p ρ e)) c r es →
      TriesThrough u root rank f (.expr (.mk p ρ (.separated e t))) c r es
  -- trivia rules are not reported, the rules they use are
  | triviaNone {f p c} : TriesThrough u root rank f (.trivia p .none) c (some c) []
  | triviaRule {f p m t r c res es} : modAt root p = some m → triviaRule m t = some r →
      TriesThrough u root rank f (.expr (.mk p [] r.node)) c res es → TriesThrough u root rank f (.trivia p t) c res es
  -- greedy repetition: also what is tried in vain after the last match
  | unitFirst {f e p t c r es} : TriesThrough u root rank f (.expr e) c r es → TriesThrough u root rank f (.unit e p t 0) c r es
  | unitNext {f e p t i c c' r es es'} : TriesThrough u root rank f (.trivia p t) c (some c') es → TriesThrough u root rank f (.expr e) c' r es' →
      TriesThrough u root rank f (.unit e p t (i + 1)) c r (es ++ es')
  | unitTriviaFail {f e p t i c es} : TriesThrough u root rank f (.trivia p t) c none es →
      TriesThrough u root rank f (.unit e p t (i + 1)) c none es
  | repsMax {f e p t min max i c} : max ≤ i → TriesThrough u root rank f (.reps e p t min max i) c (some c) []
  | repsMore {f e p t min max i c c' r es es'} : i < max → TriesThrough u root rank f (.unit e p t i) c (some c') es →
      TriesThrough u root rank f (.reps e p t min max (i + 1)) c' r es' → TriesThrough u root rank f (.reps e p t min max i) c r (es ++ es')
  | repsFew {f e p t min max i c es} : i < max → TriesThrough u root rank f (.unit e p t i) c none es → i < min →
      TriesThrough u root rank f (.reps e p t min max i) c none es
  | repsStop {f e p t min max i c es} : i < max → TriesThrough u root rank f (.unit e p t i) c none es → min ≤ i →
      TriesThrough u root rank f (.reps e p t min max i) c (some c) es

/-- The events of requiring the rule `r` of the module at `p` to match all of a text, as `FullTries`. -/
inductive FullTriesThrough (u : Unicode) (root : Module) (rank : RuleVal → Label) (p : List Name) (r : Rule) (inp : Str) : Bool → List Ev → Prop
  | fail {es} : TriesThrough u root rank true (.expr (.mk p [] r.node)) (startCfg inp) none es →
      FullTriesThrough u root rank p r inp false (tried rank p r true (startCfg inp) none es)
  | ok {c es} : TriesThrough u root rank true (.expr (.mk p [] r.node)) (startCfg inp) (some c) es →
      FullTriesThrough u root rank p r inp (decide (c.suf = []))
        (tried rank p r true (startCfg inp) (some c) es ++ [.rule (rank .eoi) (utf8Len c.pre) true (decide (c.suf = [])) []])

end Pest3.Gen
