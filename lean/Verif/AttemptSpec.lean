import Verif.ForestSpec
import Verif.Trace
import Verif.Transfer

/-!
# Specification: which rules of a grammar are tried where

`Tries` extends the meaning of grammars (`Verif/GrammarSpec.lean`) by the events of a match, successful or not: every rule that was tried, where,
with which outcome, and what was tried in the course of it; and every illegal access to the stack.  It does not mention generated
code.  The events are those of `Verif/Trace.lean`, where rules are numbered; `rank` numbers the rules of the grammar.
-/

namespace Pest3.Gen
open Pest3 Pest3.Meta

/-- A numbering of the values of the enumeration: the end of the input comes first (`generator/src/common.rs:89-98`), and
different values have different numbers. -/
structure Ranks (rank : RuleVal → Label) : Prop where
  eoi : rank .eoi = eoiLabel
  inj : ∀ v w, rank v = rank w → v = w

/-- What trying the rule `r` of the module at `p` contributes: where it was tried, whether it was wanted (`flag`), whether it matched,
and the events inside. -/
def tried (rank : RuleVal → Label) (p : List Name) (r : Rule) (flag : Bool) (c : Cfg) (res : Option Cfg) (es : List Ev) : List Ev :=
  [.rule (rank (ruleAt p r.name)) (utf8Len c.pre) flag res.isSome es]

/-- `Tries u root rank flag item c res es`: `item`, tried at `c`, has the result `res`, and `es` are the events in the order in which they happen.
`flag` is `false` inside of `!`, where a match is not wanted. -/
inductive Tries (u : Unicode) (root : Module) (rank : RuleVal → Label) : Bool → SItem → Cfg → Option Cfg → List Ev → Prop
  -- literals try nothing
  | literal {f p ρ e l c res} : literal e = some l → Meaning u root (.expr (.mk p ρ e)) c res →
      Tries u root rank f (.expr (.mk p ρ e)) c res []
  -- built-ins try nothing; those that need more on the stack than there is are reported
  | builtinOk {f p ρ e q full l c c'} : plainRef e = some q → NotParam ρ q → target u root p q = some (.builtin full) →
      builtinLeaf u full = some l → Meaning u root (.expr (.mk p ρ e)) c (some c') →
      Tries u root rank f (.expr (.mk p ρ e)) c (some c') []
  | builtinFail {f p ρ e q full l c} : plainRef e = some q → NotParam ρ q → target u root p q = some (.builtin full) →
      builtinLeaf u full = some l → Meaning u root (.expr (.mk p ρ e)) c none →
      Tries u root rank f (.expr (.mk p ρ e)) c none (leafEvents l c)
  | sliceOk {f p ρ q range c c'} : Meaning u root (.expr (.mk p ρ (.slice q range))) c (some c') →
      Tries u root rank f (.expr (.mk p ρ (.slice q range))) c (some c') []
  | sliceFail {f p ρ q range l c} : l = (match range.stop with
        | some b => Leaf.slice2 (range.start.getD 0) b
        | none => Leaf.slice1 (range.start.getD 0)) →
      Meaning u root (.expr (.mk p ρ (.slice q range))) c none →
      Tries u root rank f (.expr (.mk p ρ (.slice q range))) c none (leafEvents l c)
  | pushOk {f p ρ q e c m rest stk es} : NotParam ρ q → target u root p q = some (.builtin pushPath) →
      Tries u root rank f (.expr (.mk p ρ e)) c (some ⟨c.pre ++ m, rest, stk⟩) es →
      Tries u root rank f (.expr (.mk p ρ (.call q [e]))) c (some ⟨c.pre ++ m, rest, stk ++ [m]⟩) es
  | pushFail {f p ρ q e c es} : NotParam ρ q → target u root p q = some (.builtin pushPath) →
      Tries u root rank f (.expr (.mk p ρ e)) c none es → Tries u root rank f (.expr (.mk p ρ (.call q [e]))) c none es
  -- a parameter stands for the argument
  | param {f p ρ x e c r es} : lookupClo x ρ = some e → Tries u root rank f (.expr e) c r es →
      Tries u root rank f (.expr (.mk p ρ (.path [x]))) c r es
  -- rules, silent or not
  | rule {f p ρ q p' r c res es} : NotParam ρ q → target u root p q = some (.rule p' r) → r.args = [] →
      Tries u root rank f (.expr (.mk p' [] r.node)) c res es →
      Tries u root rank f (.expr (.mk p ρ (.path q))) c res (tried rank p' r f c res es)
  | call {f p ρ q args p' r c res es} : NotParam ρ q → target u root p q = some (.rule p' r) →
      r.args.length = args.length →
      Tries u root rank f (.expr (.mk p' (r.args.zip (args.map (Clo.mk p ρ))) r.node)) c res es →
      Tries u root rank f (.expr (.mk p ρ (.call q args))) c res (tried rank p' r f c res es)
  -- predicates say what is wanted
  | posOk {f p ρ e c c' es} : Tries u root rank true (.expr (.mk p ρ e)) c (some c') es →
      Tries u root rank f (.expr (.mk p ρ (.pos e))) c (some c) es
  | posFail {f p ρ e c es} : Tries u root rank true (.expr (.mk p ρ e)) c none es →
      Tries u root rank f (.expr (.mk p ρ (.pos e))) c none es
  | negOk {f p ρ e c es} : Tries u root rank false (.expr (.mk p ρ e)) c none es →
      Tries u root rank f (.expr (.mk p ρ (.neg e))) c (some c) es
  | negFail {f p ρ e c c' es} : Tries u root rank false (.expr (.mk p ρ e)) c (some c') es →
      Tries u root rank f (.expr (.mk p ρ (.neg e))) c none es
  | seq {f p ρ l r t c c1 c2 res es es' es''} : Tries u root rank f (.expr (.mk p ρ l)) c (some c1) es →
      Tries u root rank f (.trivia p t) c1 (some c2) es' → Tries u root rank f (.expr (.mk p ρ r)) c2 res es'' →
      Tries u root rank f (.expr (.mk p ρ (.seq l r t))) c res (es ++ (es' ++ es''))
  | seqFail {f p ρ l r t c es} : Tries u root rank f (.expr (.mk p ρ l)) c none es →
      Tries u root rank f (.expr (.mk p ρ (.seq l r t))) c none es
  | seqTriviaFail {f p ρ l r t c c1 es es'} : Tries u root rank f (.expr (.mk p ρ l)) c (some c1) es →
      Tries u root rank f (.trivia p t) c1 none es' → Tries u root rank f (.expr (.mk p ρ (.seq l r t))) c none (es ++ es')
  | choiceL {f p ρ l r c c' es} : Tries u root rank f (.expr (.mk p ρ l)) c (some c') es →
      Tries u root rank f (.expr (.mk p ρ (.choice l r))) c (some c') es
  | choiceR {f p ρ l r c res es es'} : Tries u root rank f (.expr (.mk p ρ l)) c none es →
      Tries u root rank f (.expr (.mk p ρ r)) c res es' → Tries u root rank f (.expr (.mk p ρ (.choice l r))) c res (es ++ es')
  | optSome {f p ρ e c c' es} : Tries u root rank f (.expr (.mk p ρ e)) c (some c') es →
      Tries u root rank f (.expr (.mk p ρ (.opt e))) c (some c') es
  | optNone {f p ρ e c es} : Tries u root rank f (.expr (.mk p ρ e)) c none es →
      Tries u root rank f (.expr (.mk p ρ (.opt e))) c (some c) es
  | rep {f p ρ e e' min max c r es} : repetition e = some (e', min, max) →
      Tries u root rank f (.reps (.mk p ρ e') p (sepTrivia e') min max 0) c r es → Tries u root rank f (.expr (.mk p ρ e)) c r es
  | separated {f p ρ e t c r es} : Tries u root rank f (.expr (.mk p ρ e)) c r es →
      Tries u root rank f (.expr (.mk p ρ (.separated e t))) c r es
  -- trivia rules are not reported, the rules they use are
  | triviaNone {f p c} : Tries u root rank f (.trivia p .none) c (some c) []
  | triviaRule {f p m t r c res es} : modAt root p = some m → triviaRule m t = some r →
      Tries u root rank f (.expr (.mk p [] r.node)) c res es → Tries u root rank f (.trivia p t) c res es
  -- greedy repetition: also what is tried in vain after the last match
  | unitFirst {f e p t c r es} : Tries u root rank f (.expr e) c r es → Tries u root rank f (.unit e p t 0) c r es
  | unitNext {f e p t i c c' r es es'} : Tries u root rank f (.trivia p t) c (some c') es → Tries u root rank f (.expr e) c' r es' →
      Tries u root rank f (.unit e p t (i + 1)) c r (es ++ es')
  | unitTriviaFail {f e p t i c es} : Tries u root rank f (.trivia p t) c none es →
      Tries u root rank f (.unit e p t (i + 1)) c none es
  | repsMax {f e p t min max i c} : max ≤ i → Tries u root rank f (.reps e p t min max i) c (some c) []
  | repsMore {f e p t min max i c c' r es es'} : i < max → Tries u root rank f (.unit e p t i) c (some c') es →
      Tries u root rank f (.reps e p t min max (i + 1)) c' r es' → Tries u root rank f (.reps e p t min max i) c r (es ++ es')
  | repsFew {f e p t min max i c es} : i < max → Tries u root rank f (.unit e p t i) c none es → i < min →
      Tries u root rank f (.reps e p t min max i) c none es
  | repsStop {f e p t min max i c es} : i < max → Tries u root rank f (.unit e p t i) c none es → min ≤ i →
      Tries u root rank f (.reps e p t min max i) c (some c) es

/-- The events of requiring the rule `r` of the module at `p` to match all of a text: if it matches, the end of the input is tried where the match ends. -/
inductive FullTries (u : Unicode) (root : Module) (rank : RuleVal → Label) (p : List Name) (r : Rule) (inp : Str) : Bool → List Ev → Prop
  | fail {es} : Tries u root rank true (.expr (.mk p [] r.node)) (startCfg inp) none es →
      FullTries u root rank p r inp false (tried rank p r true (startCfg inp) none es)
  | ok {c es} : Tries u root rank true (.expr (.mk p [] r.node)) (startCfg inp) (some c) es →
      FullTries u root rank p r inp (decide (c.suf = []))
        (tried rank p r true (startCfg inp) (some c) es ++ [.rule (rank .eoi) (utf8Len c.pre) true (decide (c.suf = [])) []])

/-- The labels under which the structs of the program are tracked are the numbers of the values of the enumeration of the top module
(`generator/src/typed/generator.rs:241-258`: `rule_val`, the value of the own enumeration converted once per enclosing module). -/
def Numbered (out : Output) (R : Layout) (env : Env) (rank : RuleVal → Label) : Prop :=
  ∀ p o s ts, outAt out p = some o → s ∈ o.content → ts.length = s.args.length →
    (env (R.num p s.name ts)).label = rank (ruleValue p p.length s.name)

end Pest3.Gen
