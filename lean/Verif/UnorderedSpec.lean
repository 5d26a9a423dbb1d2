import Verif.GrammarSpec
import Verif.FirstSpec

/-!
# Specification: grammars read without order

Grammars are often read like context-free grammars: `a | b` is one of the two, `a*` any number, `a?` one or none.  The parser takes the first alternative that matches, and as much as it can.
Here is the reading without order, and when the order does not matter.
-/

namespace Pest3.Gen
open Pest3

section
variable (u : Unicode) (root : Module)

/-- What may be matched if alternatives are not ordered and repetitions may stop anywhere.  Predicates are about the parser: whether it matches there. -/
inductive May : SItem → Cfg → Cfg → Prop
  | literal {p ρ e l c m stk rest} : literal e = some l → leafSpec l c = some (m, stk) → c.suf = m ++ rest → May (.expr (.mk p ρ e)) c ⟨c.pre ++ m, rest, stk⟩
  | builtin {p ρ e q full l c m stk rest} : plainRef e = some q → NotParam ρ q → target u root p q = some (.builtin full) → builtinLeaf u full = some l →
      leafSpec l c = some (m, stk) → c.suf = m ++ rest → May (.expr (.mk p ρ e)) c ⟨c.pre ++ m, rest, stk⟩
  | slice {p ρ q range l c m stk rest} : NotParam ρ q → target u root p q = some (.builtin peekPath) →
      l = (match range.stop with
        | some b => Leaf.slice2 (range.start.getD 0) b
        | none => Leaf.slice1 (range.start.getD 0)) →
      leafSpec l c = some (m, stk) → c.suf = m ++ rest → May (.expr (.mk p ρ (.slice q range))) c ⟨c.pre ++ m, rest, stk⟩
  | push {p ρ q e c m rest stk} : NotParam ρ q → target u root p q = some (.builtin pushPath) → May (.expr (.mk p ρ e)) c ⟨c.pre ++ m, rest, stk⟩ →
      May (.expr (.mk p ρ (.call q [e]))) c ⟨c.pre ++ m, rest, stk ++ [m]⟩
  | param {p ρ x a c c'} : lookupClo x ρ = some a → May (.expr a) c c' → May (.expr (.mk p ρ (.path [x]))) c c'
  | rule {p ρ q p' r c c'} : NotParam ρ q → target u root p q = some (.rule p' r) → r.args = [] → May (.expr (.mk p' [] r.node)) c c' → May (.expr (.mk p ρ (.path q))) c c'
  | call {p ρ q args p' r c c'} : NotParam ρ q → target u root p q = some (.rule p' r) → r.args.length = args.length →
      May (.expr (.mk p' (r.args.zip (args.map (Clo.mk p ρ))) r.node)) c c' → May (.expr (.mk p ρ (.call q args))) c c'
  | pos {p ρ e c c'} : Meaning u root (.expr (.mk p ρ e)) c (some c') → May (.expr (.mk p ρ (.pos e))) c c
  | neg {p ρ e c} : Meaning u root (.expr (.mk p ρ e)) c none → May (.expr (.mk p ρ (.neg e))) c c
  | seq {p ρ l r t c c1 c2 c'} : May (.expr (.mk p ρ l)) c c1 → May (.trivia p t) c1 c2 → May (.expr (.mk p ρ r)) c2 c' → May (.expr (.mk p ρ (.seq l r t))) c c'
  | choiceL {p ρ l r c c'} : May (.expr (.mk p ρ l)) c c' → May (.expr (.mk p ρ (.choice l r))) c c'
  | choiceR {p ρ l r c c'} : May (.expr (.mk p ρ r)) c c' → May (.expr (.mk p ρ (.choice l r))) c c'
  | optSome {p ρ e c c'} : May (.expr (.mk p ρ e)) c c' → May (.expr (.mk p ρ (.opt e))) c c'
  | optNone {p ρ e c} : May (.expr (.mk p ρ (.opt e))) c c
  | rep {p ρ e e' min max c c'} : repetition e = some (e', min, max) → May (.reps (.mk p ρ e') p (sepTrivia e') min max 0) c c' → May (.expr (.mk p ρ e)) c c'
  | separated {p ρ e t c c'} : May (.expr (.mk p ρ e)) c c' → May (.expr (.mk p ρ (.separated e t))) c c'
  | triviaNone {p c} : May (.trivia p .none) c c
  | triviaRule {p m t r c c'} : modAt root p = some m → triviaRule m t = some r → May (.expr (.mk p [] r.node)) c c' → May (.trivia p t) c c'
  | unitFirst {e p t c c'} : May (.expr e) c c' → May (.unit e p t 0) c c'
  | unitNext {e p t i c c1 c'} : May (.trivia p t) c c1 → May (.expr e) c1 c' → May (.unit e p t (i + 1)) c c'
  | repsMore {e p t min max i c c1 c'} : i < max → May (.unit e p t i) c c1 → May (.reps e p t min max (i + 1)) c1 c' → May (.reps e p t min max i) c c'
  | repsStop {e p t min max i c} : min ≤ i ∨ max ≤ i → May (.reps e p t min max i) c c

/-- Where this may be matched such that `F` holds behind it. -/
def Before (it : SItem) (F : Cfg → Prop) (c : Cfg) : Prop := ∃ c', May u root it c c' ∧ F c'

/-- If this is the trivia that is followed by `F`, the trivia rule may be followed by it. -/
def TriviaBefore (fol : Clo → Cfg → Prop) (p : List Name) (t : Trivia) (F : Cfg → Prop) : Prop :=
  ∀ m r, modAt root p = some m → triviaRule m t = some r → ∀ c, F c → fol (.mk p [] r.node) c

/-- Expressions that are followed by `F` only, for which the order does not matter: where what follows, or a later alternative, may go on, the earlier alternative may not; where what follows may
go on, no further item may.  `fol` is what may follow the rules. -/
inductive Decides (fol : Clo → Cfg → Prop) : (Cfg → Prop) → Clo → Prop
  /-- what is never followed by anything -/
  | never {F a} : (∀ c, ¬ F c) → Decides fol F a
  | literal {F p ρ e l} : literal e = some l → Decides fol F (.mk p ρ e)
  | slice {F p ρ q range} : Decides fol F (.mk p ρ (.slice q range))
  | pos {F p ρ e} : Decides fol F (.mk p ρ (.pos e))
  | neg {F p ρ e} : Decides fol F (.mk p ρ (.neg e))
  | path {F p ρ q} : (∀ x a, q = [x] → lookupClo x ρ = some a → Decides fol F a) →
      (∀ p' r, NotParam ρ q → target u root p q = some (.rule p' r) → ∀ c, F c → fol (.mk p' [] r.node) c) → Decides fol F (.mk p ρ (.path q))
  | call {F p ρ q args} : (∀ p' r, NotParam ρ q → target u root p q = some (.rule p' r) → ∀ c, F c → fol (.mk p' (r.args.zip (args.map (Clo.mk p ρ))) r.node) c) →
      (∀ e, args = [e] → target u root p q = some (.builtin pushPath) → Decides fol (fun c => ∃ m, F ⟨c.pre, c.suf, c.stk ++ [m]⟩) (.mk p ρ e)) →
      Decides fol F (.mk p ρ (.call q args))
  | seq {F p ρ l r t} : Decides fol (Before u root (.trivia p t) (Before u root (.expr (.mk p ρ r)) F)) (.mk p ρ l) →
      TriviaBefore root fol p t (Before u root (.expr (.mk p ρ r)) F) → Decides fol F (.mk p ρ r) → Decides fol F (.mk p ρ (.seq l r t))
  | choice {F p ρ l r} : (∀ c c', Before u root (.expr (.mk p ρ r)) F c → ¬ May u root (.expr (.mk p ρ l)) c c') → Decides fol F (.mk p ρ l) → Decides fol F (.mk p ρ r) →
      Decides fol F (.mk p ρ (.choice l r))
  | opt {F p ρ e} : (∀ c c', F c → May u root (.expr (.mk p ρ e)) c c' → c' = c) → Decides fol F (.mk p ρ e) → Decides fol F (.mk p ρ (.opt e))
  | rep {F p ρ e e' min max} : repetition e = some (e', min, max) →
      (∀ i c c', min ≤ i → i < max → F c → ¬ May u root (.unit (.mk p ρ e') p (sepTrivia e') i) c c') →
      Decides fol (fun c => ∃ i, Before u root (.reps (.mk p ρ e') p (sepTrivia e') min max (i + 1)) F c) (.mk p ρ e') →
      TriviaBefore root fol p (sepTrivia e') (Before u root (.expr (.mk p ρ e')) fun c => ∃ i, Before u root (.reps (.mk p ρ e') p (sepTrivia e') min max (i + 1)) F c) →
      Decides fol F (.mk p ρ e)
  | separated {F p ρ e t} : Decides fol F (.mk p ρ e) → Decides fol F (.mk p ρ (.separated e t))

/-- In all rules, whatever the parameters stand for, the order does not matter. -/
def DecidesGrammar (fol : Clo → Cfg → Prop) : Prop :=
  ∀ p m r (ρ : List (Name × Clo)), modAt root p = some m → r ∈ m.rules → ρ.map Prod.fst = r.args → Decides u root fol (fol (.mk p ρ r.node)) (.mk p ρ r.node)

/-! ## The next character decides -/

/-- An expression, or trivia, followed by one of `F`, may match in front of `o`: it may take it, or match nothing and leave it to what follows. -/
def Leading (F : Option Char → Prop) (it : SItem) (o : Option Char) : Prop := (∃ x, o = some x ∧ Begins u root it (.takes x)) ∨ (Begins u root it (.skips o) ∧ F o)

/-- The same, about the next character only: what begins in front of it. -/
inductive NextDecides (fol : Clo → Option Char → Prop) : (Option Char → Prop) → Clo → Prop
  | never {F a} : (∀ o, ¬ F o) → NextDecides fol F a
  | literal {F p ρ e l} : literal e = some l → NextDecides fol F (.mk p ρ e)
  | slice {F p ρ q range} : NextDecides fol F (.mk p ρ (.slice q range))
  | pos {F p ρ e} : NextDecides fol F (.mk p ρ (.pos e))
  | neg {F p ρ e} : NextDecides fol F (.mk p ρ (.neg e))
  | path {F p ρ q} : (∀ x a, q = [x] → lookupClo x ρ = some a → NextDecides fol F a) →
      (∀ p' r, NotParam ρ q → target u root p q = some (.rule p' r) → ∀ o, F o → fol (.mk p' [] r.node) o) → NextDecides fol F (.mk p ρ (.path q))
  | call {F p ρ q args} : (∀ p' r, NotParam ρ q → target u root p q = some (.rule p' r) → ∀ o, F o → fol (.mk p' (r.args.zip (args.map (Clo.mk p ρ))) r.node) o) →
      (∀ e, args = [e] → target u root p q = some (.builtin pushPath) → NextDecides fol F (.mk p ρ e)) → NextDecides fol F (.mk p ρ (.call q args))
  | seq {F p ρ l r t} : NextDecides fol (Leading u root (Leading u root F (.expr (.mk p ρ r))) (.trivia p t)) (.mk p ρ l) →
      (∀ m f, modAt root p = some m → triviaRule m t = some f → ∀ o, Leading u root F (.expr (.mk p ρ r)) o → fol (.mk p [] f.node) o) →
      NextDecides fol F (.mk p ρ r) → NextDecides fol F (.mk p ρ (.seq l r t))
  | choice {F p ρ l r} : (∀ f, Begins u root (.expr (.mk p ρ l)) f → ¬ Leading u root F (.expr (.mk p ρ r)) f.next) → NextDecides fol F (.mk p ρ l) → NextDecides fol F (.mk p ρ r) →
      NextDecides fol F (.mk p ρ (.choice l r))
  | opt {F p ρ e} : (∀ f, Begins u root (.expr (.mk p ρ e)) f → ¬ F f.next) → NextDecides fol F (.mk p ρ e) → NextDecides fol F (.mk p ρ (.opt e))
  /-- unless there is only one number of items, no item, nor the trivia in front of it, begins like what follows -/
  | rep {F p ρ e e' min max} : repetition e = some (e', min, max) →
      (min < max → ∀ f, Begins u root (.expr (.mk p ρ e')) f → ¬ F f.next) → (min < max → ∀ x, Begins u root (.trivia p (sepTrivia e')) (.takes x) → ¬ F (some x)) →
      NextDecides fol (fun o => F o ∨ ∃ x, o = some x ∧ (Begins u root (.trivia p (sepTrivia e')) (.takes x) ∨ Begins u root (.expr (.mk p ρ e')) (.takes x))) (.mk p ρ e') →
      (∀ m f, modAt root p = some m → triviaRule m (sepTrivia e') = some f → ∀ o, (∃ f', Begins u root (.expr (.mk p ρ e')) f' ∧ f'.next = o) → fol (.mk p [] f.node) o) →
      NextDecides fol F (.mk p ρ e)
  | separated {F p ρ e t} : NextDecides fol F (.mk p ρ e) → NextDecides fol F (.mk p ρ (.separated e t))

/-- In all rules, whatever the parameters stand for, the next character decides. -/
def NextDecidesGrammar (fol : Clo → Option Char → Prop) : Prop :=
  ∀ p m r (ρ : List (Name × Clo)), modAt root p = some m → r ∈ m.rules → ρ.map Prod.fst = r.args → NextDecides u root fol (fol (.mk p ρ r.node)) (.mk p ρ r.node)

/-! ## Context-free grammars -/

/-- The texts of literals and built-ins of which it does not matter where they are. -/
def leafTexts : Leaf → Option (Text → Prop)
  | .str s => some fun w => w = s
  | .insens s => some fun w => w.map Char.toLower = s.map Char.toLower
  | .range lo hi => some fun w => ∃ x, w = [x] ∧ lo ≤ x ∧ x ≤ hi
  | .prop b => some fun w => ∃ x, w = [x] ∧ b x = true
  | .any => some fun w => ∃ x, w = [x]
  | _ => none

/-- The grammar as a context-free grammar: which texts it generates. -/
inductive Generates : SItem → Text → Prop
  | literal {p ρ e l S w} : literal e = some l → leafTexts l = some S → S w → Generates (.expr (.mk p ρ e)) w
  | builtin {p ρ e q full l S w} : plainRef e = some q → NotParam ρ q → target u root p q = some (.builtin full) → builtinLeaf u full = some l → leafTexts l = some S → S w →
      Generates (.expr (.mk p ρ e)) w
  | param {p ρ x a w} : lookupClo x ρ = some a → Generates (.expr a) w → Generates (.expr (.mk p ρ (.path [x]))) w
  | rule {p ρ q p' r w} : NotParam ρ q → target u root p q = some (.rule p' r) → r.args = [] → Generates (.expr (.mk p' [] r.node)) w → Generates (.expr (.mk p ρ (.path q))) w
  | call {p ρ q args p' r w} : NotParam ρ q → target u root p q = some (.rule p' r) → r.args.length = args.length →
      Generates (.expr (.mk p' (r.args.zip (args.map (Clo.mk p ρ))) r.node)) w → Generates (.expr (.mk p ρ (.call q args))) w
  | seq {p ρ l r t w1 w2 w3} : Generates (.expr (.mk p ρ l)) w1 → Generates (.trivia p t) w2 → Generates (.expr (.mk p ρ r)) w3 →
      Generates (.expr (.mk p ρ (.seq l r t))) (w1 ++ w2 ++ w3)
  | choiceL {p ρ l r w} : Generates (.expr (.mk p ρ l)) w → Generates (.expr (.mk p ρ (.choice l r))) w
  | choiceR {p ρ l r w} : Generates (.expr (.mk p ρ r)) w → Generates (.expr (.mk p ρ (.choice l r))) w
  | optSome {p ρ e w} : Generates (.expr (.mk p ρ e)) w → Generates (.expr (.mk p ρ (.opt e))) w
  | optNone {p ρ e} : Generates (.expr (.mk p ρ (.opt e))) []
  | rep {p ρ e e' min max w} : repetition e = some (e', min, max) → Generates (.reps (.mk p ρ e') p (sepTrivia e') min max 0) w → Generates (.expr (.mk p ρ e)) w
  | separated {p ρ e t w} : Generates (.expr (.mk p ρ e)) w → Generates (.expr (.mk p ρ (.separated e t))) w
  | triviaNone {p} : Generates (.trivia p .none) []
  | triviaRule {p m t r w} : modAt root p = some m → triviaRule m t = some r → Generates (.expr (.mk p [] r.node)) w → Generates (.trivia p t) w
  | unitFirst {e p t w} : Generates (.expr e) w → Generates (.unit e p t 0) w
  | unitNext {e p t i w1 w2} : Generates (.trivia p t) w1 → Generates (.expr e) w2 → Generates (.unit e p t (i + 1)) (w1 ++ w2)
  | repsMore {e p t min max i w1 w2} : i < max → Generates (.unit e p t i) w1 → Generates (.reps e p t min max (i + 1)) w2 → Generates (.reps e p t min max i) (w1 ++ w2)
  | repsStop {e p t min max i} : min ≤ i ∨ max ≤ i → Generates (.reps e p t min max i) []

/-- Expressions of the module at `p` with nothing in them for which it matters where they are matched: no predicates, no stack, no `soi`, `eoi` or `newline`. -/
inductive Free (p : List Name) : Expr → Prop
  | literal {e l} : literal e = some l → Free p e
  | path {q} : (∀ full l, target u root p q = some (.builtin full) → builtinLeaf u full = some l → ∃ S, leafTexts l = some S) → Free p (.path q)
  | call {q args} : (∀ full l, target u root p q = some (.builtin full) → builtinLeaf u full = some l → ∃ S, leafTexts l = some S) →
      target u root p q ≠ some (.builtin pushPath) → (∀ a ∈ args, Free p a) → Free p (.call q args)
  | seq {l r t} : Free p l → Free p r → Free p (.seq l r t)
  | choice {l r} : Free p l → Free p r → Free p (.choice l r)
  | opt {e} : Free p e → Free p (.opt e)
  | rep {e e' min max} : repetition e = some (e', min, max) → Free p e' → Free p e
  | separated {e t} : Free p e → Free p (.separated e t)

/-- A context-free grammar. -/
def FreeGrammar : Prop := ∀ p m r, modAt root p = some m → r ∈ m.rules → Free u root p r.node

end
end Pest3.Gen
