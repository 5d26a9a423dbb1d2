import Verif.ForestSpec
import Verif.AttemptSpec

/-!
# Specification: expressions that depend only on the text ahead
-/

namespace Pest3.Gen
open Pest3

/-- Built-ins that read or change the stack; `none` is `pest::stack::push`. -/
def onStack : Option Leaf → Prop
  | none => True
  | some l => match l with
    | .peekAll | .peek | .drop | .pop | .popAll | .slice2 _ _ | .slice1 _ => True
    | _ => False

/-- `pest::soi`, the only built-in that depends on the text before. -/
def isSoi : Option Leaf → Prop
  | some .soi => True
  | _ => False

/-- An item uses a literal or a built-in of a kind, anywhere in it, also in the rules it refers to, in what parameters stand for, and in trivia. -/
inductive Uses (u : Unicode) (root : Module) (K : Option Leaf → Prop) : SItem → Prop
  | literal {p ρ e l} : literal e = some l → K (some l) → Uses u root K (.expr (.mk p ρ e))
  | builtin {p ρ e q full l} : plainRef e = some q → NotParam ρ q → target u root p q = some (.builtin full) → builtinLeaf u full = some l → K (some l) →
      Uses u root K (.expr (.mk p ρ e))
  | slice {p ρ q range l} : l = (match range.stop with
        | some b => Leaf.slice2 (range.start.getD 0) b
        | none => Leaf.slice1 (range.start.getD 0)) → K (some l) → Uses u root K (.expr (.mk p ρ (.slice q range)))
  | push {p ρ q e} : NotParam ρ q → target u root p q = some (.builtin pushPath) → K none → Uses u root K (.expr (.mk p ρ (.call q [e])))
  | pushed {p ρ q e} : NotParam ρ q → target u root p q = some (.builtin pushPath) → Uses u root K (.expr (.mk p ρ e)) → Uses u root K (.expr (.mk p ρ (.call q [e])))
  | param {p ρ x a} : lookupClo x ρ = some a → Uses u root K (.expr a) → Uses u root K (.expr (.mk p ρ (.path [x])))
  | rule {p ρ q p' r} : NotParam ρ q → target u root p q = some (.rule p' r) → Uses u root K (.expr (.mk p' [] r.node)) → Uses u root K (.expr (.mk p ρ (.path q)))
  | call {p ρ q args p' r} : NotParam ρ q → target u root p q = some (.rule p' r) → r.args.length = args.length →
      Uses u root K (.expr (.mk p' (r.args.zip (args.map (Clo.mk p ρ))) r.node)) → Uses u root K (.expr (.mk p ρ (.call q args)))
  | pos {p ρ e} : Uses u root K (.expr (.mk p ρ e)) → Uses u root K (.expr (.mk p ρ (.pos e)))
  | neg {p ρ e} : Uses u root K (.expr (.mk p ρ e)) → Uses u root K (.expr (.mk p ρ (.neg e)))
  | seqL {p ρ l r t} : Uses u root K (.expr (.mk p ρ l)) → Uses u root K (.expr (.mk p ρ (.seq l r t)))
  | seqTrivia {p ρ l r t} : Uses u root K (.trivia p t) → Uses u root K (.expr (.mk p ρ (.seq l r t)))
  | seqR {p ρ l r t} : Uses u root K (.expr (.mk p ρ r)) → Uses u root K (.expr (.mk p ρ (.seq l r t)))
  | choiceL {p ρ l r} : Uses u root K (.expr (.mk p ρ l)) → Uses u root K (.expr (.mk p ρ (.choice l r)))
  | choiceR {p ρ l r} : Uses u root K (.expr (.mk p ρ r)) → Uses u root K (.expr (.mk p ρ (.choice l r)))
  | opt {p ρ e} : Uses u root K (.expr (.mk p ρ e)) → Uses u root K (.expr (.mk p ρ (.opt e)))
  | rep {p ρ e e' min max} : repetition e = some (e', min, max) → Uses u root K (.reps (.mk p ρ e') p (sepTrivia e') min max 0) → Uses u root K (.expr (.mk p ρ e))
  | separated {p ρ e t} : Uses u root K (.expr (.mk p ρ e)) → Uses u root K (.expr (.mk p ρ (.separated e t)))
  | triviaRule {p m t r} : modAt root p = some m → triviaRule m t = some r → Uses u root K (.expr (.mk p [] r.node)) → Uses u root K (.trivia p t)
  | unit {a p t i} : Uses u root K (.expr a) → Uses u root K (.unit a p t i)
  | unitTrivia {a p t i} : Uses u root K (.trivia p t) → Uses u root K (.unit a p t i)
  | reps {a p t min max i j} : Uses u root K (.unit a p t j) → Uses u root K (.reps a p t min max i)

/-! ## Moving what is at byte offsets -/

mutual
/-- The token with its offsets changed by `f`. -/
def movePair (f : Nat → Nat) : Pair RuleVal → Pair RuleVal
  | .mk v s e l => .mk v (f s) (f e) (movePairs f l)
def movePairs (f : Nat → Nat) : List (Pair RuleVal) → List (Pair RuleVal)
  | [] => []
  | x :: l => movePair f x :: movePairs f l
end

mutual
/-- The event with its offsets changed by `f`. -/
def moveEv (f : Nat → Nat) : Ev → Ev
  | .rule r pos flag ok l => .rule r (f pos) flag ok (moveEvs f l)
  | .special pos e => .special (f pos) e
def moveEvs (f : Nat → Nat) : List Ev → List Ev
  | [] => []
  | x :: l => moveEv f x :: moveEvs f l
end

/-- A token of a tree of tokens, at any depth. -/
inductive TokenIn (x : Pair RuleVal) : List (Pair RuleVal) → Prop
  | here {F} : x ∈ F → TokenIn x F
  | inside {v s e G F} : .mk v s e G ∈ F → TokenIn x G → TokenIn x F

/-- The token of a match of a rule of the grammar in the text `whole`: the tokens inside are those of the match, and what the parameters stand for is given. -/
def OfMatch (u : Unicode) (root : Module) (whole : Text) : Pair RuleVal → Prop
  | .mk v s e G => ∃ p m r ρ c c', modAt root p = some m ∧ findRule m.rules r.name = some r ∧ r.name ≠ optName ∧ r.name ≠ manName ∧ r.silent = false ∧
      (ρ : List (Name × Clo)).map Prod.fst = r.args ∧ Shows u root (.expr (.mk p ρ r.node)) c c' G ∧ v = ruleAt p r.name ∧ s = utf8Len c.pre ∧ e = utf8Len c'.pre ∧ c.pre ++ c.suf = whole

/-- An expression of the module at `p` writes down a literal or a built-in of a kind, itself rather than in the rules it refers to. -/
inductive WritesDown (u : Unicode) (root : Module) (K : Option Leaf → Prop) (p : List Name) (e : Expr) : Prop
  | literal {s l} : Sub s e → literal s = some l → K (some l) → WritesDown u root K p e
  | builtin {s q full l} : Sub s e → plainRef s = some q → target u root p q = some (.builtin full) → builtinLeaf u full = some l → K (some l) → WritesDown u root K p e
  | slice {q range l} : Sub (.slice q range) e → l = (match range.stop with
        | some b => Leaf.slice2 (range.start.getD 0) b
        | none => Leaf.slice1 (range.start.getD 0)) → K (some l) → WritesDown u root K p e
  | push {q a} : Sub (.call q [a]) e → target u root p q = some (.builtin pushPath) → K none → WritesDown u root K p e

end Pest3.Gen
