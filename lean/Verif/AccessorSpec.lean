import Verif.Accessor
import Verif.GrammarSpec

/-!
# Specification: which references of an expression were matched

`Finds … x (.expr e) c c' L`: matching `e` from `c` to `c'` matched the references called `x` written in `e` itself
(not those in rules that are referred to, nor in arguments) listed in `L`, in the order in which they were matched.
What is matched inside a positive lookahead counts, what is tried inside a negative one does not.
-/

namespace Pest3.Gen
open Pest3

mutual
/-- The references in a value, from left to right. -/
def AVal.refs : AVal → List Tree
  | .ref t => [t]
  | .none => []
  | .some v => v.refs
  | .vec l => refsAll l
  | .tuple l => refsAll l
/-- The references in several values. -/
def refsAll : List AVal → List Tree
  | [] => []
  | v :: rest => v.refs ++ refsAll rest
end

/-- The path of a reference. -/
def refPath : Expr → Option (List Name)
  | .path q => some q
  | .slice q _ => some q
  | .call q _ => some q
  | _ => none

/-- What the built-in or rule a path refers to is called. -/
def targetName (u : Unicode) (root : Module) (p q : List Name) : Option Name :=
  match target u root p q with
  | some (.builtin full) => full.getLast?
  | some (.rule _ r) => some r.name
  | none => none

/-- What a reference is called: the name of the parameter, of the rule, or of the built-in. -/
def refName (u : Unicode) (root : Module) (p params q : List Name) : Option Name :=
  match q with
  | [x] => if x ∈ params then some x else targetName u root p [x]
  | q => targetName u root p q

/-- A matched reference. -/
structure Occ where
  e : Expr
  start : Cfg
  stop : Cfg

/-- An expression, or its repetitions from the `i`-th on. -/
inductive LItem where
  | expr (e : Expr)
  | reps (e : Expr) (t : Trivia) (min max i : Nat)

/-- The references called `x` that are matched. -/
inductive Finds (u : Unicode) (root : Module) (p : List Name) (ρ : List (Name × Clo)) (x : Name) :
    LItem → Cfg → Cfg → List Occ → Prop
  | literal {e l c c'} : literal e = some l → Meaning u root (.expr (.mk p ρ e)) c (some c') →
      Finds u root p ρ x (.expr e) c c' []
  | hit {e q c c'} : refPath e = some q → refName u root p (ρ.map Prod.fst) q = some x →
      Meaning u root (.expr (.mk p ρ e)) c (some c') → Finds u root p ρ x (.expr e) c c' [⟨e, c, c'⟩]
  | miss {e q c c'} : refPath e = some q → refName u root p (ρ.map Prod.fst) q ≠ some x →
      Meaning u root (.expr (.mk p ρ e)) c (some c') → Finds u root p ρ x (.expr e) c c' []
  | pos {e c c' L} : Finds u root p ρ x (.expr e) c c' L → Finds u root p ρ x (.expr (.pos e)) c c L
  | neg {e c} : Meaning u root (.expr (.mk p ρ e)) c none → Finds u root p ρ x (.expr (.neg e)) c c []
  | seq {l r t c c1 c2 c3 L1 L2} : Finds u root p ρ x (.expr l) c c1 L1 → Meaning u root (.trivia p t) c1 (some c2) →
      Finds u root p ρ x (.expr r) c2 c3 L2 → Finds u root p ρ x (.expr (.seq l r t)) c c3 (L1 ++ L2)
  | choiceL {l r c c' L} : Finds u root p ρ x (.expr l) c c' L → Finds u root p ρ x (.expr (.choice l r)) c c' L
  | choiceR {l r c c' L} : Meaning u root (.expr (.mk p ρ l)) c none → Finds u root p ρ x (.expr r) c c' L →
      Finds u root p ρ x (.expr (.choice l r)) c c' L
  | optSome {e c c' L} : Finds u root p ρ x (.expr e) c c' L → Finds u root p ρ x (.expr (.opt e)) c c' L
  | optNone {e c} : Meaning u root (.expr (.mk p ρ e)) c none → Finds u root p ρ x (.expr (.opt e)) c c []
  | rep {e e' min max c c' L} : repetition e = some (e', min, max) →
      Finds u root p ρ x (.reps e' (sepTrivia e') min max 0) c c' L → Finds u root p ρ x (.expr e) c c' L
  | separated {e t c c' L} : Finds u root p ρ x (.expr e) c c' L → Finds u root p ρ x (.expr (.separated e t)) c c' L
  | repsMax {e t min max i c} : max ≤ i → Finds u root p ρ x (.reps e t min max i) c c []
  | repsFirst {e t min max c c1 c2 L1 L2} : 0 < max → Finds u root p ρ x (.expr e) c c1 L1 →
      Finds u root p ρ x (.reps e t min max 1) c1 c2 L2 → Finds u root p ρ x (.reps e t min max 0) c c2 (L1 ++ L2)
  | repsNext {e t min max i c c0 c1 c2 L1 L2} : i + 1 < max → Meaning u root (.trivia p t) c (some c0) →
      Finds u root p ρ x (.expr e) c0 c1 L1 → Finds u root p ρ x (.reps e t min max (i + 2)) c1 c2 L2 →
      Finds u root p ρ x (.reps e t min max (i + 1)) c c2 (L1 ++ L2)
  | repsStop {e t min max i c} : i < max → Meaning u root (.unit (.mk p ρ e) p t i) c none → min ≤ i →
      Finds u root p ρ x (.reps e t min max i) c c []

/-- A reference called `x` is written in `e`, not under a negative lookahead and not in an argument. -/
inductive Mentions (nm : List Name → Option Name) (x : Name) : Expr → Prop
  | ref {e q} : refPath e = some q → nm q = some x → Mentions nm x e
  | pos {e} : Mentions nm x e → Mentions nm x (.pos e)
  | seqL {l r t} : Mentions nm x l → Mentions nm x (.seq l r t)
  | seqR {l r t} : Mentions nm x r → Mentions nm x (.seq l r t)
  | choiceL {l r} : Mentions nm x l → Mentions nm x (.choice l r)
  | choiceR {l r} : Mentions nm x r → Mentions nm x (.choice l r)
  | opt {e} : Mentions nm x e → Mentions nm x (.opt e)
  | rep {e e' min max} : repetition e = some (e', min, max) → Mentions nm x e' → Mentions nm x e
  | separated {e t} : Mentions nm x e → Mentions nm x (.separated e t)

end Pest3.Gen
