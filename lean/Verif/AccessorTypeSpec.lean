import Verif.AccessorSpec

/-!
# Specification: the types of accessors

The type of an accessor as it follows from the expression of the rule (`generator/src/typed/getter.rs:104-170`, `generator/src/typed/generator.rs:336-550`): a reference is `&T`, below `?` or in an alternative of a choice it
is in an option, below a repetition in a vector; options directly in options are one option; several parts of a sequence or several alternatives give a tuple.
-/

namespace Pest3.Gen
open Pest3

/-- The shape of a type: what `&T` refers to is left out. -/
inductive Shape where
  | ref
  | opt (s : Shape)
  | vec (s : Shape)
  | tuple (l : List Shape)

/-- In an option, unless it is one. -/
def Shape.optional : Shape → Shape
  | .opt s => .opt s
  | s => .opt s

/-- Several together. -/
def together : List Shape → Option Shape
  | [] => none
  | [s] => some s
  | l => some (.tuple l)

/-- An expression and the shape of the accessor, if there is one; the items of a sequence, or the alternatives of a choice, from the second on, and the shapes for those that have some. -/
inductive ShapeItem where
  | one (e : Expr) (o : Option Shape)
  | items (e : Expr) (l : List Shape)
  | alts (e : Expr) (l : List Shape)

/-- The shapes of the accessors called `x`. -/
inductive Accesses (nm : List Name → Option Name) (x : Name) : ShapeItem → Prop
  | literal {e l} : literal e = some l → Accesses nm x (.one e none)
  | hit {e q} : refPath e = some q → nm q = some x → Accesses nm x (.one e (some .ref))
  | miss {e q} : refPath e = some q → nm q ≠ some x → Accesses nm x (.one e none)
  | pos {e o} : Accesses nm x (.one e o) → Accesses nm x (.one (.pos e) o)
  | neg {e} : Accesses nm x (.one (.neg e) none)
  | opt {e o} : Accesses nm x (.one e o) → Accesses nm x (.one (.opt e) (o.map Shape.optional))
  | rep {e e' min max o} : repetition e = some (e', min, max) → Accesses nm x (.one e' o) → Accesses nm x (.one e (o.map .vec))
  | separated {e t o} : Accesses nm x (.one e o) → Accesses nm x (.one (.separated e t) o)
  | seq {l r t o L} : Accesses nm x (.one l o) → Accesses nm x (.items r L) → Accesses nm x (.one (.seq l r t) (together (o.toList ++ L)))
  | itemsLast {e o} : (∀ l r t, e ≠ .seq l r t) → Accesses nm x (.one e o) → Accesses nm x (.items e o.toList)
  | itemsMore {l r t o L} : Accesses nm x (.one l o) → Accesses nm x (.items r L) → Accesses nm x (.items (.seq l r t) (o.toList ++ L))
  | choice {l r o L} : Accesses nm x (.one l o) → Accesses nm x (.alts r L) → Accesses nm x (.one (.choice l r) (together ((o.map Shape.optional).toList ++ L)))
  | altsLast {e o} : (∀ l r, e ≠ .choice l r) → Accesses nm x (.one e o) → Accesses nm x (.alts e (o.map Shape.optional).toList)
  | altsMore {l r o L} : Accesses nm x (.one l o) → Accesses nm x (.alts r L) → Accesses nm x (.alts (.choice l r) ((o.map Shape.optional).toList ++ L))

mutual
/-- The shape of a type. -/
def ATy.shape : ATy → Shape
  | .ref _ => .ref
  | .opt a => .opt a.shape
  | .vec a => .vec a.shape
  | .tuple l => .tuple (shapesOf l)
/-- The shapes of several types. -/
def shapesOf : List ATy → List Shape
  | [] => []
  | a :: l => a.shape :: shapesOf l
end

mutual
/-- The values of a shape. -/
inductive AVal.Has : AVal → Shape → Prop
  | ref {t} : AVal.Has (.ref t) .ref
  | none {s} : AVal.Has .none (.opt s)
  | some {v s} : AVal.Has v s → AVal.Has (.some v) (.opt s)
  | vec {l s} : (∀ v ∈ l, AVal.Has v s) → AVal.Has (.vec l) (.vec s)
  | tuple {l ss} : HasAll l ss → AVal.Has (.tuple l) (.tuple ss)
/-- The components of a tuple. -/
inductive HasAll : List AVal → List Shape → Prop
  | nil : HasAll [] []
  | cons {v l s ss} : AVal.Has v s → HasAll l ss → HasAll (v :: l) (s :: ss)
end

mutual
/-- No option directly in an option, and no tuple of fewer than two. -/
def Shape.Neat : Shape → Prop
  | .ref => True
  | .opt s => (∀ s', s ≠ .opt s') ∧ s.Neat
  | .vec s => s.Neat
  | .tuple l => 2 ≤ l.length ∧ NeatAll l
/-- … for several shapes. -/
def NeatAll : List Shape → Prop
  | [] => True
  | s :: l => s.Neat ∧ NeatAll l
end

mutual
/-- How many references a value of the shape contains at least. -/
def Shape.least : Shape → Nat
  | .ref => 1
  | .opt _ | .vec _ => 0
  | .tuple l => leastAll l
/-- … several values. -/
def leastAll : List Shape → Nat
  | [] => 0
  | s :: l => s.least + leastAll l
end

mutual
/-- How many references a value of the shape contains at most; `none`: there is no bound. -/
def Shape.most : Shape → Option Nat
  | .ref => some 1
  | .opt s => s.most
  | .vec _ => none
  | .tuple l => mostAll l
/-- … several values. -/
def mostAll : List Shape → Option Nat
  | [] => some 0
  | s :: l => match s.most, mostAll l with
    | some a, some b => some (a + b)
    | _, _ => none
end

/-- Exactly one reference called `x` is written in `e` (outside of negative lookaheads and arguments), and it is not optional: not below `?`, not in a choice, not in a repetition. -/
inductive Always (nm : List Name → Option Name) (x : Name) : Expr → Prop
  | ref {e q} : refPath e = some q → nm q = some x → Always nm x e
  | pos {e} : Always nm x e → Always nm x (.pos e)
  | seqL {l r t} : Always nm x l → ¬ Mentions nm x r → Always nm x (.seq l r t)
  | seqR {l r t} : ¬ Mentions nm x l → Always nm x r → Always nm x (.seq l r t)
  | separated {e t} : Always nm x e → Always nm x (.separated e t)

end Pest3.Gen
