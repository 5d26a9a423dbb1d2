import Verif.AstSpec

/-!
# Specification: references between rules
-/

namespace Pest3.Gen
open Pest3 Pest3.Meta

/-- `e` is a use of the single name `x`: `x`, `x(..)` or `x[..]`. -/
def IsUse (x : Name) (e : Expr) : Prop :=
  e = .path [x] ∨ (∃ args, e = .call [x] args) ∨ ∃ r, e = .slice [x] r

/-- `x` is used somewhere in `e`. -/
def Refers (x : Name) (e : Expr) : Prop := ∃ s, Sub s e ∧ IsUse x s

/-- The trivia operator `t` is used somewhere in `e`: between two parts of a sequence or between the items of a
repetition. -/
def UsesTrivia (t : Trivia) (e : Expr) : Prop :=
  (∃ l r, Sub (.seq l r t) e) ∨ ∃ e', Sub (.separated e' t) e

/-- Some rule named `a` uses the name `b`. -/
def RefersTo (rules : List Rule) (a b : Name) : Prop := ∃ r ∈ rules, r.name = a ∧ Refers b r.node

/-- There is a rule of that name. -/
def Defined (rules : List Rule) (a : Name) : Prop := ∃ r ∈ rules, r.name = a

/-- A chain of references `a → .. → b` of `n` steps in which every rule referring satisfies `P`. -/
inductive Chain (rules : List Rule) (P : Name → Prop) : Nat → Name → Name → Prop
  | one {a b} : P a → RefersTo rules a b → Chain rules P 1 a b
  | step {n a b c} : P a → RefersTo rules a b → Chain rules P n b c → Chain rules P (n + 1) a c

/-- The struct of rule `a` has a finite size: its content is behind a pointer, or all the structs it may contain
have a finite size.  The trivia between the parts of a sequence or a repetition are not contained: they are type parameters
without a value (`core/src/sequence.rs:21-27`, `core/src/typed/template/repetition.rs:41-45`). -/
inductive FiniteSize (rules : List Rule) (boxed : Name → Prop) : Name → Prop
  | pointer {a} : boxed a → FiniteSize rules boxed a
  | contains {a} : (∀ b, RefersTo rules a b → FiniteSize rules boxed b) → FiniteSize rules boxed a

/-- Every trivia operator used in some rule has its rule. -/
def TriviaDefined (rules : List Rule) : Prop :=
  ∀ r ∈ rules, (UsesTrivia .optional r.node → Defined rules ['~']) ∧
    (UsesTrivia .mandatory r.node → Defined rules ['^'])

end Pest3.Gen
