import Verif.Inline
import Verif.GrammarSpec
import Verif.ModuleLemmas

/-!
# Specification of inlining: the conditions under which it preserves the meaning of a grammar
-/

namespace Pest3.Gen
open Pest3

/-- `q` is mentioned in `e`. -/
def Cites (q : List Name) (e : Expr) : Prop := Sub (.path q) e ∨ ∃ args, Sub (.call q args) e

/-- `q`, written in the module at `p`, refers to a rule that is removed. -/
def Gone (u : Unicode) (m : Module) (p q : List Name) : Prop := ∃ f, target u m p q = some (.rule [] f) ∧ f.inlined = true

/-- Some module of the grammar has a silent rule with parameters of this name. -/
def SilentName (m : Module) (x : Name) : Prop := ∃ m', ModIn m' m ∧ ∃ f ∈ m'.rules, f.inlined = true ∧ f.name = x

/-- Silent rules with parameters are only used within the root module, and names are not confused by moving
expressions. -/
structure Hygienic (u : Unicode) (m : Module) : Prop where
  /-- calls that look like calls of silent rules are calls of silent rules of this module -/
  scope : ∀ r ∈ m.rules, ∀ q args x, Sub (.call q args) r.node → q.getLast? = some x → SilentName m x →
    q = [x] ∧ Gone u m [] [x]
  /-- no call in a silent rule has a parameter in two arguments (`Expr.replace` misses the second) -/
  once : ∀ f ∈ m.rules, f.inlined = true → ∀ x ∈ f.args, OncePerCall x f.node
  /-- the names of parameters (except the first) of silent rules are not used for other things -/
  fresh : ∀ f ∈ m.rules, f.inlined = true → ∀ x ∈ f.args.tail, ∀ r ∈ m.rules, Occurs x r.node →
    r.inlined = true ∧ x ∈ r.args
  /-- silent rules use no names that are parameters of the other rules -/
  capture : ∀ f ∈ m.rules, f.inlined = true → ∀ r ∈ m.rules, r.inlined = false → ∀ y ∈ r.args,
    (Occurs y f.node → y ∈ f.args) ∧ (∀ args, ¬ Sub (.call [y] args) f.node) ∧ ∀ range, ¬ Sub (.slice [y] range) f.node
  /-- separators only occur in repetitions, as in every parsed grammar -/
  sep : ∀ r ∈ m.rules, sepTrivia r.node = .none ∧
    ∀ q args, Sub (.call q args) r.node → ∀ a ∈ args, sepTrivia a = .none

/-- No reference to a removed rule is left. -/
def NoneLeft (u : Unicode) (m m' : Module) : Prop :=
  ∀ r ∈ m'.rules, ∀ q, Cites q r.node → (∃ x ∈ r.args, q = [x]) ∨ ¬ Gone u m [] q

end Pest3.Gen
