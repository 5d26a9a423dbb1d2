import Verif.AttemptSpec

/-!
# Specification: expressions that do not fail without saying what was expected

Errors report rules, not literals (`core/src/typed/tracker.rs:149-166`: a rule that tried other rules leaves the reporting to those).  So a literal that fails in a rule that
has tried other rules is not mentioned.  The following conditions can be read off a grammar.
-/

namespace Pest3.Gen
open Pest3

section
variable (u : Unicode) (root : Module)

/-- `Mute p ps e`: written in a rule with the parameters `ps` of the module at `p`, the expression tries no rules and does not access the stack. -/
inductive Mute : List Name → List Name → Expr → Prop
  | literal {p ps e l} : literal e = some l → Mute p ps e
  | builtin {p ps e q full l} : plainRef e = some q → (∀ x ∈ ps, q ≠ [x]) → target u root p q = some (.builtin full) → builtinLeaf u full = some l →
      (∀ n, stackError l n = none) → Mute p ps e
  | seq {p ps a b t} : Mute p ps a → Mute p ps b → (∀ m r, modAt root p = some m → triviaRule m t = some r → Mute p [] r.node) → Mute p ps (.seq a b t)
  | choice {p ps a b} : Mute p ps a → Mute p ps b → Mute p ps (.choice a b)
  | opt {p ps a} : Mute p ps a → Mute p ps (.opt a)
  | pos {p ps a} : Mute p ps a → Mute p ps (.pos a)
  | neg {p ps a} : Mute p ps a → Mute p ps (.neg a)
  | separated {p ps a t} : Mute p ps a → Mute p ps (.separated a t)
  | rep {p ps e e' min max} : repetition e = some (e', min, max) → Mute p ps e' →
      (∀ m r, modAt root p = some m → triviaRule m (sepTrivia e') = some r → Mute p [] r.node) → Mute p ps e

/-- `Answering p ps sure e`: written in a rule with the parameters `ps` of the module at `p`, the expression does not fail without a rule that is expected; if `sure`, it does not
fail.  The literals in it are in places where they need not match. -/
inductive Answering : List Name → List Name → Bool → Expr → Prop
  -- rules and parameters
  | param {p ps x} : x ∈ ps → Answering p ps false (.path [x])
  | rule {p ps q p' r} : (∀ x ∈ ps, q ≠ [x]) → target u root p q = some (.rule p' r) → Answering p ps false (.path q)
  | call {p ps q args p' r} : (∀ x ∈ ps, q ≠ [x]) → target u root p q = some (.rule p' r) → (∀ a ∈ args, Answering p ps false a) → Answering p ps false (.call q args)
  | push {p ps b q e} : (∀ x ∈ ps, q ≠ [x]) → target u root p q = some (.builtin pushPath) → Answering p ps b e → Answering p ps b (.call q [e])
  -- all parts, and what is between them
  | seq {p ps b l r t} : Answering p ps b l → Answering p ps b r → (∀ m r, modAt root p = some m → triviaRule m t = some r → Answering p [] b r.node) → Answering p ps b (.seq l r t)
  -- one of the alternatives suffices
  | choice {p ps b l r} : Answering p ps false l → Answering p ps b r → Answering p ps b (.choice l r)
  | choiceMuteL {p ps b l r} : Mute u root p ps l → Answering p ps b r → Answering p ps b (.choice l r)
  | choiceMuteR {p ps b l r} : Answering p ps b l → Mute u root p ps r → Answering p ps b (.choice l r)
  | separated {p ps b e t} : Answering p ps b e → Answering p ps b (.separated e t)
  -- does not fail
  | nothing {p ps b} : Answering p ps b (.str [])
  | opt {p ps b e} : Answering p ps false e → Answering p ps b (.opt e)
  | optMute {p ps b e} : Mute u root p ps e → Answering p ps b (.opt e)
  | rep {p ps b e e' min max} : repetition e = some (e', min, max) → min = 0 ∨ b = false → Answering p ps false e' →
      (∀ m r, modAt root p = some m → triviaRule m (sepTrivia e') = some r → Answering p [] false r.node) → Answering p ps b e
  | repMute {p ps b e e' max} : repetition e = some (e', 0, max) → Mute u root p ps e → Answering p ps b e

/-- Every rule is built of literals alone, or its expression is answering. -/
def SpeaksUp : Prop := ∀ p m, modAt root p = some m → ∀ r ∈ m.rules, Mute u root p r.args r.node ∨ Answering u root p r.args false r.node

end
end Pest3.Gen
