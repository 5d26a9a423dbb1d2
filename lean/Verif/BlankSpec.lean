import Verif.UnorderedSpec

/-!
# Specification: grammars with blanks, read without order

In `"[" ~ x? ~ "]"`, blanks in front of the bracket may be matched by either `~`, so a condition that leaves only one way to match excludes most grammars with trivia.  If trivia are blanks, it is
enough that there is one way up to blanks: here are conditions that look at the next character that is not blank.
-/

namespace Pest3.Gen
open Pest3

section
variable (u : Unicode) (root : Module) (W : Char → Bool)

/-! ## What is ahead -/

/-- What is ahead: whether there is a blank, and the first character that is not blank. -/
structure View where
  gap : Bool
  next : Option Char

/-- What is ahead in front of a text. -/
def view (s : Text) : View := ⟨s.head?.any W, (s.dropWhile W).head?⟩

/-- What the next character may be. -/
def View.heads (v : View) (o : Option Char) : Prop := if v.gap then ∃ x, o = some x ∧ W x = true else o = v.next

/-- An expression may match in front of this. -/
def StartsAt (a : Clo) (v : View) : Prop := ∃ f, Begins u root (.expr a) f ∧ v.heads W f.next

/-- An expression, followed by `F`, may match in front of this. -/
def Heading (F : View → Prop) (a : Clo) (v : View) : Prop :=
  (∃ x, v.heads W (some x) ∧ Begins u root (.expr a) (.takes x)) ∨ (∃ o, v.heads W o ∧ Begins u root (.expr a) (.skips o) ∧ F v)

/-- In front of blanks in front of `F`. -/
def Spaced (F : View → Prop) (v : View) : Prop := ∃ v', F v' ∧ v'.next = v.next ∧ (v'.gap = true → v.gap = true)

/-! ## Blanks -/

/-- Expressions of the module at `p` that match some blanks, at least one. -/
inductive BlankItem (p : List Name) : Expr → Prop
  | str {s} : s ≠ [] → (∀ x ∈ s, W x = true) → BlankItem p (.str s)
  | range {lo hi} : (∀ x, lo ≤ x → x ≤ hi → W x = true) → BlankItem p (.range lo hi)
  | prop {q full b} : target u root p q = some (.builtin full) → builtinLeaf u full = some (.prop b) → (∀ x, b x = true → W x = true) → BlankItem p (.path q)
  | newline {q full} : target u root p q = some (.builtin full) → builtinLeaf u full = some .newline → W '\r' = true → W '\n' = true → BlankItem p (.path q)
  | choice {l r} : BlankItem p l → BlankItem p r → BlankItem p (.choice l r)

/-- The trivia rule repeats something that matches in front of every blank, and only blanks: `~ = (" " | newline)*`. -/
def BlankTrivia (p : List Name) (t : Trivia) : Prop :=
  t ≠ .none ∧ ∀ m r, modAt root p = some m → triviaRule m t = some r →
    ∃ e, r.node = .rep e ∧ sepTrivia e = .none ∧ BlankItem u root W p e ∧ ∀ x, W x = true → Surely u root (.mk p [] e) (some x)

/-! ## Blanks do not matter in front of this -/

/-- Never matches in front of a blank. -/
def Firm (a : Clo) : Prop := ∀ f, Begins u root (.expr a) f → ∀ x, f.next = some x → W x = false

/-- Matches as well where blanks are left out in front; `sh`: the rules for which this is so. -/
inductive Slack (sh : Clo → Prop) : Clo → Prop
  | firm {a} : Firm u root W a → Slack sh a
  | nothing {p ρ} : Slack sh (.mk p ρ (.str []))
  | path {p ρ q} : (∀ full, target u root p q ≠ some (.builtin full)) → (∀ x a, q = [x] → lookupClo x ρ = some a → Slack sh a) →
      (∀ p' r, NotParam ρ q → target u root p q = some (.rule p' r) → sh (.mk p' [] r.node)) → Slack sh (.mk p ρ (.path q))
  | call {p ρ q args} : (∀ full, target u root p q ≠ some (.builtin full)) →
      (∀ p' r, NotParam ρ q → target u root p q = some (.rule p' r) → sh (.mk p' (r.args.zip (args.map (Clo.mk p ρ))) r.node)) → Slack sh (.mk p ρ (.call q args))
  | seq {p ρ l r t} : t = .none ∨ BlankTrivia u root W p t → Slack sh (.mk p ρ l) → Slack sh (.mk p ρ r) → Slack sh (.mk p ρ (.seq l r t))
  | choice {p ρ l r} : Slack sh (.mk p ρ l) → Slack sh (.mk p ρ r) → Slack sh (.mk p ρ (.choice l r))
  | opt {p ρ e} : Slack sh (.mk p ρ e) → Slack sh (.mk p ρ (.opt e))
  | rep {p ρ e e' min max} : repetition e = some (e', min, max) → sepTrivia e' = .none ∨ BlankTrivia u root W p (sepTrivia e') → Slack sh (.mk p ρ e') → Slack sh (.mk p ρ e)
  | separated {p ρ e t} : Slack sh (.mk p ρ e) → Slack sh (.mk p ρ (.separated e t))

/-- Blanks do not matter in front, and, where `b`, not either behind. -/
def Joins (sh : Clo → Prop) (b : Bool) (a : Clo) : Prop := if b then Firm u root W a else Slack u root W sh a

/-! ## The next character that is not blank decides -/

/-- Expressions followed by `F` only, for which the next character that is not blank decides; if `b`, there is only one way to match, otherwise only one up to blanks behind it.  `fol b` is what may
follow the rules. -/
inductive BlankDecides (sh : Clo → Prop) (fol : Bool → Clo → View → Prop) : Bool → (View → Prop) → Clo → Prop
  | never {b F a} : (∀ v, ¬ F v) → BlankDecides sh fol b F a
  | literal {b F p ρ e l} : literal e = some l → BlankDecides sh fol b F (.mk p ρ e)
  | slice {b F p ρ q range} : BlankDecides sh fol b F (.mk p ρ (.slice q range))
  | pos {b F p ρ e} : BlankDecides sh fol b F (.mk p ρ (.pos e))
  | neg {b F p ρ e} : BlankDecides sh fol b F (.mk p ρ (.neg e))
  | path {b F p ρ q} : (∀ x a, q = [x] → lookupClo x ρ = some a → BlankDecides sh fol b F a) →
      (∀ p' r, NotParam ρ q → target u root p q = some (.rule p' r) → ∀ v, F v → fol b (.mk p' [] r.node) v) → BlankDecides sh fol b F (.mk p ρ (.path q))
  | call {b F p ρ q args} : (∀ p' r, NotParam ρ q → target u root p q = some (.rule p' r) → ∀ v, F v → fol b (.mk p' (r.args.zip (args.map (Clo.mk p ρ))) r.node) v) →
      (∀ e, args = [e] → target u root p q = some (.builtin pushPath) → BlankDecides sh fol true F (.mk p ρ e)) → BlankDecides sh fol b F (.mk p ρ (.call q args))
  /-- with trivia -/
  | seq {b b' F p ρ l r t} : BlankTrivia u root W p t → Joins u root W sh b (.mk p ρ r) → BlankDecides sh fol b' (Spaced (Heading u root W F (.mk p ρ r))) (.mk p ρ l) →
      BlankDecides sh fol b F (.mk p ρ r) → BlankDecides sh fol b F (.mk p ρ (.seq l r t))
  /-- without trivia -/
  | join {b b' F p ρ l r} : b' = true ∨ Joins u root W sh b (.mk p ρ r) → BlankDecides sh fol b' (Heading u root W F (.mk p ρ r)) (.mk p ρ l) → BlankDecides sh fol b F (.mk p ρ r) →
      BlankDecides sh fol b F (.mk p ρ (.seq l r .none))
  | choice {b F p ρ l r} : (∀ v, StartsAt u root W (.mk p ρ l) v → ¬ Heading u root W F (.mk p ρ r) v) → BlankDecides sh fol b F (.mk p ρ l) → BlankDecides sh fol b F (.mk p ρ r) →
      BlankDecides sh fol b F (.mk p ρ (.choice l r))
  | opt {b F p ρ e} : (∀ v, StartsAt u root W (.mk p ρ e) v → ¬ F v) → BlankDecides sh fol b F (.mk p ρ e) → BlankDecides sh fol b F (.mk p ρ (.opt e))
  /-- with trivia: unless there is only one number of items, neither an item, nor one behind blanks, begins like what follows -/
  | rep {b b' F p ρ e e' min max} : repetition e = some (e', min, max) → BlankTrivia u root W p (sepTrivia e') → (b = true → b' = true) → Joins u root W sh b (.mk p ρ e') →
      (min < max → ∀ v, Spaced (StartsAt u root W (.mk p ρ e')) v → ¬ F v) →
      BlankDecides sh fol b' (fun v => F v ∨ Spaced (StartsAt u root W (.mk p ρ e')) v) (.mk p ρ e') → BlankDecides sh fol b F (.mk p ρ e)
  /-- without trivia -/
  | repJoin {b b' F p ρ e e' min max} : repetition e = some (e', min, max) → sepTrivia e' = .none → b' = true ∨ (b = false ∧ Slack u root W sh (.mk p ρ e')) →
      (min < max → ∀ v, StartsAt u root W (.mk p ρ e') v → ¬ F v) →
      BlankDecides sh fol b' (fun v => F v ∨ StartsAt u root W (.mk p ρ e') v) (.mk p ρ e') → BlankDecides sh fol b F (.mk p ρ e)
  | separated {b F p ρ e t} : BlankDecides sh fol b F (.mk p ρ e) → BlankDecides sh fol b F (.mk p ρ (.separated e t))

/-- In all rules, whatever the parameters stand for, the next character that is not blank decides, and blanks do not matter where this is assumed. -/
structure BlankDecidesGrammar (sh : Clo → Prop) (fol : Bool → Clo → View → Prop) : Prop where
  slack : ∀ a, sh a → Slack u root W sh a
  rules : ∀ b p m r (ρ : List (Name × Clo)), modAt root p = some m → r ∈ m.rules → ρ.map Prod.fst = r.args → BlankDecides u root W sh fol b (fol b (.mk p ρ r.node)) (.mk p ρ r.node)

end
end Pest3.Gen
