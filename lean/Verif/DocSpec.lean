import Verif.NotationSpec

/-!
# Specification: documentation comments

In terms of the characters of a text.  `Space` is what may stand between two tokens; in contrast to `Gap` everything that is accepted is
covered.
-/

namespace Pest3.Load
open Pest3 Pest3.Gen

/-- The inside of a comment `/* … */`. -/
inductive Inside : Text → Prop where
  | nil : Inside []
  | char {x b} : ¬ ['*', '/'] <+: x :: (b ++ ['*', '/']) → Inside b → Inside (x :: b)
  | nest {a b} : Inside a → Inside b → Inside ('/' :: '*' :: (a ++ '*' :: '/' :: b))

/-- Blanks and comments. -/
inductive Space : Text → Prop where
  | nil : Space []
  | blank {b g} : Blank b → Space g → Space (b ++ g)
  | line {t e g} : '\n' ∉ t → t.head? ≠ some '/' → t.head? ≠ some '!' → Newline e → Space g → Space ('/' :: '/' :: (t ++ (e ++ g)))
  | block {b g} : Inside b → Space g → Space ('/' :: '*' :: (b ++ '*' :: '/' :: g))

/-- Lines of documentation: each begins with the sign; the list gives what follows the sign. -/
inductive DocLines (sign : Text) : Text → List Text → Prop where
  | nil : DocLines sign [] []
  | cons {t e g d ls} : '\n' ∉ t → Newline e → Space g → DocLines sign d ls → DocLines sign (sign ++ (t ++ (e ++ (g ++ d)))) (t :: ls)

/-- White space. -/
def White (x : Char) : Prop :=
  (9 ≤ x.toNat ∧ x.toNat ≤ 13) ∨ (0x2000 ≤ x.toNat ∧ x.toNat ≤ 0x200A) ∨
    x.toNat ∈ [0x20, 0x85, 0xA0, 0x1680, 0x2028, 0x2029, 0x202F, 0x205F, 0x3000]

/-- `t` is `s` without the white space around it. -/
structure Trimmed (s t : Text) : Prop where
  around : ∃ a b, s = a ++ (t ++ b) ∧ (∀ x ∈ a, White x) ∧ ∀ x ∈ b, White x
  first : ∀ x ∈ t.head?, ¬ White x
  last : ∀ x ∈ t.getLast?, ¬ White x

/-- The same lines without the white space around them. -/
inductive TrimmedLines : List Text → List Text → Prop where
  | nil : TrimmedLines [] []
  | cons {s t l l'} : Trimmed s t → TrimmedLines l l' → TrimmedLines (s :: l) (t :: l')

/-- The same rules in the same order, with lines without the white space around them. -/
inductive TrimmedRules : List (Name × List Text) → List (Name × List Text) → Prop where
  | nil : TrimmedRules [] []
  | cons {n ls ls' d d'} : TrimmedLines ls ls' → TrimmedRules d d' → TrimmedRules ((n, ls) :: d) ((n, ls') :: d')

/-- A rule with its documentation: the lines at its beginning, what they say, the name, and the rest. -/
structure RulePart where
  docs : Text
  lines : List Text
  name : Name
  body : Text

/-- The text of a rule. -/
def RulePart.text (p : RulePart) : Text := p.docs ++ (p.name ++ p.body)

structure RulePart.Ok (p : RulePart) : Prop where
  docs : DocLines ['/', '/', '/'] p.docs p.lines
  name : IsRuleName p.name

/-- What stands at the end of a file: a comment on the last line need not end with a newline. -/
inductive LastSpace : Text → Prop where
  | space {g} : Space g → LastSpace g
  | line {g t} : Space g → '\n' ∉ t → t.head? ≠ some '/' → t.head? ≠ some '!' → LastSpace (g ++ '/' :: '/' :: t)

/-- Imports and rules, separated by blanks and comments. -/
inductive Items : List RulePart → Text → Prop where
  | lastRule {p e} : p.Ok → LastSpace e → Items [p] (p.text ++ e)
  | lastImport {t e} : LastSpace e → Items [] ('u' :: 's' :: 'e' :: ' ' :: (t ++ e))
  | rule {p g l u} : p.Ok → Space g → Items l u → Items (p :: l) (p.text ++ (g ++ u))
  | import {t g l u} : Space g → Items l u → Items l ('u' :: 's' :: 'e' :: ' ' :: (t ++ (g ++ u)))

/-- The text of a file with its documentation: that of the grammar, and the rules. -/
structure FileDocs (text : Text) (top : List Text) (rules : List RulePart) : Prop where
  parts : ∃ g d u, text = g ++ (d ++ u) ∧ Space g ∧ DocLines ['/', '/', '!'] d top ∧ Items rules u

/-- The names of the rules among the items of a file. -/
def ruleNames (items : List FileItem) : List Name := items.filterMap fun i => match i with
  | .rule r => some r.name
  | _ => none

/-- What the parts say. -/
def partDocs (ps : List RulePart) : List (Name × List Text) := ps.map fun p => (p.name, p.lines)

end Pest3.Load
