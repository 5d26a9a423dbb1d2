import Verif.ForestSpec

/-!
# Files of records, as the example describes them
-/

namespace Pest3.Records
open Pest3 Pest3.Gen

/-- Digits, points and minus signs. -/
def FieldChar (x : Char) : Prop := ('0' ≤ x ∧ x ≤ '9') ∨ x = '.' ∨ x = '-'

/-- One or more of them. -/
def Field (t : Text) : Prop := t ≠ [] ∧ ∀ x ∈ t, FieldChar x

/-- One or more fields with a comma between each two. -/
inductive Record : List Text → Text → Prop where
  | one {c} : Field c → Record [c] c
  | more {c cs t} : Field c → Record cs t → Record (c :: cs) (c ++ ',' :: t)

/-- The ends of lines of Windows and Unix. -/
def Break (w : Text) : Prop := w = ['\r', '\n'] ∨ w = ['\n']

/-- Any number of records, each with the end of its line. -/
inductive File : List (List Text) → Text → Prop where
  | nil : File [] []
  | cons {r t w rs s} : Record r t → Break w → File rs s → File (r :: rs) (t ++ (w ++ s))

/-! ## Their tokens -/

/-- The tokens of the fields of a record that starts at `k`. -/
def fieldTokens (k : Nat) : List Text → List (Pair RuleVal)
  | [] => []
  | c :: cs => .mk (.rule "field".toList) k (k + utf8Len c) [] :: fieldTokens (k + utf8Len c + 1) cs

/-- The tokens of the records of a text that starts at `k`: those of the rule `record`, with those of the fields directly in them, and none for the line breaks. -/
inductive FileTokens : Nat → List (List Text) → Text → List (Pair RuleVal) → Prop where
  | nil {k} : FileTokens k [] [] []
  | cons {k r t w rs s F} : Record r t → Break w → FileTokens (k + utf8Len t + utf8Len w) rs s F →
      FileTokens k (r :: rs) (t ++ (w ++ s)) (.mk (.rule "record".toList) k (k + utf8Len t) (fieldTokens k r) :: F)

end Pest3.Records
