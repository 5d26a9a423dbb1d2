import Verif.ForestSpec

/-!
# Specification: tables

Rows, one in each line; cells, separated by commas, with blanks around the commas.
-/

namespace Pest3.Csv
open Pest3 Pest3.Gen

/-- The characters of cells: letters and digits of ASCII, full stops. -/
def CellChar (x : Char) : Prop := ('a' ≤ x ∧ x ≤ 'z') ∨ ('A' ≤ x ∧ x ≤ 'Z') ∨ ('0' ≤ x ∧ x ≤ '9') ∨ x = '.'

/-- A cell. -/
def Cell (c : Text) : Prop := c ≠ [] ∧ ∀ x ∈ c, CellChar x

/-- Blanks. -/
def Blanks (w : Text) : Prop := ∀ x ∈ w, x = ' '

/-- A row: its cells, and how it is written. -/
inductive Row : List Text → Text → Prop where
  | one {c} : Cell c → Row [c] c
  | more {c w w' cs t} : Cell c → Blanks w → Blanks w' → Row cs t → Row (c :: cs) (c ++ w ++ ',' :: (w' ++ t))

/-- A table: its rows, and how it is written. -/
inductive Table : List (List Text) → Text → Prop where
  | one {r t} : Row r t → Table [r] t
  | more {r t rs t'} : Row r t → Table rs t' → Table (r :: rs) (t ++ '\n' :: t')

/-! ## Their tokens -/

/-- One by one. -/
inductive Each {α β : Type} (R : α → β → Prop) : List α → List β → Prop where
  | nil : Each R [] []
  | cons {a b l m} : R a b → Each R l m → Each R (a :: l) (b :: m)

/-- The token of a cell of the text: a token of the rule `cell`, with the text of the cell. -/
def CellToken (text : Text) (c : Text) (P : Pair RuleVal) : Prop :=
  ∃ before after, text = before ++ c ++ after ∧ P = .mk (.rule "cell".toList) (utf8Len before) (utf8Len before + utf8Len c) []

/-- The token of a row: a token of the rule `separated`, with those of the cells in it. -/
def RowToken (text : Text) (row : List Text) (P : Pair RuleVal) : Prop :=
  ∃ before t after F, text = before ++ t ++ after ∧ Row row t ∧ P = .mk (.rule "separated".toList) (utf8Len before) (utf8Len before + utf8Len t) F ∧ Each (CellToken text) row F

/-- The tokens of a table: one of the rule `main`, in it one of the rule `separated`, in it those of the rows. -/
def TableToken (text : Text) (rows : List (List Text)) (P : Pair RuleVal) : Prop :=
  ∃ F, P = .mk (.rule "main".toList) 0 (utf8Len text) [.mk (.rule "separated".toList) 0 (utf8Len text) F] ∧ Each (RowToken text) rows F

end Pest3.Csv
