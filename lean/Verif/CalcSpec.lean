import Verif.JsonSpec

/-!
# Specification: arithmetic expressions

Natural numbers, `+ - * / ^` between operands, `-` in front of operands, `!` behind them, parentheses; blanks anywhere except in numbers.  Three points are left open.
-/

namespace Pest3.Calc
open Pest3 Pest3.Json

/-- Where the expressions of the examples may differ. -/
structure Dialect where
  /-- there may be blanks between two signs in front of an operand -/
  signs : Bool
  /-- there may be blanks between two marks behind an operand -/
  marks : Bool
  /-- there may be blanks between a mark of an operand other than the first and the operator behind it -/
  room : Bool

/-- Blanks anywhere. -/
def free : Dialect := ⟨true, true, true⟩

/-- The expressions of the examples. -/
def sample : Dialect := ⟨false, false, false⟩

/-- What one dialect allows the other allows too. -/
structure Dialect.le (D D' : Dialect) : Prop where
  signs : D.signs = true → D'.signs = true
  marks : D.marks = true → D'.marks = true
  room : D.room = true → D'.room = true

/-- Natural numbers without leading zeros: the same as the integral part of a number in JSON. -/
abbrev Natural (t : Text) : Prop := Whole t

/-- The operators. -/
def Operator (x : Char) : Prop := x ∈ ['+', '-', '*', '/', '^']

/-- Signs, with the blanks behind them. -/
inductive Signs (D : Dialect) : Text → Prop where
  | nil : Signs D []
  | cons {w s} : Blank w → (s ≠ [] → D.signs = false → w = []) → Signs D s → Signs D ('-' :: (w ++ s))

/-- Marks, with the blanks in front of them (`first`: in front of all of them). -/
inductive Marks (D : Dialect) : Bool → Text → Prop where
  | nil {first} : Marks D first []
  | cons {first w s} : Blank w → (first = false → D.marks = false → w = []) → Marks D false s → Marks D first (w ++ '!' :: s)

/-- Numbers and expressions in parentheses, operands (with marks or not), expressions (`first`: the first operand is the first of the whole expression). -/
inductive Kind where
  | primary
  | operand (marked : Bool)
  | expression (first : Bool)

/-- Expressions, without blanks around them. -/
inductive Expression (D : Dialect) : Kind → Text → Prop where
  | number {x} : Natural x → Expression D .primary x
  | group {w e w'} : Blank w → Expression D (.expression true) e → Blank w' → Expression D .primary ('(' :: (w ++ e ++ w' ++ [')']))
  | operand {s p m marked} : Signs D s → Expression D .primary p → Marks D true m → (marked = true ↔ m ≠ []) → Expression D (.operand marked) (s ++ p ++ m)
  | last {o marked first} : Expression D (.operand marked) o → Expression D (.expression first) o
  | more {o marked first w x w' e} : Expression D (.operand marked) o → Blank w → (first = false → marked = true → D.room = false → w = []) → Operator x → Blank w' →
      Expression D (.expression false) e → Expression D (.expression first) (o ++ w ++ x :: (w' ++ e))

/-- A text with an expression in it, and blanks. -/
def Program (D : Dialect) (t : Text) : Prop := ∃ w e w', Blank w ∧ Expression D (.expression true) e ∧ Blank w' ∧ t = w ++ e ++ w'

end Pest3.Calc
