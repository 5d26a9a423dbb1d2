import Verif.StackTexts

/-!
# Specification: the texts of the rules without a stack of the tests
-/

namespace Pest3.Stk
open Pest3

/-- The text of `string`. -/
def abc : Text := ['a', 'b', 'c']

/-- Nothing. -/
def Nothing (w : Text) : Prop := w = []

/-- Copies of `abc`, each after a separator. -/
inductive More (Sep : Text → Prop) : Nat → Text → Prop
  | none : More Sep 0 []
  | more {n : Nat} {w t : Text} : Sep w → More Sep n t → More Sep (n + 1) (w ++ (abc ++ t))

/-- Copies of `abc`, with separators between them. -/
def Copies (Sep : Text → Prop) : Nat → Text → Prop
  | 0, t => t = []
  | n + 1, t => ∃ t', More Sep n t' ∧ t = abc ++ t'

/-- A number below one hundred with two digits. -/
def numeral (i : Nat) : Text := [Char.ofNat (48 + i / 10), Char.ofNat (48 + i % 10)]

/-- The numbers from one. -/
def numerals (n : Nat) : List Text := (List.range n).map fun i => numeral (i + 1)

/-- Some texts in this order, with blanks and dollar signs between them. -/
def Row : List Text → Text → Prop
  | [], t => t = []
  | [x], t => t = x
  | x :: y :: l, t => ∃ w t', Space w ∧ Row (y :: l) t' ∧ t = x ++ (w ++ t')

/-- The rules, and the texts they should accept. -/
def opLanguages : List (Text × (Text → Prop)) := [
  ("string".toList, fun t => t = abc),
  ("insensitive".toList, fun t => ∃ x y z, (x = 'a' ∨ x = 'A') ∧ (y = 'b' ∨ y = 'B') ∧ (z = 'c' ∨ z = 'C') ∧ t = [x, y, z]),
  ("range".toList, fun t => ∃ x, Digit x ∧ t = [x]),
  ("ident".toList, fun t => t = abc),
  -- what is ahead is not taken
  ("pos_pred".toList, fun _ => False),
  ("neg_pred".toList, fun t => t = []),
  ("double_neg_pred".toList, fun _ => False),
  ("sequence_atomic".toList, fun t => t = abc ++ abc),
  ("sequence_optional_trivia".toList, fun t => ∃ w, Space w ∧ t = abc ++ (w ++ abc)),
  ("sequence_mandatory_trivia".toList, fun t => ∃ w, Space w ∧ w ≠ [] ∧ t = abc ++ (w ++ abc)),
  ("sequence_nested".toList, fun t => ∃ w, Space w ∧ t = abc ++ (w ++ abc)),
  ("sequence_compound_nested".toList, fun t => ∃ w, Space w ∧ t = abc ++ (w ++ abc)),
  ("choice".toList, fun t => t = abc ∨ ∃ x, Digit x ∧ t = [x]),
  ("choice_prefix".toList, fun t => t = abc ∨ ∃ x, Digit x ∧ t = [x]),
  ("optional".toList, fun t => t = [] ∨ t = abc),
  ("repeat".toList, fun t => ∃ k, Copies Space k t),
  ("repeat_atomic".toList, fun t => ∃ k, Copies Nothing k t),
  ("repeat_once".toList, fun t => ∃ k, 1 ≤ k ∧ Copies Space k t),
  ("repeat_once_atomic".toList, fun t => ∃ k, 1 ≤ k ∧ Copies Nothing k t),
  ("repeat_min_max".toList, fun t => ∃ k, 2 ≤ k ∧ k ≤ 3 ∧ Copies Space k t),
  ("repeat_min_max_atomic".toList, fun t => ∃ k, 2 ≤ k ∧ k ≤ 3 ∧ Copies Nothing k t),
  ("repeat_exact".toList, fun t => Copies Space 2 t),
  ("repeat_min".toList, fun t => ∃ k, 2 ≤ k ∧ Copies Space k t),
  ("repeat_min_atomic".toList, fun t => ∃ k, 2 ≤ k ∧ Copies Nothing k t),
  ("repeat_max".toList, fun t => ∃ k, k ≤ 2 ∧ Copies Space k t),
  ("repeat_max_atomic".toList, fun t => ∃ k, k ≤ 2 ∧ Copies Nothing k t),
  ("soi_at_start".toList, fun t => t = abc),
  ("longchoice_builtin".toList, fun t => t ∈ numerals 16),
  ("longseq_builtin".toList, Row (numerals 16)),
  ("longchoice_critical".toList, fun t => t ∈ numerals 17),
  ("longseq_critical".toList, Row (numerals 17)),
  ("longchoice_jump".toList, fun t => t ∈ numerals 19),
  ("longseq_jump".toList, Row (numerals 19))]

end Pest3.Stk
