import Verif.Utf8

/-!
# Specification: the texts of the rules with a stack of the tests
-/

namespace Pest3.Stk
open Pest3

/-- Decimal digits. -/
def Digit (x : Char) : Prop := '0' ≤ x ∧ x ≤ '9'

/-- The letters `a`, `b`, `c`. -/
def Letter (x : Char) : Prop := 'a' ≤ x ∧ x ≤ 'c'

/-- Blanks and dollar signs. -/
def Space (w : Text) : Prop := ∀ x ∈ w, x = ' ' ∨ x = '$'

/-- Letters, with a comma after each of them. -/
def commas : Text → Text
  | [] => []
  | x :: l => x :: ',' :: commas l

/-- Two digits, and twice the second one. -/
def Top (t : Text) : Prop := ∃ a b, Digit a ∧ Digit b ∧ t = [a, b, b, b]

/-- Two digits, and the two digits in reverse order. -/
def Mirror (t : Text) : Prop := ∃ a b, Digit a ∧ Digit b ∧ t = [a, b, b, a]

/-- Five digits, and the second and third of them. -/
def Slice (t : Text) : Prop := ∃ a b c d e w w' w'', Digit a ∧ Digit b ∧ Digit c ∧ Digit d ∧ Digit e ∧ Space w ∧ Space w' ∧ Space w'' ∧
  t = a :: b :: c :: (w ++ d :: (w' ++ e :: (w'' ++ [b, c])))

/-- A digit, another one, and the first one again. -/
def Other (t : Text) : Prop := ∃ a b, Digit a ∧ Digit b ∧ a ≠ b ∧ t = [a, b, a]

/-- Letters, and the last three of them in reverse order. -/
def LastThree (t : Text) : Prop := ∃ l x y z, (∀ c ∈ l ++ [x, y, z], Letter c) ∧ t = commas (l ++ [x, y, z]) ++ [z, y, x]

/-- Letters, and all of them in reverse order. -/
def Back (t : Text) : Prop := ∃ l, (∀ c ∈ l, Letter c) ∧ t = commas l ++ l.reverse

/-- The rules, and the texts they should accept. -/
def languages : List (Text × (Text → Prop)) := [
  ("peek_".toList, Top),
  ("peek_all".toList, Mirror),
  ("peek_slice_23".toList, Slice),
  ("pop_".toList, Mirror),
  ("pop_all".toList, Mirror),
  ("pop_fail".toList, Other),
  ("repeat_mutate_stack".toList, LastThree),
  ("repeat_mutate_stack_pop_all".toList, Back),
  ("will_fail".toList, fun t => ∃ b, Back b ∧ t = b ++ "FAIL".toList),
  ("stack_resume_after_fail".toList, fun t => Back t ∨ ∃ b, Back b ∧ t = b ++ "FAIL".toList),
  ("checkpoint_restore".toList, fun t => t = "aba".toList ∨ t = "b".toList ∨ t = "a".toList)]

end Pest3.Stk
