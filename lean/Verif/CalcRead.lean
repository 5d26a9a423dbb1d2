import Verif.CalcExample
import Verif.JsonRead

/-!
# Reading the file of the calculator grammar
-/

namespace Pest3.Calc
open Pest3 Pest3.Gen Pest3.Load Pest3.Json

/-- The characters of the lines. -/
def calcChars : List Text := [
  ['u', 's', 'e', ' ', 'c', 'o', 'm', 'm', 'o', 'n', ':', ':', 'b', 'a', 's', 'e', ' ', 'a', 's', ' ', 'c', 'o', 'm', 'm', 'o', 'n'],
  [],
  ['~', ' ', '=', ' ', 'c', 'o', 'm', 'm', 'o', 'n', ':', ':', 'w', 'h', 'i', 't', 'e', 's', 'p', 'a', 'c', 'e', 's', '*'],
  [],
  ['p', 'r', 'o', 'g', 'r', 'a', 'm', ' ', ' ', ' ', ' ', '=', ' ', ' ', ' ', 'p', 'e', 's', 't', ':', ':', 's', 'o', 'i', ' ', '~', ' ', 'e', 'x', 'p', 'r', ' ', '~', ' ', 'p', 'e', 's', 't', ':', ':', 'e', 'o', 'i'],
  ['e', 'x', 'p', 'r', ' ', ' ', ' ', ' ', ' ', ' ', ' ', '=', ' ', ' ', ' ', 'p', 'r', 'e', 'f', 'i', 'x', '*', ' ', '~', ' ', 'p', 'r', 'i', 'm', 'a', 'r', 'y', ' ', '~', ' ', 'p', 'o', 's', 't', 'f', 'i', 'x', '*', ' ', '~', ' ', '(', 'i', 'n', 'f', 'i', 'x', ' ', '~', ' ', 'p', 'r', 'e', 'f', 'i', 'x', '*', ' ', '~', ' ', 'p', 'r', 'i', 'm', 'a', 'r', 'y', ' ', '~', ' ', 'p', 'o', 's', 't', 'f', 'i', 'x', '*', ' ', ')', '*'],
  [' ', ' ', 'i', 'n', 'f', 'i', 'x', ' ', ' ', ' ', ' ', '=', ' ', ' ', '_', '{', ' ', 'a', 'd', 'd', ' ', '|', ' ', 's', 'u', 'b', ' ', '|', ' ', 'm', 'u', 'l', ' ', '|', ' ', 'd', 'i', 'v', ' ', '|', ' ', 'p', 'o', 'w', ' ', '}'],
  [' ', ' ', ' ', ' ', 'a', 'd', 'd', ' ', ' ', ' ', ' ', '=', ' ', ' ', ' ', '"', '+', '"', ' ', '/', '/', ' ', 'A', 'd', 'd', 'i', 't', 'i', 'o', 'n'],
  [' ', ' ', ' ', ' ', 's', 'u', 'b', ' ', ' ', ' ', ' ', '=', ' ', ' ', ' ', '"', '-', '"', ' ', '/', '/', ' ', 'S', 'u', 'b', 't', 'r', 'a', 'c', 't', 'i', 'o', 'n'],
  [' ', ' ', ' ', ' ', 'm', 'u', 'l', ' ', ' ', ' ', ' ', '=', ' ', ' ', ' ', '"', '*', '"', ' ', '/', '/', ' ', 'M', 'u', 'l', 't', 'i', 'p', 'l', 'i', 'c', 'a', 't', 'i', 'o', 'n'],
  [' ', ' ', ' ', ' ', 'd', 'i', 'v', ' ', ' ', ' ', ' ', '=', ' ', ' ', ' ', '"', '/', '"', ' ', '/', '/', ' ', 'D', 'i', 'v', 'i', 's', 'i', 'o', 'n'],
  [' ', ' ', ' ', ' ', 'p', 'o', 'w', ' ', ' ', ' ', ' ', '=', ' ', ' ', ' ', '"', '^', '"', ' ', '/', '/', ' ', 'E', 'x', 'p', 'o', 'n', 'e', 'n', 't', 'i', 'a', 't', 'i', 'o', 'n'],
  [' ', ' ', 'p', 'r', 'e', 'f', 'i', 'x', ' ', ' ', ' ', '=', ' ', ' ', '_', '{', ' ', 'n', 'e', 'g', ' ', '}'],
  [' ', ' ', ' ', ' ', 'n', 'e', 'g', ' ', ' ', ' ', ' ', '=', ' ', ' ', ' ', '"', '-', '"', ' ', '/', '/', ' ', 'N', 'e', 'g', 'a', 't', 'i', 'o', 'n'],
  [' ', ' ', 'p', 'o', 's', 't', 'f', 'i', 'x', ' ', ' ', '=', ' ', ' ', '_', '{', ' ', 'f', 'a', 'c', ' ', '}'],
  [' ', ' ', ' ', ' ', 'f', 'a', 'c', ' ', ' ', ' ', ' ', '=', ' ', ' ', ' ', '"', '!', '"', ' ', '/', '/', ' ', 'F', 'a', 'c', 't', 'o', 'r', 'i', 'a', 'l'],
  [' ', ' ', 'p', 'r', 'i', 'm', 'a', 'r', 'y', ' ', ' ', '=', ' ', ' ', '_', '{', ' ', 'c', 'o', 'm', 'm', 'o', 'n', ':', ':', 'i', 'n', 't', ' ', '|', ' ', '"', '(', '"', ' ', '~', ' ', 'e', 'x', 'p', 'r', ' ', '~', ' ', '"', ')', '"', ' ', '}']]

theorem calcChars_eq : Spelled calcLines calcChars := ⟨rfl, rfl, rfl, rfl, rfl, rfl, rfl, rfl, rfl, rfl, rfl, rfl, rfl, rfl, rfl, rfl, rfl, trivial⟩

theorem calc_read : readText 400 calcText = .ok (some calcItems) := readsAs_eq calcChars_eq (by decide +kernel)

end Pest3.Calc
