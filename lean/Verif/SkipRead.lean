import Verif.SkipExample
import Verif.JsonRead

/-!
# Reading the texts of the grammars with comments
-/

namespace Pest3.Skip
open Pest3 Pest3.Gen Pest3.Load Pest3.Json

/-- The characters of the lines. -/
def skipChars : List Text := [
  [],
  ['~', ' ', ' ', ' ', ' ', ' ', ' ', ' ', ' ', ' ', ' ', '=', ' ', '(', '"', ' ', '"', ' ', '|', ' ', '"', '/', '*', '"', ' ', '-', ' ', '(', '!', '"', '*', '/', '"', ' ', '-', ' ', 'p', 'e', 's', 't', ':', ':', 'a', 'n', 'y', ')', '*', ' ', '-', ' ', '"', '*', '/', '"', ')', '*'],
  ['m', 'a', 'i', 'n', ' ', ' ', ' ', ' ', ' ', ' ', ' ', '=', ' ', '"', 'x', '"', '~', '*'],
  ['p', 'r', 'o', 'g', 'r', 'a', 'm', ' ', ' ', ' ', ' ', '=', ' ', 'p', 'e', 's', 't', ':', ':', 's', 'o', 'i', ' ', '~', ' ', 'm', 'a', 'i', 'n', ' ', '~', ' ', 'p', 'e', 's', 't', ':', ':', 'e', 'o', 'i'],
  []]

theorem skipChars_eq : Spelled skipLines skipChars := ⟨rfl, rfl, rfl, rfl, rfl, trivial⟩

theorem skip_read : readText 400 skipText = .ok (some (skipRules.map .rule)) := readsAs_eq skipChars_eq (by decide +kernel)

/-- The characters of the lines. -/
def readerChars : List Text := [
  [],
  ['~', ' ', ' ', ' ', ' ', ' ', ' ', ' ', '=', ' ', '"', ' ', '"', ' ', '|', ' ', '"', '/', '*', '"', ' ', '-', ' ', '(', '!', '"', '*', '/', '"', ' ', '-', ' ', 'p', 'e', 's', 't', ':', ':', 'a', 'n', 'y', ')', '*', ' ', '-', ' ', '"', '*', '/', '"'],
  ['x', ' ', ' ', ' ', ' ', ' ', ' ', ' ', '=', ' ', '"', 'x', '"'],
  ['m', 'a', 'i', 'n', ' ', ' ', ' ', ' ', '=', ' ', 'x', '~', '+'],
  []]

theorem readerChars_eq : Spelled readerLines readerChars := ⟨rfl, rfl, rfl, rfl, rfl, trivial⟩

theorem reader_read : readText 400 readerText = .ok (some (readerRules.map .rule)) := readsAs_eq readerChars_eq (by decide +kernel)

end Pest3.Skip
