import Verif.CsvExample
import Verif.JsonRead

/-!
# Reading the text of the grammar of tables
-/

namespace Pest3.Csv
open Pest3 Pest3.Gen Pest3.Load Pest3.Json

/-- The characters of the lines. -/
def csvChars : List Text := [
  [],
  ['s', 'e', 'p', 'a', 'r', 'a', 't', 'e', 'd', '(', 'i', ',', ' ', 's', 'e', 'p', ')', ' ', '=', ' ', 'i', ' ', '-', ' ', '(', 's', 'e', 'p', ' ', '-', ' ', 'i', ')', '*'],
  ['c', 'e', 'l', 'l', ' ', ' ', ' ', ' ', ' ', ' ', ' ', ' ', ' ', ' ', ' ', ' ', ' ', ' ', '=', ' ', '(', '\'', 'a', '\'', '.', '.', '\'', 'z', '\'', ' ', '|', ' ', '\'', 'A', '\'', '.', '.', '\'', 'Z', '\'', ' ', '|', ' ', '\'', '0', '\'', '.', '.', '\'', '9', '\'', ' ', '|', ' ', '"', '.', '"', ')', '+'],
  ['m', 'a', 'i', 'n', ' ', ' ', ' ', ' ', ' ', ' ', ' ', ' ', ' ', ' ', ' ', ' ', ' ', ' ', '=', ' ', 's', 'e', 'p', 'a', 'r', 'a', 't', 'e', 'd', '(', 's', 'e', 'p', 'a', 'r', 'a', 't', 'e', 'd', '(', 'c', 'e', 'l', 'l', ',', ' ', '"', ' ', '"', '*', ' ', '-', ' ', '"', ',', '"', ' ', '-', ' ', '"', ' ', '"', '*', ')', ',', ' ', '"', '\\', 'n', '"', ')'],
  []]

theorem csvChars_eq : Spelled csvLines csvChars := ⟨rfl, rfl, rfl, rfl, rfl, trivial⟩

theorem csv_read : readText 400 csvText = .ok (some csvItems) := readsAs_eq csvChars_eq (by decide +kernel)

end Pest3.Csv
