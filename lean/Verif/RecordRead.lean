import Verif.RecordExample
import Verif.JsonRead

/-!
# Reading the text of the grammar of records
-/

namespace Pest3.Records
open Pest3 Pest3.Gen Pest3.Load Pest3.Json

/-- The characters of the lines. -/
def recordChars : List Text := [
  [],
  ['^', ' ', '=', ' ', '"', '\\', 'r', '\\', 'n', '"', ' ', '|', ' ', '"', '\\', 'n', '"'],
  ['f', 'i', 'e', 'l', 'd', ' ', '=', ' ', '(', 'p', 'e', 's', 't', ':', ':', 'a', 's', 'c', 'i', 'i', '_', 'd', 'i', 'g', 'i', 't', ' ', '|', ' ', '"', '.', '"', ' ', '|', ' ', '"', '-', '"', ')', '+'],
  ['s', 'e', 'p', 'a', 'r', 'a', 't', 'e', 'd', '(', 'e', ',', ' ', 's', ')', ' ', '=', ' ', '_', '{', ' ', 'e', ' ', '-', ' ', '(', 's', ' ', '-', ' ', 'e', ')', '*', ' ', '}'],
  ['c', 'o', 'm', 'm', 'a', '_', 's', 'e', 'p', 'a', 'r', 'a', 't', 'e', 'd', '(', 'e', ')', ' ', '=', ' ', '_', '{', ' ', 's', 'e', 'p', 'a', 'r', 'a', 't', 'e', 'd', '(', 'e', ',', ' ', '"', ',', '"', ')', ' ', '}'],
  ['r', 'e', 'c', 'o', 'r', 'd', ' ', '=', ' ', 'c', 'o', 'm', 'm', 'a', '_', 's', 'e', 'p', 'a', 'r', 'a', 't', 'e', 'd', '(', 'f', 'i', 'e', 'l', 'd', ')'],
  ['f', 'i', 'l', 'e', ' ', '=', ' ', 'p', 'e', 's', 't', ':', ':', 's', 'o', 'i', ' ', '-', ' ', '(', 'r', 'e', 'c', 'o', 'r', 'd', ' ', '^', ' ', '"', '"', ')', '*', ' ', '-', ' ', 'p', 'e', 's', 't', ':', ':', 'e', 'o', 'i'],
  []]

theorem recordChars_eq : Spelled recordLines recordChars := ⟨rfl, rfl, rfl, rfl, rfl, rfl, rfl, rfl, trivial⟩

theorem record_read : readText 400 recordText = .ok (some (recordRules.map .rule)) := readsAs_eq recordChars_eq (by decide +kernel)

end Pest3.Records
