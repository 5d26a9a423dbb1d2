import Verif.SmallExample
import Verif.JsonRead

/-!
# Reading the texts of these grammars
-/

namespace Pest3.Small
open Pest3 Pest3.Gen Pest3.Load Pest3.Json

/-- The characters of the lines. -/
def issueChars : List Text := [
  ['/', '/', '!', ' ', 'A', ' ', 't', 'e', 's', 't', ' ', 'f', 'o', 'r', ' ', 's', 'e', 'v', 'e', 'r', 'a', 'l', ' ', 'b', 'u', 'g', 's', ' ', 'i', 'n', ' ', 'h', 't', 't', 'p', 's', ':', '/', '/', 'g', 'i', 't', 'h', 'u', 'b', '.', 'c', 'o', 'm', '/', 'p', 'e', 's', 't', '-', 'p', 'a', 'r', 's', 'e', 'r', '/', 'p', 'e', 's', 't', '3', '/', 'i', 's', 's', 'u', 'e', 's', '/', '2', '7'],
  [],
  ['u', 's', 'e', 'A', ' ', '=', ' ', '"', 'a', '"', ' ', '~', ' ', '"', 'b', '"', '*'],
  [],
  ['a', ' ', '=', ' ', '_', 'b'],
  [],
  ['_', 'b', ' ', '=', ' ', '"', 'b', '"', '+'],
  [],
  ['x', ' ', '=', ' ', '"', 'a', '"', ' ', '-', ' ', '(', '&', 'x', ' ', '|', ' ', '"', 'b', '"', ')'],
  [],
  ['~', ' ', '=', ' ', '"', ',', '"'],
  []]

theorem issueChars_eq : Spelled issueLines issueChars := ⟨rfl, rfl, rfl, rfl, rfl, rfl, rfl, rfl, rfl, rfl, rfl, rfl, trivial⟩

/-- The characters of the lines. -/
def seqChars : List Text := [
  [],
  ['s', '1', ' ', ' ', '=', ' ', '{', ' ', '"', 'a', '"', ' ', '}'],
  ['s', '2', ' ', ' ', '=', ' ', '{', ' ', '"', 'a', '"', ' ', '-', ' ', '"', 'b', '"', ' ', '}'],
  ['s', '3', ' ', ' ', '=', ' ', '{', ' ', '"', 'a', '"', ' ', '-', ' ', '"', 'b', '"', ' ', '-', ' ', '"', 'c', '"', ' ', '}'],
  ['s', '4', ' ', ' ', '=', ' ', '{', ' ', '"', 'a', '"', ' ', '-', ' ', '"', 'b', '"', ' ', '-', ' ', '"', 'c', '"', ' ', '-', ' ', '"', 'd', '"', ' ', '}'],
  ['s', '5', ' ', ' ', '=', ' ', '{', ' ', '"', 'a', '"', ' ', '-', ' ', '"', 'b', '"', ' ', '-', ' ', '"', 'c', '"', ' ', '-', ' ', '"', 'd', '"', ' ', '-', ' ', '"', 'e', '"', ' ', '}'],
  ['s', '6', ' ', ' ', '=', ' ', '{', ' ', '"', 'a', '"', ' ', '-', ' ', '"', 'b', '"', ' ', '-', ' ', '"', 'c', '"', ' ', '-', ' ', '"', 'd', '"', ' ', '-', ' ', '"', 'e', '"', ' ', '-', ' ', '"', 'f', '"', ' ', '}'],
  ['s', '7', ' ', ' ', '=', ' ', '{', ' ', '"', 'a', '"', ' ', '-', ' ', '"', 'b', '"', ' ', '-', ' ', '"', 'c', '"', ' ', '-', ' ', '"', 'd', '"', ' ', '-', ' ', '"', 'e', '"', ' ', '-', ' ', '"', 'f', '"', ' ', '-', ' ', '"', 'g', '"', ' ', '}'],
  ['s', '8', ' ', ' ', '=', ' ', '{', ' ', '"', 'a', '"', ' ', '-', ' ', '"', 'b', '"', ' ', '-', ' ', '"', 'c', '"', ' ', '-', ' ', '"', 'd', '"', ' ', '-', ' ', '"', 'e', '"', ' ', '-', ' ', '"', 'f', '"', ' ', '-', ' ', '"', 'g', '"', ' ', '-', ' ', '"', 'h', '"', ' ', '}'],
  ['s', '9', ' ', ' ', '=', ' ', '{', ' ', '"', 'a', '"', ' ', '-', ' ', '"', 'b', '"', ' ', '-', ' ', '"', 'c', '"', ' ', '-', ' ', '"', 'd', '"', ' ', '-', ' ', '"', 'e', '"', ' ', '-', ' ', '"', 'f', '"', ' ', '-', ' ', '"', 'g', '"', ' ', '-', ' ', '"', 'h', '"', ' ', '-', ' ', '"', 'i', '"', ' ', '}'],
  ['s', '1', '0', ' ', '=', ' ', '{', ' ', '"', 'a', '"', ' ', '-', ' ', '"', 'b', '"', ' ', '-', ' ', '"', 'c', '"', ' ', '-', ' ', '"', 'd', '"', ' ', '-', ' ', '"', 'e', '"', ' ', '-', ' ', '"', 'f', '"', ' ', '-', ' ', '"', 'g', '"', ' ', '-', ' ', '"', 'h', '"', ' ', '-', ' ', '"', 'i', '"', ' ', '-', ' ', '"', 'j', '"', ' ', '}'],
  ['s', '1', '1', ' ', '=', ' ', '{', ' ', '"', 'a', '"', ' ', '-', ' ', '"', 'b', '"', ' ', '-', ' ', '"', 'c', '"', ' ', '-', ' ', '"', 'd', '"', ' ', '-', ' ', '"', 'e', '"', ' ', '-', ' ', '"', 'f', '"', ' ', '-', ' ', '"', 'g', '"', ' ', '-', ' ', '"', 'h', '"', ' ', '-', ' ', '"', 'i', '"', ' ', '-', ' ', '"', 'j', '"', ' ', '-', ' ', '"', 'k', '"', ' ', '}'],
  ['s', '1', '2', ' ', '=', ' ', '{', ' ', '"', 'a', '"', ' ', '-', ' ', '"', 'b', '"', ' ', '-', ' ', '"', 'c', '"', ' ', '-', ' ', '"', 'd', '"', ' ', '-', ' ', '"', 'e', '"', ' ', '-', ' ', '"', 'f', '"', ' ', '-', ' ', '"', 'g', '"', ' ', '-', ' ', '"', 'h', '"', ' ', '-', ' ', '"', 'i', '"', ' ', '-', ' ', '"', 'j', '"', ' ', '-', ' ', '"', 'k', '"', ' ', '-', ' ', '"', 'l', '"', ' ', '}'],
  []]

theorem seqChars_eq : Spelled seqLines seqChars := ⟨rfl, rfl, rfl, rfl, rfl, rfl, rfl, rfl, rfl, rfl, rfl, rfl, rfl, rfl, trivial⟩

theorem issue_read : readText 400 issueText = .ok (some (.doc :: issueRules.map .rule)) := readsAs_eq issueChars_eq (by decide +kernel)

theorem seq_read : readText 400 seqText = .ok (some (seqRules.map .rule)) := readsAs_eq seqChars_eq (by decide +kernel)

end Pest3.Small
