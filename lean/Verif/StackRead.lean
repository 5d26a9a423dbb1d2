import Verif.StackExample
import Verif.JsonRead

/-!
# Reading the file of the grammar of the tests
-/

namespace Pest3.Stk
open Pest3 Pest3.Gen Pest3.Load Pest3.Json

/-- The characters of the lines of `derive/tests/grammar.pest`. -/
def chars : List Text := [
  ['/', '/', ' ', 'p', 'e', 's', 't', '.', ' ', 'T', 'h', 'e', ' ', 'E', 'l', 'e', 'g', 'a', 'n', 't', ' ', 'P', 'a', 'r', 's', 'e', 'r'],
  ['/', '/', ' ', 'C', 'o', 'p', 'y', 'r', 'i', 'g', 'h', 't', ' ', '(', 'c', ')', ' ', '2', '0', '1', '8', ' ', 'D', 'r', 'a', 'g', 'o', 'ș', ' ', 'T', 'i', 's', 'e', 'l', 'i', 'c', 'e'],
  ['/', '/'],
  ['/', '/', ' ', 'L', 'i', 'c', 'e', 'n', 's', 'e', 'd', ' ', 'u', 'n', 'd', 'e', 'r', ' ', 't', 'h', 'e', ' ', 'A', 'p', 'a', 'c', 'h', 'e', ' ', 'L', 'i', 'c', 'e', 'n', 's', 'e', ',', ' ', 'V', 'e', 'r', 's', 'i', 'o', 'n', ' ', '2', '.', '0'],
  ['/', '/', ' ', '<', 'L', 'I', 'C', 'E', 'N', 'S', 'E', '-', 'A', 'P', 'A', 'C', 'H', 'E', ' ', 'o', 'r', ' ', 'h', 't', 't', 'p', ':', '/', '/', 'w', 'w', 'w', '.', 'a', 'p', 'a', 'c', 'h', 'e', '.', 'o', 'r', 'g', '/', 'l', 'i', 'c', 'e', 'n', 's', 'e', 's', '/', 'L', 'I', 'C', 'E', 'N', 'S', 'E', '-', '2', '.', '0', '>', ' ', 'o', 'r', ' ', 't', 'h', 'e', ' ', 'M', 'I', 'T'],
  ['/', '/', ' ', 'l', 'i', 'c', 'e', 'n', 's', 'e', ' ', '<', 'L', 'I', 'C', 'E', 'N', 'S', 'E', '-', 'M', 'I', 'T', ' ', 'o', 'r', ' ', 'h', 't', 't', 'p', ':', '/', '/', 'o', 'p', 'e', 'n', 's', 'o', 'u', 'r', 'c', 'e', '.', 'o', 'r', 'g', '/', 'l', 'i', 'c', 'e', 'n', 's', 'e', 's', '/', 'M', 'I', 'T', '>', ',', ' ', 'a', 't', ' ', 'y', 'o', 'u', 'r'],
  ['/', '/', ' ', 'o', 'p', 't', 'i', 'o', 'n', '.', ' ', 'A', 'l', 'l', ' ', 'f', 'i', 'l', 'e', 's', ' ', 'i', 'n', ' ', 't', 'h', 'e', ' ', 'p', 'r', 'o', 'j', 'e', 'c', 't', ' ', 'c', 'a', 'r', 'r', 'y', 'i', 'n', 'g', ' ', 's', 'u', 'c', 'h', ' ', 'n', 'o', 't', 'i', 'c', 'e', ' ', 'm', 'a', 'y', ' ', 'n', 'o', 't', ' ', 'b', 'e', ' ', 'c', 'o', 'p', 'i', 'e', 'd', ','],
  ['/', '/', ' ', 'm', 'o', 'd', 'i', 'f', 'i', 'e', 'd', ',', ' ', 'o', 'r', ' ', 'd', 'i', 's', 't', 'r', 'i', 'b', 'u', 't', 'e', 'd', ' ', 'e', 'x', 'c', 'e', 'p', 't', ' ', 'a', 'c', 'c', 'o', 'r', 'd', 'i', 'n', 'g', ' ', 't', 'o', ' ', 't', 'h', 'o', 's', 'e', ' ', 't', 'e', 'r', 'm', 's', '.'],
  [],
  ['/', '/', ' ', 'M', 'o', 'd', 'i', 'f', 'i', 'e', 'd', ' ', 'b', 'y', ' ', 'B', 'o', 'y', 'i', ' ', 'H', 'u', 'a', 'n', 'g', ' ', '(', '@', 'T', 'h', 'e', 'V', 'e', 'r', 'y', 'D', 'a', 'r', 'k', 'n', 'e', 's', 's', ')', ' ', 'w', 'h', 'e', 'n', ' ', 'u', 'p', 'g', 'r', 'a', 'd', 'i', 'n', 'g', ' ', 't', 'o', ' ', 'p', 'e', 's', 't', '3', '.'],
  [],
  ['s', 't', 'r', 'i', 'n', 'g', ' ', '=', ' ', '"', 'a', 'b', 'c', '"'],
  ['i', 'n', 's', 'e', 'n', 's', 'i', 't', 'i', 'v', 'e', ' ', '=', ' ', 'i', '"', 'a', 'b', 'c', '"'],
  ['r', 'a', 'n', 'g', 'e', ' ', '=', ' ', '\'', '0', '\'', '.', '.', '\'', '9', '\''],
  ['i', 'd', 'e', 'n', 't', ' ', '=', ' ', 's', 't', 'r', 'i', 'n', 'g'],
  ['p', 'o', 's', '_', 'p', 'r', 'e', 'd', ' ', '=', ' ', '&', 's', 't', 'r', 'i', 'n', 'g'],
  ['n', 'e', 'g', '_', 'p', 'r', 'e', 'd', ' ', '=', ' ', '!', 's', 't', 'r', 'i', 'n', 'g'],
  ['d', 'o', 'u', 'b', 'l', 'e', '_', 'n', 'e', 'g', '_', 'p', 'r', 'e', 'd', ' ', '=', ' ', '!', '!', 's', 't', 'r', 'i', 'n', 'g'],
  ['s', 'e', 'q', 'u', 'e', 'n', 'c', 'e', '_', 'a', 't', 'o', 'm', 'i', 'c', ' ', '=', ' ', 's', 't', 'r', 'i', 'n', 'g', ' ', '-', ' ', 's', 't', 'r', 'i', 'n', 'g'],
  ['s', 'e', 'q', 'u', 'e', 'n', 'c', 'e', '_', 'o', 'p', 't', 'i', 'o', 'n', 'a', 'l', '_', 't', 'r', 'i', 'v', 'i', 'a', ' ', '=', ' ', 's', 't', 'r', 'i', 'n', 'g', ' ', '~', ' ', 's', 't', 'r', 'i', 'n', 'g'],
  ['s', 'e', 'q', 'u', 'e', 'n', 'c', 'e', '_', 'm', 'a', 'n', 'd', 'a', 't', 'o', 'r', 'y', '_', 't', 'r', 'i', 'v', 'i', 'a', ' ', '=', ' ', 's', 't', 'r', 'i', 'n', 'g', ' ', '^', ' ', 's', 't', 'r', 'i', 'n', 'g'],
  ['s', 'e', 'q', 'u', 'e', 'n', 'c', 'e', '_', 'n', 'e', 's', 't', 'e', 'd', ' ', '=', ' ', 's', 't', 'r', 'i', 'n', 'g', ' ', '~', ' ', 's', 't', 'r', 'i', 'n', 'g'],
  ['s', 'e', 'q', 'u', 'e', 'n', 'c', 'e', '_', 'c', 'o', 'm', 'p', 'o', 'u', 'n', 'd', '_', 'n', 'e', 's', 't', 'e', 'd', ' ', '=', ' ', 's', 'e', 'q', 'u', 'e', 'n', 'c', 'e', '_', 'n', 'e', 's', 't', 'e', 'd'],
  ['c', 'h', 'o', 'i', 'c', 'e', ' ', '=', ' ', 's', 't', 'r', 'i', 'n', 'g', ' ', '|', ' ', 'r', 'a', 'n', 'g', 'e'],
  ['c', 'h', 'o', 'i', 'c', 'e', '_', 'p', 'r', 'e', 'f', 'i', 'x', ' ', '=', ' ', '|', ' ', 's', 't', 'r', 'i', 'n', 'g', ' ', '|', ' ', 'r', 'a', 'n', 'g', 'e'],
  ['o', 'p', 't', 'i', 'o', 'n', 'a', 'l', ' ', '=', ' ', 's', 't', 'r', 'i', 'n', 'g', '?'],
  ['r', 'e', 'p', 'e', 'a', 't', ' ', '=', ' ', 's', 't', 'r', 'i', 'n', 'g', '~', '*'],
  ['r', 'e', 'p', 'e', 'a', 't', '_', 'a', 't', 'o', 'm', 'i', 'c', ' ', '=', ' ', 's', 't', 'r', 'i', 'n', 'g', '*'],
  ['r', 'e', 'p', 'e', 'a', 't', '_', 'o', 'n', 'c', 'e', ' ', '=', ' ', 's', 't', 'r', 'i', 'n', 'g', '~', '+'],
  ['r', 'e', 'p', 'e', 'a', 't', '_', 'o', 'n', 'c', 'e', '_', 'a', 't', 'o', 'm', 'i', 'c', ' ', '=', ' ', 's', 't', 'r', 'i', 'n', 'g', '+'],
  ['r', 'e', 'p', 'e', 'a', 't', '_', 'm', 'i', 'n', '_', 'm', 'a', 'x', ' ', '=', ' ', 's', 't', 'r', 'i', 'n', 'g', '~', '{', '2', '.', '.', '3', '}'],
  ['r', 'e', 'p', 'e', 'a', 't', '_', 'm', 'i', 'n', '_', 'm', 'a', 'x', '_', 'a', 't', 'o', 'm', 'i', 'c', ' ', '=', ' ', 's', 't', 'r', 'i', 'n', 'g', '{', '2', '.', '.', '3', '}'],
  ['r', 'e', 'p', 'e', 'a', 't', '_', 'e', 'x', 'a', 'c', 't', ' ', '=', ' ', 's', 't', 'r', 'i', 'n', 'g', '~', '{', '2', '}'],
  ['r', 'e', 'p', 'e', 'a', 't', '_', 'm', 'i', 'n', ' ', '=', ' ', 's', 't', 'r', 'i', 'n', 'g', '~', '{', '2', '.', '.', '}'],
  ['r', 'e', 'p', 'e', 'a', 't', '_', 'm', 'i', 'n', '_', 'a', 't', 'o', 'm', 'i', 'c', ' ', '=', ' ', 's', 't', 'r', 'i', 'n', 'g', '{', '2', '.', '.', '}'],
  ['r', 'e', 'p', 'e', 'a', 't', '_', 'm', 'a', 'x', ' ', '=', ' ', 's', 't', 'r', 'i', 'n', 'g', '~', '{', '.', '.', '2', '}'],
  ['r', 'e', 'p', 'e', 'a', 't', '_', 'm', 'a', 'x', '_', 'a', 't', 'o', 'm', 'i', 'c', ' ', '=', ' ', 's', 't', 'r', 'i', 'n', 'g', '{', '.', '.', '2', '}'],
  ['s', 'o', 'i', '_', 'a', 't', '_', 's', 't', 'a', 'r', 't', ' ', '=', ' ', 'p', 'e', 's', 't', ':', ':', 's', 'o', 'i', ' ', '-', ' ', 's', 't', 'r', 'i', 'n', 'g'],
  ['r', 'e', 'p', 'e', 'a', 't', '_', 'm', 'u', 't', 'a', 't', 'e', '_', 's', 't', 'a', 'c', 'k', ' ', '=', ' ', '(', 'p', 'e', 's', 't', ':', ':', 's', 't', 'a', 'c', 'k', ':', ':', 'p', 'u', 's', 'h', '(', '\'', 'a', '\'', '.', '.', '\'', 'c', '\'', ')', ' ', '-', ' ', '"', ',', '"', ')', '*', ' ', '-', ' ', 'p', 'e', 's', 't', ':', ':', 's', 't', 'a', 'c', 'k', ':', ':', 'p', 'o', 'p', ' ', '-', ' ', 'p', 'e', 's', 't', ':', ':', 's', 't', 'a', 'c', 'k', ':', ':', 'p', 'o', 'p', ' ', '-', ' ', 'p', 'e', 's', 't', ':', ':', 's', 't', 'a', 'c', 'k', ':', ':', 'p', 'o', 'p'],
  ['r', 'e', 'p', 'e', 'a', 't', '_', 'm', 'u', 't', 'a', 't', 'e', '_', 's', 't', 'a', 'c', 'k', '_', 'p', 'o', 'p', '_', 'a', 'l', 'l', ' ', '=', ' ', '(', 'p', 'e', 's', 't', ':', ':', 's', 't', 'a', 'c', 'k', ':', ':', 'p', 'u', 's', 'h', '(', '\'', 'a', '\'', '.', '.', '\'', 'c', '\'', ')', ' ', '-', ' ', '"', ',', '"', ')', '*', ' ', '-', ' ', 'p', 'e', 's', 't', ':', ':', 's', 't', 'a', 'c', 'k', ':', ':', 'p', 'o', 'p', '_', 'a', 'l', 'l'],
  ['w', 'i', 'l', 'l', '_', 'f', 'a', 'i', 'l', ' ', '=', ' ', 'r', 'e', 'p', 'e', 'a', 't', '_', 'm', 'u', 't', 'a', 't', 'e', '_', 's', 't', 'a', 'c', 'k', '_', 'p', 'o', 'p', '_', 'a', 'l', 'l', ' ', '-', ' ', '"', 'F', 'A', 'I', 'L', '"'],
  ['s', 't', 'a', 'c', 'k', '_', 'r', 'e', 's', 'u', 'm', 'e', '_', 'a', 'f', 't', 'e', 'r', '_', 'f', 'a', 'i', 'l', ' ', '=', ' ', 'w', 'i', 'l', 'l', '_', 'f', 'a', 'i', 'l', ' ', '|', ' ', 'r', 'e', 'p', 'e', 'a', 't', '_', 'm', 'u', 't', 'a', 't', 'e', '_', 's', 't', 'a', 'c', 'k', '_', 'p', 'o', 'p', '_', 'a', 'l', 'l'],
  ['p', 'e', 'e', 'k', '_', ' ', '=', ' ', 'p', 'e', 's', 't', ':', ':', 's', 't', 'a', 'c', 'k', ':', ':', 'p', 'u', 's', 'h', '(', 'r', 'a', 'n', 'g', 'e', ')', ' ', '-', ' ', 'p', 'e', 's', 't', ':', ':', 's', 't', 'a', 'c', 'k', ':', ':', 'p', 'u', 's', 'h', '(', 'r', 'a', 'n', 'g', 'e', ')', ' ', '-', ' ', 'p', 'e', 's', 't', ':', ':', 's', 't', 'a', 'c', 'k', ':', ':', 'p', 'e', 'e', 'k', ' ', '-', ' ', 'p', 'e', 's', 't', ':', ':', 's', 't', 'a', 'c', 'k', ':', ':', 'p', 'e', 'e', 'k'],
  ['p', 'e', 'e', 'k', '_', 'a', 'l', 'l', ' ', '=', ' ', 'p', 'e', 's', 't', ':', ':', 's', 't', 'a', 'c', 'k', ':', ':', 'p', 'u', 's', 'h', '(', 'r', 'a', 'n', 'g', 'e', ')', ' ', '-', ' ', 'p', 'e', 's', 't', ':', ':', 's', 't', 'a', 'c', 'k', ':', ':', 'p', 'u', 's', 'h', '(', 'r', 'a', 'n', 'g', 'e', ')', ' ', '-', ' ', 'p', 'e', 's', 't', ':', ':', 's', 't', 'a', 'c', 'k', ':', ':', 'p', 'e', 'e', 'k', '_', 'a', 'l', 'l'],
  ['p', 'e', 'e', 'k', '_', 's', 'l', 'i', 'c', 'e', '_', '2', '3', ' ', '=', ' ', 'p', 'e', 's', 't', ':', ':', 's', 't', 'a', 'c', 'k', ':', ':', 'p', 'u', 's', 'h', '(', 'r', 'a', 'n', 'g', 'e', ')', ' ', '-', ' ', 'p', 'e', 's', 't', ':', ':', 's', 't', 'a', 'c', 'k', ':', ':', 'p', 'u', 's', 'h', '(', 'r', 'a', 'n', 'g', 'e', ')', ' ', '-', ' ', 'p', 'e', 's', 't', ':', ':', 's', 't', 'a', 'c', 'k', ':', ':', 'p', 'u', 's', 'h', '(', 'r', 'a', 'n', 'g', 'e', ')', ' ', '~', ' ', 'p', 'e', 's', 't', ':', ':', 's', 't', 'a', 'c', 'k', ':', ':', 'p', 'u', 's', 'h', '(', 'r', 'a', 'n', 'g', 'e', ')', ' ', '~', ' ', 'p', 'e', 's', 't', ':', ':', 's', 't', 'a', 'c', 'k', ':', ':', 'p', 'u', 's', 'h', '(', 'r', 'a', 'n', 'g', 'e', ')', ' ', '~', ' ', 'p', 'e', 's', 't', ':', ':', 's', 't', 'a', 'c', 'k', ':', ':', 'p', 'e', 'e', 'k', '[', '1', '.', '.', '-', '2', ']'],
  ['p', 'o', 'p', '_', ' ', '=', ' ', 'p', 'e', 's', 't', ':', ':', 's', 't', 'a', 'c', 'k', ':', ':', 'p', 'u', 's', 'h', '(', 'r', 'a', 'n', 'g', 'e', ')', ' ', '-', ' ', 'p', 'e', 's', 't', ':', ':', 's', 't', 'a', 'c', 'k', ':', ':', 'p', 'u', 's', 'h', '(', 'r', 'a', 'n', 'g', 'e', ')', ' ', '-', ' ', 'p', 'e', 's', 't', ':', ':', 's', 't', 'a', 'c', 'k', ':', ':', 'p', 'o', 'p', ' ', '-', ' ', 'p', 'e', 's', 't', ':', ':', 's', 't', 'a', 'c', 'k', ':', ':', 'p', 'o', 'p'],
  ['p', 'o', 'p', '_', 'a', 'l', 'l', ' ', '=', ' ', 'p', 'e', 's', 't', ':', ':', 's', 't', 'a', 'c', 'k', ':', ':', 'p', 'u', 's', 'h', '(', 'r', 'a', 'n', 'g', 'e', ')', ' ', '-', ' ', 'p', 'e', 's', 't', ':', ':', 's', 't', 'a', 'c', 'k', ':', ':', 'p', 'u', 's', 'h', '(', 'r', 'a', 'n', 'g', 'e', ')', ' ', '-', ' ', 'p', 'e', 's', 't', ':', ':', 's', 't', 'a', 'c', 'k', ':', ':', 'p', 'o', 'p', '_', 'a', 'l', 'l'],
  ['p', 'o', 'p', '_', 'f', 'a', 'i', 'l', ' ', '=', ' ', 'p', 'e', 's', 't', ':', ':', 's', 't', 'a', 'c', 'k', ':', ':', 'p', 'u', 's', 'h', '(', 'r', 'a', 'n', 'g', 'e', ')', ' ', '-', ' ', '!', 'p', 'e', 's', 't', ':', ':', 's', 't', 'a', 'c', 'k', ':', ':', 'p', 'o', 'p', ' ', '-', ' ', 'r', 'a', 'n', 'g', 'e', ' ', '-', ' ', 'p', 'e', 's', 't', ':', ':', 's', 't', 'a', 'c', 'k', ':', ':', 'p', 'o', 'p'],
  ['c', 'h', 'e', 'c', 'k', 'p', 'o', 'i', 'n', 't', '_', 'r', 'e', 's', 't', 'o', 'r', 'e', ' ', '=', ' ', 'p', 'e', 's', 't', ':', ':', 's', 't', 'a', 'c', 'k', ':', ':', 'p', 'u', 's', 'h', '(', '"', '"', ')', ' ', '-', ' ', '(', 'p', 'e', 's', 't', ':', ':', 's', 't', 'a', 'c', 'k', ':', ':', 'p', 'u', 's', 'h', '(', '"', 'a', '"', ')', ' ', '-', ' ', '"', 'b', '"', ' ', '-', ' ', 'p', 'e', 's', 't', ':', ':', 's', 't', 'a', 'c', 'k', ':', ':', 'p', 'o', 'p', ' ', '|', ' ', 'p', 'e', 's', 't', ':', ':', 's', 't', 'a', 'c', 'k', ':', ':', 'd', 'r', 'o', 'p', ' ', '-', ' ', '"', 'b', '"', ' ', '|', ' ', 'p', 'e', 's', 't', ':', ':', 's', 't', 'a', 'c', 'k', ':', ':', 'p', 'o', 'p', ' ', '-', ' ', '"', 'a', '"', ')', ' ', '-', ' ', 'p', 'e', 's', 't', ':', ':', 'e', 'o', 'i'],
  ['l', 'o', 'n', 'g', 'c', 'h', 'o', 'i', 'c', 'e', '_', 'b', 'u', 'i', 'l', 't', 'i', 'n', ' ', '=', ' ', '(', ' ', '"', '0', '1', '"', ' ', '|', ' ', '"', '0', '2', '"', ' ', '|', ' ', '"', '0', '3', '"', ' ', '|', ' ', '"', '0', '4', '"', ' ', '|', ' ', '"', '0', '5', '"', ' ', '|', ' ', '"', '0', '6', '"', ' ', '|', ' ', '"', '0', '7', '"', ' ', '|', ' ', '"', '0', '8', '"', ' ', '|', ' ', '"', '0', '9', '"', ' ', '|', ' ', '"', '1', '0', '"', ' ', '|', ' ', '"', '1', '1', '"', ' ', '|', ' ', '"', '1', '2', '"', ' ', '|', ' ', '"', '1', '3', '"', ' ', '|', ' ', '"', '1', '4', '"', ' ', '|', ' ', '"', '1', '5', '"', ' ', '|', ' ', '"', '1', '6', '"', ')'],
  ['l', 'o', 'n', 'g', 's', 'e', 'q', '_', 'b', 'u', 'i', 'l', 't', 'i', 'n', ' ', '=', ' ', '(', ' ', '"', '0', '1', '"', ' ', '~', ' ', '"', '0', '2', '"', ' ', '~', ' ', '"', '0', '3', '"', ' ', '~', ' ', '"', '0', '4', '"', ' ', '~', ' ', '"', '0', '5', '"', ' ', '~', ' ', '"', '0', '6', '"', ' ', '~', ' ', '"', '0', '7', '"', ' ', '~', ' ', '"', '0', '8', '"', ' ', '~', ' ', '"', '0', '9', '"', ' ', '~', ' ', '"', '1', '0', '"', ' ', '~', ' ', '"', '1', '1', '"', ' ', '~', ' ', '"', '1', '2', '"', ' ', '~', ' ', '"', '1', '3', '"', ' ', '~', ' ', '"', '1', '4', '"', ' ', '~', ' ', '"', '1', '5', '"', ' ', '~', ' ', '"', '1', '6', '"', ')'],
  ['l', 'o', 'n', 'g', 'c', 'h', 'o', 'i', 'c', 'e', '_', 'c', 'r', 'i', 't', 'i', 'c', 'a', 'l', ' ', '=', ' ', '(', ' ', '"', '0', '1', '"', ' ', '|', ' ', '"', '0', '2', '"', ' ', '|', ' ', '"', '0', '3', '"', ' ', '|', ' ', '"', '0', '4', '"', ' ', '|', ' ', '"', '0', '5', '"', ' ', '|', ' ', '"', '0', '6', '"', ' ', '|', ' ', '"', '0', '7', '"', ' ', '|', ' ', '"', '0', '8', '"', ' ', '|', ' ', '"', '0', '9', '"', ' ', '|', ' ', '"', '1', '0', '"', ' ', '|', ' ', '"', '1', '1', '"', ' ', '|', ' ', '"', '1', '2', '"', ' ', '|', ' ', '"', '1', '3', '"', ' ', '|', ' ', '"', '1', '4', '"', ' ', '|', ' ', '"', '1', '5', '"', ' ', '|', ' ', '"', '1', '6', '"', ' ', '|', ' ', '"', '1', '7', '"', ')'],
  ['l', 'o', 'n', 'g', 's', 'e', 'q', '_', 'c', 'r', 'i', 't', 'i', 'c', 'a', 'l', ' ', '=', ' ', '(', ' ', '"', '0', '1', '"', ' ', '~', ' ', '"', '0', '2', '"', ' ', '~', ' ', '"', '0', '3', '"', ' ', '~', ' ', '"', '0', '4', '"', ' ', '~', ' ', '"', '0', '5', '"', ' ', '~', ' ', '"', '0', '6', '"', ' ', '~', ' ', '"', '0', '7', '"', ' ', '~', ' ', '"', '0', '8', '"', ' ', '~', ' ', '"', '0', '9', '"', ' ', '~', ' ', '"', '1', '0', '"', ' ', '~', ' ', '"', '1', '1', '"', ' ', '~', ' ', '"', '1', '2', '"', ' ', '~', ' ', '"', '1', '3', '"', ' ', '~', ' ', '"', '1', '4', '"', ' ', '~', ' ', '"', '1', '5', '"', ' ', '~', ' ', '"', '1', '6', '"', ' ', '~', ' ', '"', '1', '7', '"', ')'],
  ['l', 'o', 'n', 'g', 'c', 'h', 'o', 'i', 'c', 'e', '_', 'j', 'u', 'm', 'p', ' ', '=', ' ', '(', ' ', '"', '0', '1', '"', ' ', '|', ' ', '"', '0', '2', '"', ' ', '|', ' ', '"', '0', '3', '"', ' ', '|', ' ', '"', '0', '4', '"', ' ', '|', ' ', '"', '0', '5', '"', ' ', '|', ' ', '"', '0', '6', '"', ' ', '|', ' ', '"', '0', '7', '"', ' ', '|', ' ', '"', '0', '8', '"', ' ', '|', ' ', '"', '0', '9', '"', ' ', '|', ' ', '"', '1', '0', '"', ' ', '|', ' ', '"', '1', '1', '"', ' ', '|', ' ', '"', '1', '2', '"', ' ', '|', ' ', '"', '1', '3', '"', ' ', '|', ' ', '"', '1', '4', '"', ' ', '|', ' ', '"', '1', '5', '"', ' ', '|', ' ', '"', '1', '6', '"', ' ', '|', ' ', '"', '1', '7', '"', ' ', '|', ' ', '"', '1', '8', '"', ' ', '|', ' ', '"', '1', '9', '"', ')'],
  ['l', 'o', 'n', 'g', 's', 'e', 'q', '_', 'j', 'u', 'm', 'p', ' ', '=', ' ', '(', ' ', '"', '0', '1', '"', ' ', '~', ' ', '"', '0', '2', '"', ' ', '~', ' ', '"', '0', '3', '"', ' ', '~', ' ', '"', '0', '4', '"', ' ', '~', ' ', '"', '0', '5', '"', ' ', '~', ' ', '"', '0', '6', '"', ' ', '~', ' ', '"', '0', '7', '"', ' ', '~', ' ', '"', '0', '8', '"', ' ', '~', ' ', '"', '0', '9', '"', ' ', '~', ' ', '"', '1', '0', '"', ' ', '~', ' ', '"', '1', '1', '"', ' ', '~', ' ', '"', '1', '2', '"', ' ', '~', ' ', '"', '1', '3', '"', ' ', '~', ' ', '"', '1', '4', '"', ' ', '~', ' ', '"', '1', '5', '"', ' ', '~', ' ', '"', '1', '6', '"', ' ', '~', ' ', '"', '1', '7', '"', ' ', '~', ' ', '"', '1', '8', '"', ' ', '~', ' ', '"', '1', '9', '"', ')'],
  ['/', '*'],
  ['a', 's', 'c', 'i', 'i', '_', 'd', 'i', 'g', 'i', 't', 's', ' ', '=', ' ', 'A', 'S', 'C', 'I', 'I', '_', 'D', 'I', 'G', 'I', 'T', '+'],
  ['a', 's', 'c', 'i', 'i', '_', 'n', 'o', 'n', 'z', 'e', 'r', 'o', '_', 'd', 'i', 'g', 'i', 't', 's', ' ', '=', ' ', 'A', 'S', 'C', 'I', 'I', '_', 'N', 'O', 'N', 'Z', 'E', 'R', 'O', '_', 'D', 'I', 'G', 'I', 'T', '+'],
  ['a', 's', 'c', 'i', 'i', '_', 'b', 'i', 'n', '_', 'd', 'i', 'g', 'i', 't', 's', ' ', '=', ' ', 'A', 'S', 'C', 'I', 'I', '_', 'B', 'I', 'N', '_', 'D', 'I', 'G', 'I', 'T', '+'],
  ['a', 's', 'c', 'i', 'i', '_', 'o', 'c', 't', '_', 'd', 'i', 'g', 'i', 't', 's', ' ', '=', ' ', 'A', 'S', 'C', 'I', 'I', '_', 'O', 'C', 'T', '_', 'D', 'I', 'G', 'I', 'T', '+'],
  ['a', 's', 'c', 'i', 'i', '_', 'h', 'e', 'x', '_', 'd', 'i', 'g', 'i', 't', 's', ' ', '=', ' ', 'A', 'S', 'C', 'I', 'I', '_', 'H', 'E', 'X', '_', 'D', 'I', 'G', 'I', 'T', '+'],
  ['a', 's', 'c', 'i', 'i', '_', 'a', 'l', 'p', 'h', 'a', '_', 'l', 'o', 'w', 'e', 'r', 's', ' ', '=', ' ', 'A', 'S', 'C', 'I', 'I', '_', 'A', 'L', 'P', 'H', 'A', '_', 'L', 'O', 'W', 'E', 'R', '+'],
  ['a', 's', 'c', 'i', 'i', '_', 'a', 'l', 'p', 'h', 'a', '_', 'u', 'p', 'p', 'e', 'r', 's', ' ', '=', ' ', 'A', 'S', 'C', 'I', 'I', '_', 'A', 'L', 'P', 'H', 'A', '_', 'U', 'P', 'P', 'E', 'R', '+'],
  ['a', 's', 'c', 'i', 'i', '_', 'a', 'l', 'p', 'h', 'a', 's', ' ', '=', ' ', 'A', 'S', 'C', 'I', 'I', '_', 'A', 'L', 'P', 'H', 'A', '+'],
  ['a', 's', 'c', 'i', 'i', '_', 'a', 'l', 'p', 'h', 'a', 'n', 'u', 'm', 'e', 'r', 'i', 'c', 's', ' ', '=', ' ', 'A', 'S', 'C', 'I', 'I', '_', 'A', 'L', 'P', 'H', 'A', 'N', 'U', 'M', 'E', 'R', 'I', 'C', '+'],
  ['a', 's', 'c', 'i', 'i', 's', ' ', '=', ' ', 'A', 'S', 'C', 'I', 'I', '+'],
  ['n', 'e', 'w', 'l', 'i', 'n', 'e', ' ', '=', ' ', 'N', 'E', 'W', 'L', 'I', 'N', 'E', '+'],
  ['u', 'n', 'i', 'c', 'o', 'd', 'e', ' ', '=', ' ', 'X', 'I', 'D', '_', 'S', 'T', 'A', 'R', 'T', ' ', '-', ' ', 'X', 'I', 'D', '_', 'C', 'O', 'N', 'T', 'I', 'N', 'U', 'E', '*'],
  ['S', 'Y', 'M', 'B', 'O', 'L', ' ', '=', ' ', '"', 's', 'h', 'a', 'd', 'o', 'w', 's', ' ', 'b', 'u', 'i', 'l', 't', 'i', 'n', '"'],
  [],
  ['h', 'a', 'n', ' ', '=', ' ', 'H', 'A', 'N', '+'],
  ['h', 'a', 'n', 'g', 'u', 'l', ' ', '=', ' ', 'H', 'A', 'N', 'G', 'U', 'L', '+'],
  ['h', 'i', 'r', 'a', 'g', 'a', 'n', 'a', ' ', '=', ' ', 'H', 'I', 'R', 'A', 'G', 'A', 'N', 'A', '+'],
  ['a', 'r', 'a', 'b', 'i', 'c', ' ', '=', ' ', 'A', 'R', 'A', 'B', 'I', 'C', '+'],
  ['e', 'm', 'o', 'j', 'i', ' ', '=', ' ', 'E', 'M', 'O', 'J', 'I', '+'],
  ['*', '/'],
  [],
  ['~', ' ', '=', ' ', '(', '"', ' ', '"', ' ', '|', ' ', '"', '$', '"', ')', '*'],
  ['^', ' ', '=', ' ', '(', '"', ' ', '"', ' ', '|', ' ', '"', '$', '"', ')', '+'],
  [],
  ['/', '/', ' ', 'L', 'i', 'n', 'e', ' ', 'c', 'o', 'm', 'm', 'e', 'n', 't'],
  [],
  ['/', '*', ' ', '1', '-', 'l', 'i', 'n', 'e', ' ', 'm', 'u', 'l', 't', 'i', 'l', 'i', 'n', 'e', ' ', 'c', 'o', 'm', 'm', 'e', 'n', 't', ' ', '*', '/'],
  [],
  ['/', '*'],
  ['\t', 'N', '-', 'l', 'i', 'n', 'e', ' ', 'm', 'u', 'l', 't', 'i', 'l', 'i', 'n', 'e', ' ', 'c', 'o', 'm', 'm', 'e', 'n', 't'],
  ['*', '/'],
  [],
  ['/', '*'],
  ['\t', '/', '/', ' ', 'L', 'i', 'n', 'e', ' ', 'c', 'o', 'm', 'm', 'e', 'n', 't', ' ', 'i', 'n', 's', 'i', 'd', 'e', ' ', 'm', 'u', 'l', 't', 'i', 'l', 'i', 'n', 'e'],
  [],
  ['\t', '/', '*'],
  ['\t', '\t', '(', 'M', 'u', 'l', 't', 'i', 'l', 'i', 'n', 'e', ' ', 'i', 'n', 's', 'i', 'd', 'e', ')', ' ', 'm', 'u', 'l', 't', 'i', 'l', 'i', 'n', 'e'],
  ['\t', '*', '/'],
  [],
  ['\t', 'I', 'n', 'v', 'a', 'l', 'i', 'd', ' ', 's', 'e', 'g', 'm', 'e', 'n', 't', ' ', 'o', 'f', ' ', 'g', 'r', 'a', 'm', 'm', 'a', 'r', ' ', 'b', 'e', 'l', 'o', 'w', ' ', '(', 'r', 'e', 'p', 'e', 'a', 't', 'e', 'd', ' ', 'r', 'u', 'l', 'e', ')'],
  [],
  ['\t', 'W', 'H', 'I', 'T', 'E', 'S', 'P', 'A', 'C', 'E', ' ', '=', ' ', '_', '"', 'h', 'i', '"'],
  ['*', '/'],
  []]

set_option maxRecDepth 4000 in
theorem chars_eq : Spelled lines chars := ⟨rfl, rfl, rfl, rfl, rfl, rfl, rfl, rfl, rfl, rfl, rfl, rfl, rfl, rfl, rfl, rfl, rfl, rfl, rfl, rfl, rfl, rfl, rfl, rfl, rfl, rfl, rfl, rfl, rfl, rfl, rfl, rfl, rfl, rfl, rfl, rfl, rfl, rfl, rfl, rfl, rfl, rfl, rfl, rfl, rfl, rfl, rfl, rfl, rfl, rfl, rfl, rfl, rfl, rfl, rfl, rfl, rfl, rfl, rfl, rfl, rfl, rfl, rfl, rfl, rfl, rfl, rfl, rfl, rfl, rfl, rfl, rfl, rfl, rfl, rfl, rfl, rfl, rfl, rfl, rfl, rfl, rfl, rfl, rfl, rfl, rfl, rfl, rfl, rfl, rfl, rfl, rfl, rfl, rfl, rfl, rfl, rfl, rfl, rfl, rfl, trivial⟩

theorem grammar_read : readText 600 text = .ok (some items) := readsAs_eq chars_eq (by decide +kernel)

end Pest3.Stk
