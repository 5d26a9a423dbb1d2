import Verif.JsonExample
import Verif.FastRead
import Verif.ExprEq

/-!
# Reading the two files of the JSON grammar
-/

namespace Pest3.Json
open Pest3 Pest3.Gen Pest3.Load

/-- The items are the same. -/
def sameItem : FileItem → FileItem → Bool
  | .doc, .doc => true
  | .rule r, .rule r' => decide (r.name = r'.name) && decide (r.args = r'.args) && r.node.same r'.node && decide (r.silent = r'.silent)
  | .imp i, .imp j => decide (i.modPath = j.modPath) && decide (i.file = j.file) && decide (i.alias = j.alias)
  | _, _ => false

/-- … all of them. -/
def sameItems : List FileItem → List FileItem → Bool
  | [], [] => true
  | a :: l, b :: m => sameItem a b && sameItems l m
  | _, _ => false

theorem sameItem_eq {a b : FileItem} (h : sameItem a b = true) : a = b := by
  match a, b, h with
  | .doc, .doc, _ => rfl
  | .rule ⟨n, as, e, s⟩, .rule ⟨n', as', e', s'⟩, h =>
    simp only [sameItem, Bool.and_eq_true, decide_eq_true_eq] at h
    obtain ⟨⟨⟨rfl, rfl⟩, h⟩, rfl⟩ := h
    rw [Expr.same_eq h]
  | .imp ⟨p, f, a⟩, .imp ⟨p', f', a'⟩, h =>
    simp only [sameItem, Bool.and_eq_true, decide_eq_true_eq] at h
    obtain ⟨⟨rfl, rfl⟩, rfl⟩ := h
    rfl

theorem sameItems_eq : ∀ {l m : List FileItem}, sameItems l m = true → l = m
  | [], [], _ => rfl
  | a :: l, b :: m, h => by
    simp only [sameItems, Bool.and_eq_true] at h
    rw [sameItem_eq h.1, sameItems_eq h.2]

/-- The text with these lines, a line feed between each two. -/
def fileChars : List Text → Text
  | [] => []
  | [l] => l
  | l :: rest => l ++ '\n' :: fileChars rest

/-- The lines are these characters. -/
def Spelled : List String → List Text → Prop
  | [], [] => True
  | s :: l, t :: m => s = String.ofList t ∧ Spelled l m
  | _, _ => False

theorem fileText_chars : ∀ {l : List String} {m : List Text}, Spelled l m → fileText l = fileChars m
  | [], [], _ => rfl
  | [s], [t], h => by
    rw [h.1]
    exact String.toList_ofList
  | s :: s' :: l, t :: t' :: m, h => by
    have := fileText_chars (l := s' :: l) (m := t' :: m) h.2
    simp only [fileText, fileChars, this, h.1, String.toList_ofList]

/-- The text with these lines is read as these items. -/
def readsAs (n : Nat) (ls : List Text) (l : List FileItem) : Bool := match readTextP n (fileChars ls) with
  | .ok (some l') => sameItems l' l
  | _ => false

theorem readsAs_eq {n : Nat} {lines : List String} {ls : List Text} {l : List FileItem} (hc : Spelled lines ls) (h : readsAs n ls l = true) : readText n (fileText lines) = .ok (some l) := by
  rw [readText_flat, fileText_chars hc]
  unfold readsAs at h
  split at h
  · rename_i l' h'; rw [h', sameItems_eq h]
  · cases h

/-- The characters of the lines of `derive/tests/common/base.pest`. -/
def baseChars : List Text := [
  ['/', '/', ' ', 'F', 'I', 'X', 'M', 'E', ':', ' ', 's', 'h', 'o', 'u', 'l', 'd', ' ', 'b', 'e', ' ', 'u', 'n', 'd', 'e', 'r', ' ', 'p', 'e', 's', 't', ':', ':', '*'],
  ['a', 's', 'c', 'i', 'i', '_', 'h', 'e', 'x', '_', 'd', 'i', 'g', 'i', 't', ' ', '=', ' ', 'a', 's', 'c', 'i', 'i', '_', 'd', 'i', 'g', 'i', 't', ' ', '|', ' ', '"', 'A', '"', ' ', '|', ' ', '"', 'B', '"', ' ', '|', ' ', '"', 'C', '"', ' ', '|', ' ', '"', 'D', '"', ' ', '|', ' ', '"', 'E', '"', ' ', '|', ' ', '"', 'F', '"'],
  ['a', 's', 'c', 'i', 'i', '_', 'd', 'i', 'g', 'i', 't', ' ', '=', ' ', '"', '0', '"', ' ', '|', ' ', '"', '1', '"', ' ', '|', ' ', '"', '2', '"', ' ', '|', ' ', '"', '3', '"', ' ', '|', ' ', '"', '4', '"', ' ', '|', ' ', '"', '5', '"', ' ', '|', ' ', '"', '6', '"', ' ', '|', ' ', '"', '7', '"', ' ', '|', ' ', '"', '8', '"', ' ', '|', ' ', '"', '9', '"'],
  ['a', 's', 'c', 'i', 'i', '_', 'n', 'o', 'n', 'z', 'e', 'r', 'o', '_', 'd', 'i', 'g', 'i', 't', ' ', '=', ' ', '"', '1', '"', ' ', '|', ' ', '"', '2', '"', ' ', '|', ' ', '"', '3', '"', ' ', '|', ' ', '"', '4', '"', ' ', '|', ' ', '"', '5', '"', ' ', '|', ' ', '"', '6', '"', ' ', '|', ' ', '"', '7', '"', ' ', '|', ' ', '"', '8', '"', ' ', '|', ' ', '"', '9', '"'],
  [],
  ['w', 'h', 'i', 't', 'e', 's', 'p', 'a', 'c', 'e', 's', ' ', ' ', ' ', '=', ' ', ' ', '_', '{', ' ', '"', ' ', '"', ' ', '|', ' ', '"', '\\', 't', '"', ' ', '|', ' ', 'p', 'e', 's', 't', ':', ':', 'n', 'e', 'w', 'l', 'i', 'n', 'e', ' ', '}'],
  ['i', 'n', 't', ' ', ' ', ' ', ' ', ' ', ' ', ' ', ' ', ' ', ' ', '=', ' ', ' ', 'a', 's', 'c', 'i', 'i', '_', 'n', 'o', 'n', 'z', 'e', 'r', 'o', '_', 'd', 'i', 'g', 'i', 't', ' ', '-', ' ', 'a', 's', 'c', 'i', 'i', '_', 'd', 'i', 'g', 'i', 't', '+', ' ', '|', ' ', 'a', 's', 'c', 'i', 'i', '_', 'd', 'i', 'g', 'i', 't']]

theorem baseChars_eq : Spelled baseLines baseChars := ⟨rfl, rfl, rfl, rfl, rfl, rfl, rfl, trivial⟩

/-- The characters of the lines of `derive/tests/json.pest`. -/
def jsonChars : List Text := [
  ['/', '/', '!', ' ', 'A', ' ', 'p', 'a', 'r', 's', 'e', 'r', ' ', 'f', 'o', 'r', ' ', 'J', 'S', 'O', 'N', ' ', 'f', 'i', 'l', 'e', '.'],
  ['/', '/', '!'],
  ['/', '/', '!', ' ', 'A', 'n', 'd', ' ', 't', 'h', 'i', 's', ' ', 'i', 's', ' ', 'a', ' ', 'e', 'x', 'a', 'm', 'p', 'l', 'e', ' ', 'f', 'o', 'r', ' ', 'J', 'S', 'O', 'N', ' ', 'p', 'a', 'r', 's', 'e', 'r', '.'],
  ['/', '/', '!'],
  ['/', '/', '!', ' ', 'C', 'r', 'e', 'a', 't', 'e', 'd', ' ', 'b', 'y', ' ', '[', 'T', 'o', 'm', 'a', 's', ' ', 'T', 'a', 'u', 'b', 'e', 'r', ']', '(', 'h', 't', 't', 'p', 's', ':', '/', '/', 'g', 'i', 't', 'h', 'u', 'b', '.', 'c', 'o', 'm', '/', 't', 'o', 'm', 't', 'a', 'u', ')', '.'],
  ['/', '/', '!', ' ', 'M', 'o', 'd', 'i', 'f', 'i', 'e', 'd', ' ', 'b', 'y', ' ', '[', 'B', 'o', 'y', 'i', ' ', 'H', 'u', 'a', 'n', 'g', ']', '(', 'h', 't', 't', 'p', 's', ':', '/', '/', 'g', 'i', 't', 'h', 'u', 'b', '.', 'c', 'o', 'm', '/', 'T', 'h', 'e', 'V', 'e', 'r', 'y', 'D', 'a', 'r', 'k', 'n', 'e', 's', 's', ')', '.'],
  [],
  ['/', '/', ' ', 'F', 'I', 'X', 'M', 'E', ':', ' ', 's', 'o', 'm', 'e', ' ', 's', 'h', 'o', 'u', 'l', 'd', ' ', 'b', 'e', ' ', 'u', 'n', 'd', 'e', 'r', ' ', 'p', 'e', 's', 't', ':', ':', '*'],
  ['u', 's', 'e', ' ', 'c', 'o', 'm', 'm', 'o', 'n', ':', ':', 'b', 'a', 's', 'e', ' ', 'a', 's', ' ', 'p'],
  [],
  ['j', 's', 'o', 'n', ' ', '=', ' ', 'p', 'e', 's', 't', ':', ':', 's', 'o', 'i', ' ', '~', ' ', 'v', 'a', 'l', 'u', 'e', ' ', '~', ' ', 'p', 'e', 's', 't', ':', ':', 'e', 'o', 'i'],
  [],
  ['/', '/', '/', ' ', 'M', 'a', 't', 'c', 'h', 'e', 's', ' ', 'o', 'b', 'j', 'e', 'c', 't', ',', ' ', 'e', '.', 'g', '.', ':', ' ', '`', '{', ' ', '"', 'f', 'o', 'o', '"', ':', ' ', '"', 'b', 'a', 'r', '"', ' ', '}', '`'],
  ['/', '/', '/', ' ', 'F', 'o', 'o', 'b', 'a', 'r'],
  ['o', 'b', 'j', 'e', 'c', 't', ' ', '=', ' ', '"', '{', '"', ' ', '~', ' ', 'p', 'a', 'i', 'r', '^', '*', ' ', '~', ' ', '"', '}', '"'],
  ['p', 'a', 'i', 'r', ' ', ' ', ' ', '=', ' ', 's', 't', 'r', 'i', 'n', 'g', ' ', '~', ' ', '"', ':', '"', ' ', '~', ' ', 'v', 'a', 'l', 'u', 'e'],
  [],
  ['a', 'r', 'r', 'a', 'y', ' ', '=', ' ', '"', '[', '"', ' ', '~', ' ', 'v', 'a', 'l', 'u', 'e', ' ', '~', ' ', '(', '"', ',', '"', ' ', '~', ' ', 'v', 'a', 'l', 'u', 'e', ')', '*', ' ', '~', ' ', '"', ']', '"', ' ', '|', ' ', '"', '[', '"', ' ', '~', ' ', '"', ']', '"'],
  [],
  [],
  ['/', '/', '/', '/', '/', '/', '/', '/', '/', '/', '/', '/', '/', '/', '/', '/', '/', '/', '/', '/', '/', '/'],
  ['/', '/', '/', ' ', 'M', 'a', 't', 'c', 'h', 'e', 's', ' ', 'v', 'a', 'l', 'u', 'e', ',', ' ', 'e', '.', 'g', '.', ':', ' ', '`', '"', 'f', 'o', 'o', '"', '`', ',', ' ', '`', '4', '2', '`', ',', ' ', '`', 't', 'r', 'u', 'e', '`', ',', ' ', '`', 'n', 'u', 'l', 'l', '`', ',', ' ', '`', '[', ']', '`', ',', ' ', '`', '{', '}', '`', '.'],
  ['/', '/', '/', '/', '/', '/', '/', '/', '/', '/', '/', '/', '/', '/', '/', '/', '/', '/', '/', '/', '/', '/'],
  ['v', 'a', 'l', 'u', 'e', ' ', '=', ' ', 's', 't', 'r', 'i', 'n', 'g', ' ', '|', ' ', 'n', 'u', 'm', 'b', 'e', 'r', ' ', '|', ' ', 'o', 'b', 'j', 'e', 'c', 't', ' ', '|', ' ', 'a', 'r', 'r', 'a', 'y', ' ', '|', ' ', 'b', 'o', 'o', 'l', ' ', '|', ' ', 'n', 'u', 'l', 'l'],
  [],
  ['s', 't', 'r', 'i', 'n', 'g', ' ', ' ', '=', ' ', '"', '\\', '"', '"', ' ', '-', ' ', 'i', 'n', 'n', 'e', 'r', ' ', '-', ' ', '"', '\\', '"', '"'],
  ['i', 'n', 'n', 'e', 'r', ' ', ' ', ' ', '=', ' ', '(', '!', '(', '"', '\\', '"', '"', ' ', '|', ' ', '"', '\\', '\\', '"', ')', ' ', '-', ' ', 'p', 'e', 's', 't', ':', ':', 'a', 'n', 'y', ')', '*', ' ', '-', ' ', '(', 'e', 's', 'c', 'a', 'p', 'e', ' ', '~', ' ', 'i', 'n', 'n', 'e', 'r', ')', '?'],
  ['e', 's', 'c', 'a', 'p', 'e', ' ', ' ', '=', ' ', '"', '\\', '\\', '"', ' ', '-', ' ', '(', '"', '\\', '"', '"', ' ', '|', ' ', '"', '\\', '\\', '"', ' ', '|', ' ', '"', '/', '"', ' ', '|', ' ', '"', 'b', '"', ' ', '|', ' ', '"', 'f', '"', ' ', '|', ' ', '"', 'n', '"', ' ', '|', ' ', '"', 'r', '"', ' ', '|', ' ', '"', 't', '"', ' ', '|', ' ', 'u', 'n', 'i', 'c', 'o', 'd', 'e', ')'],
  ['u', 'n', 'i', 'c', 'o', 'd', 'e', ' ', '=', ' ', '"', 'u', '"', ' ', '-', ' ', 'p', ':', ':', 'a', 's', 'c', 'i', 'i', '_', 'h', 'e', 'x', '_', 'd', 'i', 'g', 'i', 't', '{', '4', '}'],
  [],
  ['n', 'u', 'm', 'b', 'e', 'r', ' ', '=', ' ', '"', '-', '"', '?', ' ', '-', ' ', 'i', 'n', 't', ' ', '-', ' ', '(', '"', '.', '"', ' ', '~', ' ', 'p', ':', ':', 'a', 's', 'c', 'i', 'i', '_', 'd', 'i', 'g', 'i', 't', '+', ' ', '~', ' ', 'e', 'x', 'p', '?', ' ', '|', ' ', 'e', 'x', 'p', ')', '?'],
  ['i', 'n', 't', ' ', ' ', ' ', ' ', '=', ' ', '"', '0', '"', ' ', '|', ' ', 'p', ':', ':', 'a', 's', 'c', 'i', 'i', '_', 'n', 'o', 'n', 'z', 'e', 'r', 'o', '_', 'd', 'i', 'g', 'i', 't', ' ', '-', ' ', 'p', ':', ':', 'a', 's', 'c', 'i', 'i', '_', 'd', 'i', 'g', 'i', 't', '*'],
  ['e', 'x', 'p', ' ', ' ', ' ', ' ', '=', ' ', '(', '"', 'E', '"', ' ', '|', ' ', '"', 'e', '"', ')', ' ', '-', ' ', '(', '"', '+', '"', ' ', '|', ' ', '"', '-', '"', ')', '?', ' ', '-', ' ', 'p', ':', ':', 'a', 's', 'c', 'i', 'i', '_', 'd', 'i', 'g', 'i', 't', '+'],
  [],
  ['b', 'o', 'o', 'l', ' ', '=', ' ', '"', 't', 'r', 'u', 'e', '"', ' ', '|', ' ', '"', 'f', 'a', 'l', 's', 'e', '"'],
  [],
  ['n', 'u', 'l', 'l', ' ', '=', ' ', '"', 'n', 'u', 'l', 'l', '"'],
  [],
  ['s', 'p', 'a', 'c', 'e', ' ', '=', ' ', '"', ' ', '"', ' ', '|', ' ', '"', '\\', 't', '"', ' ', '|', ' ', '"', '\\', 'r', '"', ' ', '|', ' ', '"', '\\', 'n', '"'],
  ['~', ' ', '=', ' ', 's', 'p', 'a', 'c', 'e', '*'],
  ['^', ' ', '=', ' ', 's', 'p', 'a', 'c', 'e', '*', ' ', '-', ' ', '"', ',', '"', ' ', '-', ' ', 's', 'p', 'a', 'c', 'e', '*'],
  []]

theorem jsonChars_eq : Spelled jsonLines jsonChars := ⟨rfl, rfl, rfl, rfl, rfl, rfl, rfl, rfl, rfl, rfl, rfl, rfl, rfl, rfl, rfl, rfl, rfl, rfl, rfl, rfl, rfl, rfl, rfl, rfl, rfl, rfl, rfl, rfl, rfl, rfl, rfl, rfl, rfl, rfl, rfl, rfl, rfl, rfl, rfl, rfl, rfl, rfl, trivial⟩

theorem base_read : readText 400 baseText = .ok (some baseItems) := readsAs_eq baseChars_eq (by decide +kernel)

theorem json_read : readText 400 jsonText = .ok (some jsonItems) := readsAs_eq jsonChars_eq (by decide +kernel)

end Pest3.Json
