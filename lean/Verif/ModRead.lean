import Verif.ModExample
import Verif.JsonRead

/-!
# Reading the texts of these grammars
-/

namespace Pest3.Place
open Pest3 Pest3.Gen Pest3.Load Pest3.Json

/-- The characters of the lines. -/
def customChars : List Text := [
  [],
  [' ', ' ', ' ', ' ', 'm', 'a', 'i', 'n', ' ', '=', ' ', '"', 'h', 'e', 'l', 'l', 'o', '"'],
  [' ', ' ', ' ', ' ']]

theorem customChars_eq : Spelled customLines customChars := ⟨rfl, rfl, rfl, trivial⟩

/-- The characters of the lines. -/
def usualChars : List Text := [
  [],
  [' ', ' ', ' ', ' ', 'g', 'r', 'e', 'e', 't', 'i', 'n', 'g', ' ', '=', ' ', '"', 'w', 'o', 'r', 'l', 'd', '"'],
  [' ', ' ', ' ', ' ']]

theorem usualChars_eq : Spelled usualLines usualChars := ⟨rfl, rfl, rfl, trivial⟩

theorem custom_read : readText 400 customText = .ok (some (customRules.map .rule)) := readsAs_eq customChars_eq (by decide +kernel)

theorem usual_read : readText 400 usualText = .ok (some (usualRules.map .rule)) := readsAs_eq usualChars_eq (by decide +kernel)

end Pest3.Place
