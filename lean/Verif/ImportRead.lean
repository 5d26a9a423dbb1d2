import Verif.ImportExample
import Verif.JsonRead

/-!
# Reading the text of this grammar
-/

namespace Pest3.Imported
open Pest3 Pest3.Gen Pest3.Load Pest3.Json

/-- The characters of the lines. -/
def importChars : List Text := [
  [],
  ['u', 's', 'e', ' ', 't', 'e', 's', 't', 's', ':', ':', 'g', 'r', 'a', 'm', 'm', 'a', 'r'],
  ['m', 'a', 'i', 'n', ' ', '=', ' ', 'g', 'r', 'a', 'm', 'm', 'a', 'r', ':', ':', 's', 't', 'r', 'i', 'n', 'g'],
  []]

theorem importChars_eq : Spelled importLines importChars := ⟨rfl, rfl, rfl, rfl, trivial⟩

theorem import_read : readText 400 importText = .ok (some importItems) := readsAs_eq importChars_eq (by decide +kernel)

end Pest3.Imported
