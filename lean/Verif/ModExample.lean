import Verif.JsonExample

/-!
# The grammars of the tests of `rules_mod` (`derive/tests/custom_rules_mod.rs`)
-/

namespace Pest3.Place
open Pest3 Pest3.Gen Pest3.Load Pest3.Json

/-- The lines of the first grammar (`derive/tests/custom_rules_mod.rs:11-13`). -/
def customLines : List String := ["", "    main = \"hello\"", "    "]

/-- The lines of the second grammar (`derive/tests/custom_rules_mod.rs:30-32`). -/
def usualLines : List String := ["", "    greeting = \"world\"", "    "]

def customRules : List Rule := [⟨['m', 'a', 'i', 'n'], [], .str ['h', 'e', 'l', 'l', 'o'], false⟩]
def usualRules : List Rule := [⟨['g', 'r', 'e', 'e', 't', 'i', 'n', 'g'], [], .str ['w', 'o', 'r', 'l', 'd'], false⟩]

/-- The text of the first grammar. -/
def customText : Text := fileText customLines
/-- The text of the second grammar. -/
def usualText : Text := fileText usualLines

end Pest3.Place
