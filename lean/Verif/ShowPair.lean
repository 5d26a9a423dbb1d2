import Verif.Pairs
import Verif.RuleEnum

/-!
# Model of the display of token trees (`core/src/token/mod.rs:42-56`)
-/

namespace Pest3

mutual
/-- `Display for Pair` (`core/src/token/mod.rs:42-56`); `sh` is the `Debug` formatting of the rule enumeration. -/
def Pair.show {R : Type} (sh : R → Text) : Pair R → Text
  | .mk r a b cs =>
    -- line 44
    sh r ++ (['('] ++ (showNat a ++ ([',', ' '] ++ (showNat b ++ ([',', ' ', '['] ++
      -- lines 45-51, line 52
      (Pair.showFirst sh cs ++ [']', ')']))))))
/-- The first child is written as it is (lines 46-48). -/
def Pair.showFirst {R : Type} (sh : R → Text) : List (Pair R) → Text
  | [] => []
  | p :: ps => p.show sh ++ Pair.showRest sh ps
/-- The others after a comma (lines 49-51). -/
def Pair.showRest {R : Type} (sh : R → Text) : List (Pair R) → Text
  | [] => []
  | p :: ps => [',', ' '] ++ (p.show sh ++ Pair.showRest sh ps)
end

namespace Gen

/-- `Debug` of the generated enumerations (derived, `generator/src/common.rs:94`): the name of the variant, without `r#`, and in
parentheses the payload of the variant of an import. -/
def RuleVal.debug : RuleVal → Text
  | .eoi => "EOI".toList
  | .rule x => x
  | .sub x v => x ++ (['('] ++ (v.debug ++ [')']))

end Gen
end Pest3
