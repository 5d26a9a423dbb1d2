import Verif.Collect

/-!
# Specification of the text of an error message

What a reader sees: under the part of the line before the position, one line per group of attempts, saying which rules
were expected and which were unexpected there, and one line per illegal stack access.
-/

namespace Pest3

/-- The items separated by commas. -/
inductive Joined : List Text → Text → Prop
  | nil : Joined [] []
  | one (x : Text) : Joined [x] x
  | cons {x y l t} : Joined (y :: l) t → Joined (x :: y :: l) (x ++ ", ".toList ++ t)

/-- A bracketed list of the rules in `s`, each once, in the order of the rule enum. -/
def ShowsSet (sh : Label → Text) (s : Label → Prop) (t : Text) : Prop :=
  ∃ (l : List Label) (u : Text), l.Pairwise (· < ·) ∧ (∀ x, x ∈ l ↔ s x) ∧ Joined (l.map sh) u ∧ t = ['['] ++ u ++ [']']

/-- The sentence about the expected and the unexpected rules. -/
inductive Sentence (sh : Label → Text) (expected unexpected : Label → Prop) : Text → Prop
  | unknown : (∀ x, ¬ expected x) → (∀ x, ¬ unexpected x) →
      Sentence sh expected unexpected "Unknown error (no rule tracked)".toList
  | expected {t} : (∃ x, expected x) → (∀ x, ¬ unexpected x) → ShowsSet sh expected t →
      Sentence sh expected unexpected ("Expected ".toList ++ t)
  | unexpected {t} : (∀ x, ¬ expected x) → (∃ x, unexpected x) → ShowsSet sh unexpected t →
      Sentence sh expected unexpected ("Unexpected ".toList ++ t)
  | both {t t'} : (∃ x, expected x) → (∃ x, unexpected x) → ShowsSet sh expected t → ShowsSet sh unexpected t' →
      Sentence sh expected unexpected ("Unexpected ".toList ++ t' ++ ", expected ".toList ++ t)

/-- An integer in decimal. -/
def decimal (i : Int) : Text := if i < 0 then '-' :: Nat.toDigits 10 i.natAbs else Nat.toDigits 10 i.natAbs

/-- The sentence about an illegal stack access or repetition. -/
inductive Illegal : SpecialError → Text → Prop
  | slice {a} : Illegal (.sliceOutOfBound a none) ("Peek slice ".toList ++ decimal a ++ ".. out of bound.".toList)
  | slice2 {a b} : Illegal (.sliceOutOfBound a (some b))
      ("Peek slice ".toList ++ decimal a ++ "..".toList ++ decimal b ++ " out of bound.".toList)
  | repeated : Illegal .repeatTooManyTimes "Repeated too many times.".toList
  | empty : Illegal .emptyStack "Nothing to pop or drop.".toList

/-- The sentences about several, in order. -/
inductive Illegals (suffix : Text) : List SpecialError → List Text → Prop
  | nil : Illegals suffix [] []
  | cons {e l t ts} : Illegal e t → Illegals suffix l ts → Illegals suffix (e :: l) ((t ++ suffix) :: ts)

/-- The lines about one group of attempts: those made directly by the rule `upper`, or by no rule. -/
inductive GroupLines (sh : Label → Text) (upper : Option Label) (tr : Tracked) : List Text → Prop
  | byRule {r s ls} : upper = some r → Sentence sh (· ∈ tr.positives) (· ∈ tr.negatives) s →
      Illegals (" (By ".toList ++ sh r ++ [')']) tr.specials ls →
      GroupLines sh upper tr ((s ++ ", by ".toList ++ sh r ++ ['.']) :: ls)
  | byNone {s ls} : upper = none → Sentence sh (· ∈ tr.positives) (· ∈ tr.negatives) s →
      Illegals [] tr.specials ls → GroupLines sh upper tr ((s ++ ['.']) :: ls)

/-- The message for these groups of attempts, at a position with `before` before it in its line, on line `line`. -/
def Reads (sh : Label → Text) (line : Nat) (before : Text) (groups : List (Option Label × Tracked)) (msg : Text) : Prop :=
  ∃ lines : Option Label × Tracked → List Text, (∀ g ∈ groups, GroupLines sh g.1 g.2 (lines g)) ∧
    msg = before ++ "^---".toList ++
      ((groups.flatMap lines).map fun l => ['\n'] ++ List.replicate ((Nat.toDigits 10 line).length + 3) ' ' ++ l).flatten

end Pest3
