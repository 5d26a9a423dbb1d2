import Verif.Tracker

/-!
# Model of error collection (`core/src/typed/tracker.rs:216-296`)

`sh` is the `Debug` formatting of the rule enum (derived, `generator/src/common.rs:91`).
`pest2::error::Error::new_from_pos` is external: an error is the pair of its position and its custom
message.
-/

namespace Pest3

/-- `format!("{n}")` for `usize` (Rust std). -/
def showNat (n : Nat) : Text := (toString n).toList

/-- `format!("{i}")` for `isize` (Rust std). -/
def showInt (i : Int) : Text := (toString i).toList

/-- `ToString for SpecialError` (`core/src/typed/tracker.rs:32-43`). -/
def SpecialError.message : SpecialError → Text
  | .sliceOutOfBound a (some b) => "Peek slice ".toList ++ showInt a ++ "..".toList ++ showInt b ++ " out of bound.".toList
  | .sliceOutOfBound a none => "Peek slice ".toList ++ showInt a ++ ".. out of bound.".toList
  | .repeatTooManyTimes => "Repeated too many times.".toList
  | .emptyStack => "Nothing to pop or drop.".toList

/-- `Vec::dedup` (Rust std): drop consecutive repetitions. -/
def vecDedup : List Label → List Label
  | [] => []
  | a :: l => match vecDedup l with
    | [] => [a]
    | b :: l' => if a = b then b :: l' else a :: b :: l'

/-- Insertion into a sorted list. -/
def insertLabel (a : Label) : List Label → List Label
  | [] => [a]
  | b :: l => if a ≤ b then a :: b :: l else b :: insertLabel a l

/-- `<[R]>::sort` (Rust std): the sorted permutation (labels are totally ordered by the order of the
variants, so it does not matter which algorithm computes it). -/
def vecSort (l : List Label) : List Label := l.foldr insertLabel []

/-- `v.sort(); v.dedup()` (`core/src/typed/tracker.rs:239-242`). -/
def sortDedup (l : List Label) : List Label := vecDedup (vecSort l)

section
variable (sh : Label → Text)

/-- `format!("{vec:?}")` (`core/src/typed/tracker.rs:243-245`). -/
def collectRules (l : List Label) : Text := ['['] ++ ((l.map sh).intersperse [',', ' ']).flatten ++ [']']

/-- What `write_message` writes for one attempt (`core/src/typed/tracker.rs:237-271`). -/
def writeMessage (spacing : Text) (entry : Option Label × Tracked) : Text :=
  let positives := sortDedup entry.2.positives
  let negatives := sortDedup entry.2.negatives
  let head := match positives.isEmpty, negatives.isEmpty with
    | true, true => "Unknown error (no rule tracked)".toList
    | false, true => "Expected ".toList ++ collectRules sh positives
    | true, false => "Unexpected ".toList ++ collectRules sh negatives
    | false, false =>
      "Unexpected ".toList ++ collectRules sh negatives ++ ", expected ".toList ++ collectRules sh positives
  let by_ := match entry.1 with
    | some r => ", by ".toList ++ sh r
    | none => []
  let specials := entry.2.specials.map fun e =>
    spacing ++ e.message ++ match entry.1 with
      | some r => " (By ".toList ++ sh r ++ [')']
      | none => []
  spacing ++ head ++ by_ ++ ['.'] ++ specials.flatten

/-- `line_remained_index` (`core/src/typed/tracker.rs:226-230`). -/
def lineRemainedIndex (lineString : Text) (col : Nat) : Nat :=
  match (charIndices lineString)[col - 1]? with
  | some x => x.1
  | none => utf8Len lineString

/-- `Tracker::collect_to_message` (`core/src/typed/tracker.rs:216-275`); `none`: panic in `line_col`,
`line_of` or the slicing of the line. -/
def Tracker.collectToMessage (t : Tracker) : Option Text :=
  let (pos, attempts) := t.finish
  match pos.lineCol, pos.lineOf with
  | some (line, col), some lineString =>
    let spacing := '\n' :: List.replicate (utf8Len (showNat line) + 3) ' '
    match getTo lineString (lineRemainedIndex lineString col) with
    | none => none
    | some lineMatched => some (lineMatched ++ "^---".toList ++ (attempts.map (writeMessage sh spacing)).flatten)
  | _, _ => none

/-- An `Error` with a custom message. -/
structure ErrorAt where
  position : Position
  message : Text
deriving DecidableEq

/-- `Tracker::collect` (`core/src/typed/tracker.rs:277-296`), with `From<Position>`
(`core/src/position.rs:480-484`), whose `unwrap` panics on an invalid position. -/
def Tracker.collect (t : Tracker) : Option ErrorAt :=
  match Position.new t.position.input t.position.pos with
  | none =>
    some ⟨Position.fromStart t.position.input,
      "Internal error (invalid character index ".toList ++ showNat t.position.pos ++ ").".toList⟩
  | some pos =>
    match t.collectToMessage sh, Position.new pos.input pos.pos with
    | some message, some pos => some ⟨pos, message⟩
    | _, _ => none

end

end Pest3
