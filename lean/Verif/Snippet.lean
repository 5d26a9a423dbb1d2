import Verif.Formatter
import Verif.LinesSpan

/-!
# Specification of a snippet

Independent of how the formatter walks over the lines: every character of a shown line is put before,
inside or after the mark according to its byte offset, and the rows are printed one after another.
-/

namespace Pest3

/-- The characters of `l`, which starts at byte `off` of the input, whose offset satisfies `P`. -/
def charsAt (P : Nat → Bool) (off : Nat) (l : Text) : Text :=
  ((charIndicesFrom off l).filter fun x => P x.1).map Prod.snd

/-- A row of a snippet. -/
structure Row where
  number : Nat
  before : Text
  marked : Text
  after : Text
deriving DecidableEq, Repr

/-- The row of one line of the input: `number` counts lines from one, `off` is the offset of the line. -/
def Row.ofLine (start stop number off : Nat) (l : Text) : Row :=
  ⟨number, charsAt (fun i => decide (i < start)) off l,
    charsAt (fun i => decide (start ≤ i) && decide (i < stop)) off l,
    charsAt (fun i => decide (stop ≤ i)) off l⟩

/-- The rows of all the lines of an input. -/
def rowsFrom (start stop : Nat) : Nat → Nat → List Text → List Row
  | _, _, [] => []
  | number, off, l :: ls =>
    Row.ofLine start stop number off l :: rowsFrom start stop (number + 1) (off + utf8Len l) ls

/-- The number of the line holding the last character before the cut (the first line if there is
none). -/
def lineBefore (pre : Text) : Nat := 1 + pre.dropLast.count '\n'

/-- The rows shown for the span between `pre` and `suf`: from the line that holds the last character
before its start to the line that holds the last character before its end. -/
def shownRows (pre m suf : Text) : List Row :=
  (rowsFrom (utf8Len pre) (utf8Len (pre ++ m)) 1 0 (splitLines (pre ++ m ++ suf))).filter fun r =>
    decide (lineBefore pre ≤ r.number) && decide (r.number ≤ lineBefore (pre ++ m))

/-- Number of decimal digits. -/
def digits (n : Nat) : Nat := (showNat n).length

/-- A row as printed: right-aligned number, bar, text with control characters made visible. -/
def Row.pieces (w : Nat) (r : Row) : List Piece :=
  [.number (padNat w r.number), .plain [' '], .number ['|'],
   .plain ([' '] ++ visualize r.before), .span (visualize r.marked), .plain (visualize r.after ++ ['\n'])]

/-- The gutter of a row without number. -/
def gutter (w : Nat) : List Piece := [.plain (spaces (w + 1)), .number ['|']]

/-- All the rows, or the first two and the last two of more than five. -/
def body (w : Nat) (rows : List Row) : List Piece :=
  if rows.length ≤ 5 then rows.flatMap (Row.pieces w)
  else (rows.take 2).flatMap (Row.pieces w) ++ gutter w ++ [.plain " ...\n".toList] ++
    (rows.drop (rows.length - 2)).flatMap (Row.pieces w)

/-- The whole snippet. -/
def snippet (width : Text → Nat) (rows : List Row) : List Piece :=
  match rows.head?, rows.getLast? with
  | some first, some last =>
    let w := digits last.number
    if first.number = last.number then
      gutter w ++ [.plain ['\n']] ++ body w rows ++ gutter w ++
      [.plain ([' '] ++ spaces (width (visualize first.before))),
       .marker (List.replicate (width (visualize first.marked)) '^'), .plain ['\n']]
    else
      gutter w ++
      [.plain ([' '] ++ spaces (width (visualize first.before))), .marker ['v'], .plain ['\n']] ++
      body w rows ++ gutter w ++
      [.plain ([' '] ++ spaces (width (visualize last.marked) - 1)), .marker ['^'], .plain ['\n']]
  | _, _ => []

/-- Consecutive plain writes are one plain write. -/
def squeeze : List Piece → List Piece
  | [] => []
  | .plain a :: l => match squeeze l with
    | .plain b :: l' => .plain (a ++ b) :: l'
    | l' => .plain a :: l'
  | x :: l => x :: squeeze l

/-- What went through the span formatter. -/
def markedText : List Piece → Text
  | [] => []
  | .span t :: l => t ++ markedText l
  | _ :: l => markedText l

/-- What went through the number formatter, bars excepted. -/
def numbersShown (l : List Piece) : List Text :=
  l.filterMap fun
    | .number t => if t = ['|'] then none else some t
    | _ => none

end Pest3
