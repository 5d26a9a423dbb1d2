import Verif.Collect

/-!
# Model of the snippet formatter (`core/src/formatter.rs`)

What is written is modelled as a list of `Piece`s, one for each call of `write!` / `writeln!` or of one
of the three user-supplied formatters, in order.  `render` plays the pieces against a writer; a writer
or formatter returning `Err` ends the output there, as the `?` after every call does.  All the panics of
`display_span` / `display_position` come before the first write, so they are separated from the output:
the functions below return `none` for a panic.  `unicode_width`'s `width_cjk` is the parameter `width`.
-/

namespace Pest3

/-- One write: plain text, or text handed to `span_formatter`, `marker_formatter`, `number_formatter`. -/
inductive Piece where
  | plain (t : Text)
  | span (t : Text)
  | marker (t : Text)
  | number (t : Text)
deriving DecidableEq, Repr

/-- `FormatOption` together with the writer (`core/src/formatter.rs:114-148`): how each kind of piece
changes the writer; `none` for `Err`.  Formatters are `FnMut`, so `W` includes their own state. -/
structure FormatOption (W : Type) where
  plain : Text → W → Option W
  span : Text → W → Option W
  marker : Text → W → Option W
  number : Text → W → Option W

/-- The default option (`core/src/formatter.rs:124-132`): everything is written as it is. -/
def FormatOption.default : FormatOption Text where
  plain t w := some (w ++ t)
  span t w := some (w ++ t)
  marker t w := some (w ++ t)
  number t w := some (w ++ t)

def FormatOption.write {W : Type} (opt : FormatOption W) : Piece → W → Option W
  | .plain t => opt.plain t
  | .span t => opt.span t
  | .marker t => opt.marker t
  | .number t => opt.number t

/-- Write the pieces in order, stopping at the first `Err`. -/
def FormatOption.render {W : Type} (opt : FormatOption W) : List Piece → W → Option W
  | [], w => some w
  | x :: xs, w => match opt.write x w with
    | none => none
    | some w' => opt.render xs w'

/-- The `match` in `visualize_ws_and_cntrl` (`core/src/formatter.rs:24-63`): the thirty-three literal
cases are written as two arithmetic ones (U+2400 is `␀`, U+2421 is `␡`). -/
def visualizeChar (c : Char) : Char :=
  if c.toNat ≤ 0x1f then Char.ofNat (0x2400 + c.toNat)
  else if c.toNat = 0x7f then Char.ofNat 0x2421
  else c

/-- `visualize_ws_and_cntrl` (`core/src/formatter.rs:23-65`). -/
def visualize (line : Text) : Text := line.map visualizeChar

/-- `str::split_at` (Rust std): `none` if not at a character boundary. -/
def splitAtB (s : Text) (i : Nat) : Option (Text × Text) :=
  match getTo s i, getFrom s i with
  | some a, some b => some (a, b)
  | _, _ => none

/-- `Partition2` (`core/src/formatter.rs:67-73`). -/
structure Partition2 where
  line : Nat
  former : Text
  middle : Text
  latter : Text

/-- `Partition2::new` (`core/src/formatter.rs:75-89`). -/
def Partition2.new (line : Nat) (s : Text) (colStart colEnd : Nat) : Option Partition2 := do
  let (former, latter) ← splitAtB s colEnd
  let (former, middle) ← splitAtB former colStart
  pure ⟨line, visualize former, visualize middle, visualize latter⟩

/-- `Partition` (`core/src/formatter.rs:92-97`). -/
structure Partition where
  line : Nat
  former : Text
  latter : Text

/-- `Partition::new` (`core/src/formatter.rs:99-110`). -/
def Partition.new (line : Nat) (s : Text) (col : Nat) : Option Partition := do
  let (former, latter) ← splitAtB s col
  pure ⟨line, visualize former, visualize latter⟩

/-- The loop of `ceil_log10` (`core/src/formatter.rs:152-155`). -/
def ceilLog10Loop (digit i : Nat) : Nat :=
  if i ≥ 10 then ceilLog10Loop (digit + 1) (i / 10) else digit
termination_by i
decreasing_by omega

/-- `ceil_log10` (`core/src/formatter.rs:149-157`). -/
def ceilLog10 (num : Nat) : Nat := ceilLog10Loop 1 num

/-- `format!("{:w$}", n, w = w)` for `usize` (Rust std): right-aligned, padded with spaces. -/
def padNat (w n : Nat) : Text := List.replicate (w - (showNat n).length) ' ' ++ showNat n

/-- `" ".repeat(n)`. -/
def spaces (n : Nat) : Text := List.replicate n ' '

section
variable (width : Text → Nat)

/-- `display_snippet_single_pos` (`core/src/formatter.rs:158-193`). -/
def displaySnippetSinglePos (indexDigit : Nat) (line : Partition) : List Piece :=
  [.plain (spaces indexDigit ++ [' ']), .number ['|'], .plain ['\n'],
   .number (padNat indexDigit (line.line + 1)), .plain [' '], .number ['|'],
   .plain ([' '] ++ line.former ++ line.latter), .plain ['\n'],
   .plain (spaces indexDigit ++ [' ']), .number ['|'],
   .plain ([' '] ++ spaces (width line.former)), .marker ['^'], .plain ['\n']]

/-- `display_snippet_single_line` (`core/src/formatter.rs:194-234`). -/
def displaySnippetSingleLine (indexDigit : Nat) (line : Partition2) : List Piece :=
  [.plain (spaces indexDigit ++ [' ']), .number ['|'], .plain ['\n'],
   .number (padNat indexDigit (line.line + 1)), .plain [' '], .number ['|'],
   .plain ([' '] ++ line.former), .span line.middle, .plain line.latter, .plain ['\n'],
   .plain (spaces indexDigit ++ [' ']), .number ['|'],
   .plain ([' '] ++ spaces (width line.former)),
   .marker (List.replicate (width line.middle) '^'), .plain ['\n']]

/-- `display_full_covered_snippet` (`core/src/formatter.rs:235-256`). -/
def displayFullCoveredSnippet (indexDigit line : Nat) (content : Text) : List Piece :=
  [.number (padNat indexDigit line), .plain [' '], .number ['|'], .plain [' '], .span content,
   .plain ['\n']]

/-- `display_snippet_multi_line` (`core/src/formatter.rs:257-329`). -/
def displaySnippetMultiLine (indexDigit : Nat) (start stop : Partition)
    (inner : Option Text × Option Text × Bool × Option Text) : List Piece :=
  [.plain (spaces indexDigit ++ [' ']), .number ['|'],
   .plain ([' '] ++ spaces (width start.former)), .marker ['v'], .plain ['\n']] ++
  [.number (padNat indexDigit (start.line + 1)), .plain [' '], .number ['|'],
   .plain ([' '] ++ start.former), .span start.latter, .plain ['\n']] ++
  (match inner.1 with
    | some line => displayFullCoveredSnippet indexDigit (start.line + 2) line
    | none => []) ++
  (match inner.2.1 with
    | some line => displayFullCoveredSnippet indexDigit (start.line + 3) line
    | none =>
      if inner.2.2.1 then [.plain (spaces indexDigit ++ [' ']), .number ['|'], .plain " ...\n".toList]
      else []) ++
  (match inner.2.2.2 with
    | some line => displayFullCoveredSnippet indexDigit stop.line line
    | none => []) ++
  [.number (padNat indexDigit (stop.line + 1)), .plain [' '], .number ['|'], .plain [' '],
   .span stop.former, .plain (stop.latter ++ ['\n'])] ++
  [.plain (spaces indexDigit ++ [' ']), .number ['|'],
   .plain ([' '] ++ spaces (width stop.former - 1)), .marker ['^'], .plain ['\n']]

/-- The loops of `display_span` (`core/src/formatter.rs:343-363`): the first of the remaining lines whose
end is not before `target`.  Returns its index, the column, the offset of the line and the lines from it
on (the `Peekable` iterator of the first loop still holds that line).  The second loop consumes its
iterator, but nothing is read from it afterwards.  `none`: no such line; `some none` cannot arise from a
found line other than by underflow of `target - pos`. -/
def locate (target : Nat) : Nat → List (Nat × Text) → Option (Nat × Option Nat × Nat × List (Nat × Text))
  | _, [] => none
  | pos, (index, line) :: rest =>
    if pos + utf8Len line ≥ target then
      some (index, (if pos ≤ target then some (target - pos) else none), pos, (index, line) :: rest)
    else locate target (pos + utf8Len line) rest

/-- `enumerate()`. -/
def enumFrom {α : Type} : Nat → List α → List (Nat × α)
  | _, [] => []
  | n, a :: l => (n, a) :: enumFrom (n + 1) l

/-- The part of `display_span` from `if start.line == end.line` on (`core/src/formatter.rs:372-405`). -/
def displayLines (lines : List Text) (indexDigit startLine startCol endLine endCol : Nat) :
    Option (List Piece) :=
  if startLine = endLine then do
    let cur ← lines.head?
    let line ← Partition2.new startLine cur startCol endCol
    pure (displaySnippetSingleLine width indexDigit line)
  else do
    let startText ← lines.head?
    let endText ← lines.getLast?
    let start ← Partition.new startLine startText startCol
    let stop ← Partition.new endLine endText endCol
    let innerFirst ← if lines.length ≥ 3 then (lines[1]?).map fun l => some (visualize l) else some none
    let innerMid ←
      if lines.length ≥ 6 then some (none, true)
      else if lines.length = 5 then (lines[2]?).map fun l => (some (visualize l), false)
      else some (none, false)
    let innerLast ←
      if lines.length ≥ 4 then (lines[lines.length - 2]?).map fun l => some (visualize l) else some none
    pure (displaySnippetMultiLine width indexDigit start stop
      (innerFirst, innerMid.1, innerMid.2, innerLast))

/-- `display_span` (`core/src/formatter.rs:331-406`); `none`: panic. -/
def displaySpan (span : Span) : Option (List Piece) := do
  let input ← Span.new span.input 0 span.input.len
  let all ← input.lines
  -- the first loop leaves the iterator at the line found; when it finds none `start.unwrap()` panics
  let (startLine, startCol, pos, rest) ← locate span.start 0 (enumFrom 0 all)
  let startCol ← startCol
  let (endLine, endCol, _, _) ← locate span.stop pos rest
  let endCol ← endCol
  let count ← if startLine ≤ endLine then some (endLine - startLine + 1) else none
  displayLines width ((all.drop startLine).take count) (ceilLog10 (endLine + 1)) startLine startCol
    endLine endCol

/-- The loop of `display_position` (`core/src/formatter.rs:422-433`). -/
def displayPositionLoop (target : Nat) : Nat → List (Nat × Text) → Option (List Piece)
  | _, [] => some []
  | pos, (index, line) :: rest =>
    if pos + utf8Len line > target then do
      let c ← if pos ≤ target then some (target - pos) else none
      let part ← Partition.new index line c
      pure (displaySnippetSinglePos width (ceilLog10 (index + 1)) part)
    else displayPositionLoop target (pos + utf8Len line) rest

/-- `display_position` (`core/src/formatter.rs:408-435`); `none`: panic. -/
def displayPosition (p : Position) : Option (List Piece) := do
  let input ← Span.new p.input 0 p.input.len
  let all ← input.lines
  displayPositionLoop width p.pos 0 (enumFrom 0 all)

end

/-- `impl Display for Span` (`core/src/span.rs:335-340`). -/
def Span.toText (width : Text → Nat) (s : Span) : Option Text := do
  let pieces ← displaySpan width s
  FormatOption.default.render pieces []

/-- `impl Display for Position` (`core/src/position.rs:503-507`). -/
def Position.toText (width : Text → Nat) (p : Position) : Option Text := do
  let pieces ← displayPosition width p
  FormatOption.default.render pieces []

end Pest3
