import Verif.Utf8

/-!
# Model of `core/src/position.rs` and `core/src/span.rs`

Convention: in functions whose Rust original can panic, the outer `Option` is `none` for the panic.
Debug assertions count as panics.  `&mut self` functions return the new position.
-/

namespace Pest3

/-- `Position` (`core/src/position.rs:30-36`). -/
structure Position where
  input : Str
  pos : Nat
deriving DecidableEq, Repr

/-- `Span` (`core/src/span.rs:31-41`); field `end` is called `stop`. -/
structure Span where
  input : Str
  start : Nat
  stop : Nat
deriving DecidableEq, Repr

namespace Position

/-- `Position::new` (`core/src/position.rs:61-63`). -/
def new (input : Str) (pos : Nat) : Option Position :=
  (getFrom input.text pos).map fun _ => ⟨input, pos⟩

/-- `Position::new_unchecked` (`core/src/position.rs:44-47`); `none`: debug assertion fails. -/
def newUnchecked (input : Str) (pos : Nat) : Option Position :=
  if (getFrom input.text pos).isSome then some ⟨input, pos⟩ else none

/-- `Position::from_start` (`core/src/position.rs:75-78`). -/
def fromStart (input : Str) : Position := ⟨input, 0⟩

/-- `Position::span` (`core/src/position.rs:114-124`) with `Span::new_unchecked`
(`core/src/span.rs:49-52`); `none`: panic (different inputs, or debug assertion). -/
def span (self other : Position) : Option Span :=
  if self.input.ptrEq other.input then
    if (getRange self.input.text self.pos other.pos).isSome then
      some ⟨self.input, self.pos, other.pos⟩
    else none
  else none

/-- The loop of `Position::line_col` (`core/src/position.rs:156-184`).  `none`: `unreachable!` or
arithmetic underflow. -/
def lineColLoop (pos : Nat) (chars : Text) (lc : Nat × Nat) : Option (Nat × Nat) :=
  if pos = 0 then some lc
  else
    match chars with
    | [] => none
    | c :: cs =>
      if c = '\r' then
        match cs with
        | d :: cs' =>
          if d = '\n' then
            lineColLoop (if pos = 1 then pos - 1 else pos - 2) cs' (lc.1 + 1, 1)
          else lineColLoop (pos - 1) (d :: cs') (lc.1, lc.2 + 1)
        | [] => lineColLoop (pos - 1) [] (lc.1, lc.2 + 1)
      else if c = '\n' then lineColLoop (pos - 1) cs (lc.1 + 1, 1)
      else if c.utf8Size ≤ pos then lineColLoop (pos - c.utf8Size) cs (lc.1, lc.2 + 1)
      else none
termination_by chars.length

/-- `Position::line_col` (`core/src/position.rs:146-187`). -/
def lineCol (self : Position) : Option (Nat × Nat) :=
  if self.pos > self.input.len then none
  else
    match getTo self.input.text self.pos with
    | none => none
    | some slice => lineColLoop self.pos slice (1, 1)

/-- `Position::find_line_start` (`core/src/position.rs:213-228`). -/
def findLineStart (self : Position) : Nat :=
  if self.input.text.isEmpty then 0
  else
    match ((charIndices self.input.text).reverse.dropWhile (fun x => decide (x.1 ≥ self.pos))).find?
        (fun x => x.2 == '\n') with
    | some (i, _) => i + 1
    | none => 0

/-- `Position::find_line_end` (`core/src/position.rs:230-247`). -/
def findLineEnd (self : Position) : Nat :=
  if self.input.text.isEmpty then 0
  else if self.pos = self.input.len - 1 then self.input.len
  else
    match ((charIndices self.input.text).dropWhile (fun x => decide (x.1 < self.pos))).find?
        (fun x => x.2 == '\n') with
    | some (i, _) => i + 1
    | none => self.input.len

/-- `Position::line_of` (`core/src/position.rs:205-211`). -/
def lineOf (self : Position) : Option Text :=
  if self.pos > self.input.len then none
  else getRange self.input.text self.findLineStart self.findLineEnd

/-- `Position::at_start` (`core/src/position.rs:251-253`). -/
def atStart (self : Position) : Bool := self.pos == 0

/-- `Position::at_end` (`core/src/position.rs:257-259`). -/
def atEnd (self : Position) : Bool := self.pos == self.input.len

/-- The counting loop of `skip` and `skip_back` (`core/src/position.rs:269-275`, `:292-298`):
total byte length of the next `n` characters, `none` if there are fewer. -/
def skipLoop : Nat → Text → Nat → Option Nat
  | 0, _, len => some len
  | _ + 1, [], _ => none
  | n + 1, c :: cs, len => skipLoop n cs (len + c.utf8Size)

/-- `Position::skip` (`core/src/position.rs:264-281`). -/
def skip (self : Position) (n : Nat) : Option (Bool × Position) :=
  match getFrom self.input.text self.pos with
  | none => none
  | some chars =>
    match skipLoop n chars 0 with
    | none => some (false, self)
    | some skipped => some (true, { self with pos := self.pos + skipped })

/-- `Position::skip_back` (`core/src/position.rs:287-304`). -/
def skipBack (self : Position) (n : Nat) : Option (Bool × Position) :=
  match getTo self.input.text self.pos with
  | none => none
  | some chars =>
    match skipLoop n chars.reverse 0 with
    | none => some (false, self)
    | some skipped =>
      if skipped ≤ self.pos then some (true, { self with pos := self.pos - skipped }) else none

/-- The search loop of `skip_until_basic` (`core/src/position.rs:366-380`) over the remaining
candidate offsets. -/
def skipUntilLoop (t : Text) (strings : List Text) : List Nat → Option Nat
  | [] => none
  | i :: rest =>
    match getFrom t i with
    | none => skipUntilLoop t strings rest
    | some string =>
      if strings.any (fun s => some (bytes s) == byteRange (bytes string) 0 (utf8Len s)) then some i
      else skipUntilLoop t strings rest

/-- `Position::skip_until` / `skip_until_basic` (`core/src/position.rs:310-314`, `:364-384`), the
variant without the (undeclared) feature `memchr`. -/
def skipUntil (self : Position) (strings : List Text) : Bool × Position :=
  match skipUntilLoop self.input.text strings
      (List.range' self.pos (self.input.len - self.pos)) with
  | some i => (true, { self with pos := i })
  | none => (false, { self with pos := self.input.len })

/-- `Position::next_char` (`core/src/position.rs:390-394`). -/
def nextChar (self : Position) : Option (Option Char × Position) :=
  match getFrom self.input.text self.pos with
  | none => none
  | some [] => some (none, self)
  | some (c :: _) => some (some c, { self with pos := self.pos + c.utf8Size })

/-- `Position::match_char` (`core/src/position.rs:401-403`). -/
def matchChar (self : Position) (c : Char) : Option Bool :=
  match getFrom self.input.text self.pos with
  | none => none
  | some [] => some false
  | some (cc :: _) => some (c == cc)

/-- `Position::match_char_by` (`core/src/position.rs:408-422`). -/
def matchCharBy (self : Position) (f : Char → Bool) : Option (Bool × Position) :=
  match getFrom self.input.text self.pos with
  | none => none
  | some [] => some (false, self)
  | some (c :: _) =>
    if f c then some (true, { self with pos := self.pos + c.utf8Size }) else some (false, self)

/-- `Position::match_string` (`core/src/position.rs:427-436`): compares bytes. -/
def matchString (self : Position) (string : Text) : Bool × Position :=
  let to_ := self.pos + utf8Len string
  if some (bytes string) = byteRange (bytes self.input.text) self.pos to_ then
    (true, { self with pos := to_ })
  else (false, self)

/-- `u8::to_ascii_lowercase`. -/
def lowerByte (b : UInt8) : UInt8 := if 65 ≤ b && b ≤ 90 then b ||| 32 else b

/-- `str::eq_ignore_ascii_case` / `[u8]::eq_ignore_ascii_case` (Rust std). -/
def eqIgnoreAsciiCase (a b : Text) : Bool :=
  (bytes a).length == (bytes b).length &&
    ((bytes a).zip (bytes b)).all (fun x => lowerByte x.1 == lowerByte x.2)

/-- `Position::match_insensitive` (`core/src/position.rs:441-457`). -/
def matchInsensitive (self : Position) (string : Text) : Option (Bool × Position) :=
  match getFrom self.input.text self.pos with
  | none => none
  | some slice =>
    let matched :=
      match getRange slice 0 (utf8Len string) with
      | some slice => eqIgnoreAsciiCase slice string
      | none => false
    if matched then some (true, { self with pos := self.pos + utf8Len string })
    else some (false, self)

/-- `Position::match_range` (`core/src/position.rs:462-471`); the range is inclusive at both ends.
`char` comparison is comparison of code points. -/
def matchRange (self : Position) (lo hi : Char) : Option (Bool × Position) :=
  match getFrom self.input.text self.pos with
  | none => none
  | some [] => some (false, self)
  | some (c :: _) =>
    if lo ≤ c && c ≤ hi then some (true, { self with pos := self.pos + c.utf8Size })
    else some (false, self)

/-- `PartialEq for Position` (`core/src/position.rs:509-513`). -/
def eq (a b : Position) : Bool := a.input.ptrEq b.input && a.pos == b.pos

/-- `Ord for Position` (`core/src/position.rs:523-531`); `none`: the assertion on the inputs (by
content) fails. -/
def cmp (a b : Position) : Option Ordering :=
  if a.input.text = b.input.text then some (compare a.pos b.pos) else none

/-- `Hash for Position` (`core/src/position.rs:533-538`): the data fed to the hasher (the fat
pointer and the offset). -/
def hashKey (a : Position) : Nat × Nat × Nat := (a.input.addr, a.input.len, a.pos)

end Position

namespace Span

/-- `Span::new` (`core/src/span.rs:65-71`). -/
def new (input : Str) (start stop : Nat) : Option Span :=
  if (getRange input.text start stop).isSome then some ⟨input, start, stop⟩ else none

/-- `Span::as_str` (`core/src/span.rs:218-221`). -/
def asStr (self : Span) : Option Text := getRange self.input.text self.start self.stop

/-- `core::ops::Bound<usize>`. -/
inductive Bound where
  | included (i : Nat)
  | excluded (i : Nat)
  | unbounded
deriving DecidableEq, Repr

/-- `Span::get` (`core/src/span.rs:85-102`).  Simplification: offsets do not overflow `usize`.
Outer `none`: panic in `as_str`. -/
def get (self : Span) (lo hi : Bound) : Option (Option Span) :=
  match self.asStr with
  | none => none
  | some str =>
    let start := match lo with
      | .included o => o
      | .excluded o => o + 1
      | .unbounded => 0
    let stop := match hi with
      | .included o => o + 1
      | .excluded o => o
      | .unbounded => utf8Len str
    some ((getRange str start stop).map fun _ => ⟨self.input, self.start + start, self.start + stop⟩)

/-- `Span::start_pos` (`core/src/span.rs:154-157`). -/
def startPos (self : Span) : Option Position := Position.newUnchecked self.input self.start

/-- `Span::end_pos` (`core/src/span.rs:173-176`). -/
def endPos (self : Span) : Option Position := Position.newUnchecked self.input self.stop

/-- `Span::split` (`core/src/span.rs:192-198`). -/
def split (self : Span) : Option (Position × Position) :=
  match Position.newUnchecked self.input self.start, Position.newUnchecked self.input self.stop with
  | some a, some b => some (a, b)
  | _, _ => none

/-- `PartialEq for Span` (`core/src/span.rs:302-306`). -/
def eq (a b : Span) : Bool := a.input.ptrEq b.input && a.start == b.start && a.stop == b.stop

/-- `Hash for Span` (`core/src/span.rs:310-316`): the data fed to the hasher (the fat pointer and the offsets). -/
def hashKey (a : Span) : Nat × Nat × Nat × Nat := (a.input.addr, a.input.len, a.start, a.stop)

/-- `merge_spans` (`core/src/span.rs:382-394`). -/
def merge (a b : Span) : Option Span :=
  if a.stop ≥ b.start && a.start ≤ b.stop then
    Span.new a.input (min a.start b.start) (max a.stop b.stop)
  else none

/-- `LinesSpan::next` (`core/src/span.rs:408-421`): returns the item and the new `pos`.  On the
early exits the iterator state is unchanged. -/
def linesNext (span : Span) (pos : Nat) : Option Span × Nat :=
  if pos > span.stop then (none, pos)
  else
    match Position.new span.input pos with
    | none => (none, pos)
    | some p =>
      if p.atEnd then (none, pos)
      else (Span.new span.input p.findLineStart p.findLineEnd, p.findLineEnd)

/-- `fuel` calls of `next`, collecting items until the first `None`. -/
def linesFrom (span : Span) : Nat → Nat → List Span
  | 0, _ => []
  | fuel + 1, pos =>
    match linesNext span pos with
    | (none, _) => []
    | (some s, pos') => s :: linesFrom span fuel pos'

/-- `Span::lines_span().collect()` (`core/src/span.rs:284-289`).  Each call of `next` that yields an
item moves `pos` forward (`linesNext_lt` in `PositionLemmas`), so `len + 1` calls exhaust the iterator
(`C11_iterator_exhausted`). -/
def linesSpan (span : Span) : List Span := linesFrom span (span.input.len + 1) span.start

/-- `Span::lines().collect()` (`core/src/span.rs:260-264`, `:433-438`); `none` if an `as_str` panics. -/
def lines (span : Span) : Option (List Text) := (linesSpan span).mapM asStr

end Span

/-! ## Validity (the documented safety invariant of both structs) -/

/-- `input[pos..]` does not panic (`core/src/position.rs:32-34`). -/
def Position.Valid (p : Position) : Prop := Boundary p.input.text p.pos

/-- `input[start..end]` does not panic (`core/src/span.rs:33-41`). -/
def Span.Valid (s : Span) : Prop :=
  s.start ≤ s.stop ∧ Boundary s.input.text s.start ∧ Boundary s.input.text s.stop

instance (p : Position) : Decidable p.Valid := inferInstanceAs (Decidable (Boundary _ _))
instance (s : Span) : Decidable s.Valid := inferInstanceAs (Decidable (_ ∧ _ ∧ _))

end Pest3
