import Verif.Position

/-!
# Model of the variant of `skip_until` for the feature `memchr` (`core/src/position.rs:315-360`)

The feature is not declared in `core/Cargo.toml`, so this code is never compiled; `skipUntil` in `Position.lean` is the code that is.  `memchr::memmem::find` and `memchr::memchr2_iter`,
`memchr3_iter` are external and modelled by what their documentation says.
-/

namespace Pest3

/-- `memchr::memmem::find` (external): the first offset at which the needle occurs. -/
def memmemFind (hay needle : List UInt8) : Option Nat := (List.range (hay.length + 1)).find? fun i => needle.isPrefixOf (hay.drop i)

/-- `memchr::memchr2_iter` and `memchr3_iter` (external): the offsets of the given bytes, ascending. -/
def memchrIter (bs hay : List UInt8) : List Nat := (List.range hay.length).filter fun i => hay[i]?.any bs.contains

namespace Position

/-- The loops over the iterators (`core/src/position.rs:331-337`, `:345-351`) at position `pos`; `none`: slicing off a character boundary panics. -/
def fastLoop (t : Text) (pos : Nat) (strings : List Text) : List Nat → Option (Option Nat)
  | [] => some none
  | i :: rest =>
    match getFrom t (pos + i) with
    | none => none
    | some start => if strings.any fun s => (bytes s).isPrefixOf (bytes start) then some (some (pos + i)) else fastLoop t pos strings rest

/-- `Position::skip_until` with the feature `memchr` (`core/src/position.rs:315-360`); `none`: panic. -/
def skipUntilFast (self : Position) (strings : List Text) : Option (Bool × Position) :=
  let finish : Option Nat → Bool × Position
    | some i => (true, { self with pos := i })
    | none => (false, { self with pos := self.input.len })
  let hay : Option (List UInt8) := if self.pos ≤ self.input.len then some ((bytes self.input.text).drop self.pos) else none
  match strings with
  | [] => some (finish none)
  | [s1] => hay.map fun h => finish ((memmemFind h (bytes s1)).map (self.pos + ·))
  | [s1, s2] =>
    if !s1.isEmpty && !s2.isEmpty then
      match hay, (bytes s1)[0]?, (bytes s2)[0]? with
      | some h, some b1, some b2 => (fastLoop self.input.text self.pos [s1, s2] (memchrIter [b1, b2] h)).map finish
      | _, _, _ => none
    else some (self.skipUntil [s1, s2])
  | [s1, s2, s3] =>
    if !s1.isEmpty && !s2.isEmpty && s3.isEmpty then
      match hay, (bytes s1)[0]?, (bytes s2)[0]?, (bytes s2)[0]? with
      | some h, some b1, some b2, some b3 => (fastLoop self.input.text self.pos [s1, s2, s3] (memchrIter [b1, b2, b3] h)).map finish
      | _, _, _, _ => none
    else some (self.skipUntil [s1, s2, s3])
  | ss => some (self.skipUntil ss)

end Position
end Pest3
