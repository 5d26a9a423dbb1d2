import Verif.Formatter

/-!
# Model of the meta-grammar's literals and bounds (`meta/src/parser.rs`)

The meta-grammar (`meta/src/grammar.pest`) is run by pest 2, which is outside the model.  A `MetaPair` is
what these functions see of pest 2's `Pair`: its rule, its text and its inner pairs.  An `Err` is
`.error`, a panic is `.panic`.
-/

namespace Pest3.Meta

/-- `Result<T, Error<Rule>>`, or a panic. -/
inductive Res (α : Type) where
  | ok (a : α)
  | error
  | panic
deriving DecidableEq, Repr

def Res.bind {α β : Type} : Res α → (α → Res β) → Res β
  | .ok a, f => f a
  | .error, _ => .error
  | .panic, _ => .panic

instance : Monad Res where
  pure := .ok
  bind := Res.bind

/-- The rules of the meta-grammar (`meta/src/grammar.pest`), with `EOI`.  Those up to `eoi` are the ones the functions of
`meta/src/parser.rs` look at. -/
inductive MetaRule where
  | quote | pound | innerRawStr | innerStr | character | singleQuote | innerChr | rangeOperator
  | openingBrace | closingBrace | openingBrack | closingBrack | number | integer
  | string | rawString | insensitiveString | range | boundedRepeat | slice
  | expression | term | choiceOperator | sequenceOperator | tildeOperator | caretOperator
  | positivePredicate | negativePredicate | optionalOperator | repeatOperator | repeatOnceOperator
  | openingParen | closingParen | path | identifier | ancestryOperator | call | comma
  | grammarRule | ruleDoc | arguments | assignmentOperator | silentModifier
  | «import» | grammarDoc | eoi
  | docContent | triviaOpeningBrace | escape | code | unicode | hexDigit
  | grammarRules | node | terminal | overridableOperator | prefixOperator | infixOperator | postfixOperator
  | alpha | alphaNum | newline | whitespace | blockComment | comment
deriving DecidableEq, Repr

/-- A pest 2 pair. -/
structure MetaPair where
  rule : MetaRule
  text : Text
  inner : List (MetaRule × Text)
deriving DecidableEq, Repr

/-! ## Integers from text (Rust std) -/

/-- `char::to_digit(radix)` for radix 10 and 16. -/
def digitVal (radix : Nat) (c : Char) : Option Nat :=
  let v :=
    if '0' ≤ c ∧ c ≤ '9' then some (c.toNat - '0'.toNat)
    else if 'a' ≤ c ∧ c ≤ 'f' then some (c.toNat - 'a'.toNat + 10)
    else if 'A' ≤ c ∧ c ≤ 'F' then some (c.toNat - 'A'.toNat + 10)
    else none
  v.bind fun v => if v < radix then some v else none

/-- The digits after the sign. -/
def digitsVal (radix : Nat) : Nat → Text → Option Nat
  | acc, [] => some acc
  | acc, c :: cs => match digitVal radix c with
    | some v => digitsVal radix (acc * radix + v) cs
    | none => none

/-- `uN::from_str_radix` (Rust std): an optional `+`, at least one digit, no overflow over `max`. -/
def unsignedFromStr (radix max : Nat) (s : Text) : Option Nat :=
  let ds := match s with
    | '+' :: rest => rest
    | s => s
  if ds = [] then none
  else match digitsVal radix 0 ds with
    | some v => if v ≤ max then some v else none
    | none => none

/-- `isize::from_str` (Rust std, 64-bit target). -/
def isizeFromStr (s : Text) : Option Int :=
  match s with
  | '-' :: rest =>
    if rest = [] then none
    else match digitsVal 10 0 rest with
      | some v => if v ≤ 2 ^ 63 then some (-(v : Int)) else none
      | none => none
  | s => (unsignedFromStr 10 (2 ^ 63 - 1) s).map Int.ofNat

/-- `usize::from_str` (Rust std, 64-bit target). -/
def usizeFromStr (s : Text) : Option Nat := unsignedFromStr 10 (2 ^ 64 - 1) s

/-- `char::from_u32` (Rust std). -/
def charFromU32 (n : Nat) : Option Char :=
  if h : n.isValidChar then some (Char.ofNatAux n h) else none

/-! ## Escapes -/

/-- One iteration of the loop of `unescape` (`meta/src/parser.rs:894-951`) on a non-empty rest: what is
pushed and the rest of the characters; `none`: `return None`. -/
def unescapeStep : Char → Text → Option (Text × Text)
  | '\\', [] => none
  | '\\', e :: chars =>
    if e = '"' then some (['"'], chars)
    else if e = '\\' then some (['\\'], chars)
    else if e = 'r' then some (['\r'], chars)
    else if e = 'n' then some (['\n'], chars)
    else if e = 't' then some (['\t'], chars)
    else if e = '0' then some (['\x00'], chars)
    else if e = '\'' then some (['\''], chars)
    else if e = 'x' then
      let string := chars.take 2
      if utf8Len string ≠ 2 then none
      else if chars.length < utf8Len string then none
      else match unsignedFromStr 16 255 string with
        | none => none
        | some value => if value > 0x7f then none else some ([Char.ofNat value], chars.drop (utf8Len string))
    else if e = 'u' then
      match chars with
      | [] => none
      | b :: chars =>
        if b ≠ '{' then none
        else
          let string := chars.takeWhile (fun c => c != '}')
          if string = [] ∨ 6 < utf8Len string then none
          else if chars.length < utf8Len string + 1 then none
          else match unsignedFromStr 16 (2 ^ 32 - 1) string with
            | none => none
            | some value =>
              if value > 0x10ffff then none
              else match charFromU32 value with
                | none => none
                | some c => some ([c], chars.drop (utf8Len string + 1))
    else none
  | '"', chars => some ([], chars)
  | c, chars => some ([c], chars)

/-- The loop of `unescape`.  Every iteration consumes a character, so the length of the text is enough
fuel (`unescape_fuel`). -/
def unescapeLoop : Nat → Text → Option Text
  | _, [] => some []
  | 0, _ => none
  | fuel + 1, c :: cs => match unescapeStep c cs with
    | none => none
    | some (pushed, rest) => (unescapeLoop fuel rest).map (pushed ++ ·)

/-- `unescape` (`meta/src/parser.rs:890-953`). -/
def unescape (s : Text) : Option Text := unescapeLoop s.length s

/-- `&string[a..string.len() - b]` (Rust std). -/
def slice (s : Text) (a b : Nat) : Option Text :=
  if utf8Len s < b then none else getRange s a (utf8Len s - b)

/-! ## Literals -/

/-- The content of `parse_string` (`meta/src/parser.rs:619-632`). -/
def parseString (pair : MetaPair) : Res Text :=
  match slice pair.text 1 1 with
  | none => .panic
  | some s => match unescape s with
    | some c => .ok c
    | none => .error

/-- The content of `parse_insensitive_string` (`meta/src/parser.rs:646-659`). -/
def parseInsensitiveString (pair : MetaPair) : Res Text :=
  match slice pair.text 2 1 with
  | none => .panic
  | some s => match unescape s with
    | some c => .ok c
    | none => .error

/-- `string_content` (`meta/src/parser.rs:880-888`). -/
def stringContent (pair : MetaPair) : Res Text :=
  match unescape pair.text with
  | some c => .ok c
  | none => .error

/-- The content of `parse_raw_string` (`meta/src/parser.rs:634-644`): the second inner pair. -/
def parseRawString (pair : MetaPair) : Res Text :=
  match pair.inner with
  | _ :: p :: _ => .ok p.2
  | _ => .panic

/-- The characters of `parse_char_range` (`meta/src/parser.rs:661-691`). -/
def parseCharRange (pair : MetaPair) : Res (Char × Char) :=
  match pair.inner with
  | a :: _ :: b :: _ =>
    match slice a.2 1 1 with
    | none => .panic
    | some sa => match unescape sa with
      | none => .error
      | some ca => match slice b.2 1 1 with
        | none => .panic
        | some sb => match unescape sb with
          | none => .error
          | some cb => match ca, cb with
            | x :: _, y :: _ => .ok (x, y)
            | _, _ => .panic
  | _ => .panic

/-! ## Ranges -/

/-- `Range<T>` (`meta/src/parser.rs:79-83`). -/
structure MetaRange (α : Type) where
  start : Option α
  stop : Option α
deriving DecidableEq, Repr

/-- `pair_to` over the filtered pairs (`meta/src/parser.rs:693-704`, `:711-714`). -/
def parseNumbers {α : Type} (fromStr : Text → Option α) : List (MetaRule × Text) → Res (List α)
  | [] => .ok []
  | (r, t) :: rest =>
    if r = .number ∨ r = .integer then
      match fromStr t with
      | none => .error
      | some n => (parseNumbers fromStr rest).bind fun ns => .ok (n :: ns)
    else parseNumbers fromStr rest

/-- `parse_range` (`meta/src/parser.rs:706-744`) on all the inner pairs; an index out of bounds and
`unreachable!` are panics. -/
def parseRange {α : Type} (fromStr : Text → Option α) (pairs : List (MetaRule × Text)) :
    Res (MetaRange α) :=
  match pairs with
  | [] => .panic
  | _ :: pairs =>
    (parseNumbers fromStr pairs).bind fun numbers =>
      match pairs.map Prod.fst with
      | [_, r1, _, _] =>
        if r1 = .rangeOperator then
          match numbers with
          | a :: b :: _ => .ok ⟨some a, some b⟩
          | _ => .panic
        else .panic
      | [r0, r1, _] =>
        if r1 = .rangeOperator then
          match numbers with
          | a :: _ => .ok ⟨some a, none⟩
          | _ => .panic
        else if r0 = .rangeOperator then
          match numbers with
          | a :: _ => .ok ⟨none, some a⟩
          | _ => .panic
        else .panic
      | [r0, _] =>
        if r0 = .rangeOperator then .ok ⟨none, none⟩
        else match numbers with
          | a :: _ => .ok ⟨some a, some a⟩
          | _ => .panic
      | _ => .panic

/-- The range of `parse_bounded_repeat` (`meta/src/parser.rs:746-787`). -/
def parseBoundedRepeat (pair : MetaPair) : Res (MetaRange Nat) :=
  (parseRange usizeFromStr pair.inner).bind fun range =>
    match range.start, range.stop with
    | some a, some b => if a > b then .error else if b = 0 then .error else .ok range
    | _, some b => if b = 0 then .error else .ok range
    | _, none => .ok range

/-- The range of `PathArgs::Slice` (`meta/src/parser.rs:572`). -/
def parseSlice (pair : MetaPair) : Res (MetaRange Int) := parseRange isizeFromStr pair.inner

end Pest3.Meta
