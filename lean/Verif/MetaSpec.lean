import Verif.Meta

/-!
# Specification of literals in grammars

The syntax follows `inner_str`, `inner_chr`, `escape`, `raw_string`, `bounded_repeat` of
`meta/src/grammar.pest`; the denotation is what the notation says.
-/

namespace Pest3.Meta

def isHex (c : Char) : Prop := (digitVal 16 c).isSome

instance (c : Char) : Decidable (isHex c) := inferInstanceAs (Decidable (_ = true))

/-- Positional value of a text of hexadecimal digits. -/
def hexValue (ds : Text) : Nat := ds.foldl (fun a c => a * 16 + (digitVal 16 c).getD 0) 0

/-- The one-letter escapes (`escape` in `meta/src/grammar.pest`). -/
inductive Letter : Char → Char → Prop where
  | quote : Letter '"' '"'
  | backslash : Letter '\\' '\\'
  | r : Letter 'r' '\r'
  | n : Letter 'n' '\n'
  | t : Letter 't' '\t'
  | zero : Letter '0' '\x00'
  | apostrophe : Letter '\'' '\''

/-- `escape` of `meta/src/grammar.pest`, with the number it spells or the character it names. -/
inductive Escape : Text → Char ⊕ (Nat × Nat) → Prop where
  | letter {e c} : Letter e c → Escape ['\\', e] (.inl c)
  | code {a b} : isHex a → isHex b → Escape ['\\', 'x', a, b] (.inr (hexValue [a, b], 0x7f))
  | unicode {ds} : (∀ d ∈ ds, isHex d) → 0 < ds.length → ds.length ≤ 6 →
      Escape ('\\' :: 'u' :: '{' :: (ds ++ ['}'])) (.inr (hexValue ds, 0x10ffff))

/-- The character an escape stands for, if any: `\x` only reaches ASCII, `\u` Unicode scalar values. -/
def escaped : Char ⊕ (Nat × Nat) → Option Char
  | .inl c => some c
  | .inr (n, max) => if n ≤ max ∧ n.isValidChar then some (Char.ofNat n) else none

/-- `inner_str` of `meta/src/grammar.pest` with its meaning; `none` if it contains an escape that stands
for no character. -/
inductive Denotes : Text → Option Text → Prop where
  | nil : Denotes [] (some [])
  | plain {c s t} : c ≠ '"' → c ≠ '\\' → Denotes s t → Denotes (c :: s) (t.map (c :: ·))
  | escape {e v s t} : Escape e v → Denotes s t →
      Denotes (e ++ s) ((escaped v).bind fun c => t.map (c :: ·))

/-- The pair pest 2 makes of `"s"`. -/
def stringPair (s : Text) : MetaPair :=
  ⟨.string, '"' :: (s ++ ['"']), [(.quote, ['"']), (.innerStr, s), (.quote, ['"'])]⟩

/-- The pair pest 2 makes of `i"s"`. -/
def insensitivePair (s : Text) : MetaPair :=
  ⟨.insensitiveString, 'i' :: '"' :: (s ++ ['"']), [(.string, '"' :: (s ++ ['"']))]⟩

/-- The pair pest 2 makes of `r##"s"##` with `n` signs (`raw_string`, a compound-atomic rule: one inner
pair for each `pound`, then the quotes with the content between them). -/
def rawStringPair (n : Nat) (s : Text) : MetaPair :=
  ⟨.rawString, 'r' :: (List.replicate n '#' ++ '"' :: (s ++ '"' :: List.replicate n '#')),
    List.replicate n (.pound, ['#']) ++ [(.quote, ['"']), (.innerRawStr, s), (.quote, ['"'])]⟩

/-- The text of a `character` whose inside is `s`. -/
def charText (s : Text) : Text := '\'' :: (s ++ ['\''])

/-- The pair pest 2 makes of `'a'..'b'`, the insides being spelled `a` and `b`. -/
def rangePair (a b : Text) : MetaPair :=
  ⟨.range, charText a ++ ['.', '.'] ++ charText b,
    [(.character, charText a), (.rangeOperator, ['.', '.']), (.character, charText b)]⟩

/-- A bound as written: decimal digits. -/
def boundPairs (r : MetaRule) : Option Text → List (MetaRule × Text)
  | none => []
  | some t => [(r, t)]

/-- The pairs pest 2 makes of `{a..b}`, `{a..}`, `{..b}`, `{..}`. -/
def repeatPair (a b : Option Text) : MetaPair :=
  ⟨.boundedRepeat, ['{'] ++ a.getD [] ++ ['.', '.'] ++ b.getD [] ++ ['}'],
    (.openingBrace, ['{']) :: (boundPairs .number a ++ (.rangeOperator, ['.', '.']) ::
      (boundPairs .number b ++ [(.closingBrace, ['}'])]))⟩

/-- The pairs pest 2 makes of `{a}`. -/
def exactPair (a : Text) : MetaPair :=
  ⟨.boundedRepeat, ['{'] ++ a ++ ['}'], [(.openingBrace, ['{']), (.number, a), (.closingBrace, ['}'])]⟩

/-- The pairs pest 2 makes of `[a..b]` with optional bounds. -/
def slicePair (a b : Option Text) : MetaPair :=
  ⟨.slice, ['['] ++ a.getD [] ++ ['.', '.'] ++ b.getD [] ++ [']'],
    (.openingBrack, ['[']) :: (boundPairs .integer a ++ (.rangeOperator, ['.', '.']) ::
      (boundPairs .integer b ++ [(.closingBrack, [']'])]))⟩

/-- `number` of `meta/src/grammar.pest`: decimal digits without superfluous zeros. -/
def decimal (n : Nat) : Text := Nat.toDigits 10 n

end Pest3.Meta
