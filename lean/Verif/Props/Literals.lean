import Verif.MetaLemmas

/-!
# Properties C41–C44: literals and bounds in grammars

`Denotes s t` (in `Verif.MetaSpec`) is the specification of string literals: `s` is the text between the
quotes as the meta-grammar allows it, `t` what it stands for (`none` if it contains an escape that stands
for no character).
-/

namespace Pest3.Props

open Pest3 Pest3.Meta

/-- Success or reported error. -/
def reported {α : Type} : Option α → Res α
  | some a => .ok a
  | none => .error

/-! ## C41: escapes -/

/-- Every string literal is read as what it denotes; one with a meaningless escape is reported. -/
theorem C41_string (s : Text) (t : Option Text) (h : Denotes s t) :
    parseString (stringPair s) = reported t ∧ parseInsensitiveString (insensitivePair s) = reported t := by
  have h1 : slice (stringPair s).text 1 1 = some s := slice_mid ['"'] s ['"']
  have h2 : slice (insensitivePair s).text 2 1 = some s := slice_mid ['i', '"'] s ['"']
  unfold parseString parseInsensitiveString
  rw [h1, h2]
  simp only [h.unescape]
  cases t <;> exact ⟨rfl, rfl⟩

/-- The path of an import is read from the literal together with its quotes: same meaning. -/
theorem C41_import_path (s : Text) (t : Option Text) (h : Denotes s t) :
    stringContent (stringPair s) = reported t := by
  have key : ∀ {s t}, Denotes s t → unescape (s ++ ['"']) = t := by
    intro s t h
    induction h with
    | nil => rfl
    | plain h1 h2 _ ih => rw [List.cons_append, unescape_plain h1 h2, ih]
    | escape he _ ih => rw [List.append_assoc, unescape_escape he, ih]
  have hq : unescape (stringPair s).text = t := by
    show unescape ('"' :: (s ++ ['"'])) = t
    rw [unescape_cons]
    show (unescape (s ++ ['"'])).map ([] ++ ·) = t
    rw [key h]
    cases t <;> rfl
  unfold stringContent
  rw [hq]
  cases t <;> rfl

/-- A literal denotes at most one text. -/
theorem C41_functional (s : Text) (t u : Option Text) (ht : Denotes s t) (hu : Denotes s u) : t = u :=
  ht.unescape.symm.trans hu.unescape

/-- The unicode escape of a character. -/
def unicodeEscape (c : Char) : Text := '\\' :: 'u' :: '{' :: (Nat.toDigits 16 c.toNat ++ ['}'])

theorem hexValue_toDigits (n : Nat) : hexValue (Nat.toDigits 16 n) = n := by
  have h := digitsVal_hex (Nat.toDigits 16 n) (fun d hd => digitVal_toDigits_isSome (Or.inr rfl) hd) 0
  rw [digitsVal_toDigits (Or.inr rfl)] at h
  exact (Option.some.inj h).symm

theorem unicodeEscape_spec (c : Char) :
    Escape (unicodeEscape c) (.inr (c.toNat, 0x10ffff)) ∧ escaped (.inr (c.toNat, 0x10ffff)) = some c := by
  have hv : c.toNat.isValidChar := c.valid
  have hlt : c.toNat < 0x110000 := by rcases hv with h | h <;> omega
  constructor
  · have := Escape.unicode (ds := Nat.toDigits 16 c.toNat)
      (fun d hd => digitVal_toDigits_isSome (Or.inr rfl) hd) Nat.length_toDigits_pos
      ((Nat.length_toDigits_le_iff (by omega) (by omega)).2 (by omega))
    rw [hexValue_toDigits] at this
    exact this
  · simp only [escaped]
    rw [if_pos ⟨by omega, hv⟩]
    simp

/-- Every text can be spelled, with each character spelled as itself (unless it is `"` or `\`), by any
escape standing for it, or by its code point. -/
theorem C41_spelling (spell : Char → Text)
    (hs : ∀ c, (spell c = [c] ∧ c ≠ '"' ∧ c ≠ '\\') ∨ ∃ v, Escape (spell c) v ∧ escaped v = some c)
    (t : Text) : parseString (stringPair (t.flatMap spell)) = .ok t := by
  have hd : Denotes (t.flatMap spell) (some t) := by
    induction t with
    | nil => exact .nil
    | cons c cs ih =>
      rw [List.flatMap_cons]
      rcases hs c with ⟨h1, h2, h3⟩ | ⟨v, h1, h2⟩
      · rw [h1]
        exact .plain h2 h3 ih
      · have := Denotes.escape h1 ih
        rw [h2] at this
        exact this
  exact (C41_string _ _ hd).1

/-- Spelling every character by its code point. -/
theorem C41_round_trip (t : Text) : parseString (stringPair (t.flatMap unicodeEscape)) = .ok t :=
  C41_spelling unicodeEscape (fun c => Or.inr ⟨_, unicodeEscape_spec c⟩) t

/-- Quoting only what must be quoted. -/
theorem C41_round_trip_minimal (t : Text) :
    parseString (stringPair (t.flatMap fun c =>
      if c = '"' then ['\\', '"'] else if c = '\\' then ['\\', '\\'] else [c])) = .ok t := by
  apply C41_spelling
  intro c
  by_cases h1 : c = '"'
  · subst h1; exact Or.inr ⟨_, .letter .quote, rfl⟩
  · by_cases h2 : c = '\\'
    · subst h2; exact Or.inr ⟨_, .letter .backslash, rfl⟩
    · exact Or.inl ⟨by rw [if_neg h1, if_neg h2], h1, h2⟩

/-- `\xHH` stands for the character with that code if it is ASCII and is reported otherwise. -/
theorem C41_code (a b : Char) (ha : isHex a) (hb : isHex b) :
    parseString (stringPair ['\\', 'x', a, b]) =
      if hexValue [a, b] < 128 then .ok [Char.ofNat (hexValue [a, b])] else .error := by
  have h := Denotes.escape (Escape.code ha hb) .nil
  rw [List.append_nil] at h
  rw [(C41_string _ _ h).1]
  simp only [escaped]
  by_cases hv : hexValue [a, b] < 128
  · rw [if_pos ⟨by omega, ofNat_small (by omega)⟩, if_pos hv]; rfl
  · rw [if_neg (fun hh => hv (by omega)), if_neg hv]; rfl

/-- `\u{...}` stands for the Unicode scalar value with that code and is reported if there is none. -/
theorem C41_unicode (ds : Text) (hd : ∀ d ∈ ds, isHex d) (h0 : 0 < ds.length) (h6 : ds.length ≤ 6) :
    parseString (stringPair ('\\' :: 'u' :: '{' :: (ds ++ ['}']))) =
      if (hexValue ds).isValidChar then .ok [Char.ofNat (hexValue ds)] else .error := by
  have h := Denotes.escape (Escape.unicode hd h0 h6) .nil
  rw [List.append_nil] at h
  rw [(C41_string _ _ h).1]
  simp only [escaped]
  by_cases hv : (hexValue ds).isValidChar
  · have : hexValue ds ≤ 0x10ffff := by rcases hv with h | h <;> omega
    rw [if_pos ⟨this, hv⟩, if_pos hv]; rfl
  · rw [if_neg (fun hh => hv hh.2), if_neg hv]; rfl

example : Denotes ['a', '\\', 'n', '\\', 'x', '4', '1'] (some ['a', '\n', 'A']) :=
  .plain (by decide) (by decide) (.escape (.letter .n)
    (.escape (s := []) (.code (a := '4') (b := '1') (by decide) (by decide)) .nil))

example : parseString (stringPair ['\\', 'x', '8', '0']) = .error := by decide

/-! ## C42: raw strings -/

/-- Without `#`, a raw string literal denotes its content.  (The claim also covers `r#"…"#`; see
`C42_pound_witness`.) -/
theorem C42_raw_string_partial (s : Text) : parseRawString (rawStringPair 0 s) = .ok s := rfl

/-- With one or more `#` the content is lost: the literal denotes `"` resp. `#` whatever is in it. -/
theorem C42_pound_witness (s : Text) :
    parseRawString (rawStringPair 1 s) = .ok ['"'] ∧
      ∀ n, parseRawString (rawStringPair (n + 2) s) = .ok ['#'] :=
  ⟨rfl, fun _ => rfl⟩

/-! ## C43: character ranges -/

/-- The spellings of a character between apostrophes: itself, or an escape. -/
inductive Spells : Text → Char → Prop where
  | plain {c} : c ≠ '"' → c ≠ '\\' → Spells [c] c
  | escape {e v c} : Escape e v → escaped v = some c → Spells e c

theorem Spells.unescape {a : Text} {c : Char} (h : Spells a c) : unescape a = some [c] := by
  cases h with
  | plain h1 h2 => rw [unescape_plain h1 h2]; rfl
  | escape he hv =>
    have := unescape_escape he []
    rw [List.append_nil] at this
    rw [this, hv]; rfl

/-- A range is read with the characters its ends spell.  (Every character has such a spelling; the one
spelling the meta-grammar admits beyond these is an unescaped `"` or `\`, see `C43_quote_witness`.) -/
theorem C43_range_partial (a b : Text) (c d : Char) (ha : Spells a c) (hb : Spells b d) :
    parseCharRange (rangePair a b) = .ok (c, d) := by
  have h1 : slice (charText a) 1 1 = some a := slice_mid ['\''] a ['\'']
  have h2 : slice (charText b) 1 1 = some b := slice_mid ['\''] b ['\'']
  simp only [parseCharRange, rangePair, h1, h2, ha.unescape, hb.unescape]

theorem C43_every_character (c : Char) : ∃ a, Spells a c :=
  ⟨_, .escape (unicodeEscape_spec c).1 (unicodeEscape_spec c).2⟩

/-- An end that is an escape standing for no character is reported. -/
theorem C43_bad_escape (a b : Text) (v : Char ⊕ (Nat × Nat)) (ha : Escape a v) (hv : escaped v = none) :
    parseCharRange (rangePair a b) = .error := by
  have h1 : slice (charText a) 1 1 = some a := slice_mid ['\''] a ['\'']
  have hu := unescape_escape ha []
  rw [List.append_nil, hv] at hu
  simp only [parseCharRange, rangePair, h1, hu]
  rfl

/-- The claim fails for an unescaped quotation mark, which the meta-grammar admits between apostrophes:
the parser panics.  An unescaped backslash is reported as an error. -/
theorem C43_quote_witness (b : Text) (d : Char) (hb : Spells b d) :
    parseCharRange (rangePair ['"'] b) = .panic ∧ parseCharRange (rangePair ['\\'] b) = .error := by
  have h1 : slice (charText ['"']) 1 1 = some ['"'] := slice_mid ['\''] ['"'] ['\'']
  have h3 : slice (charText ['\\']) 1 1 = some ['\\'] := slice_mid ['\''] ['\\'] ['\'']
  have h2 : slice (charText b) 1 1 = some b := slice_mid ['\''] b ['\'']
  have e1 : unescape ['"'] = some [] := rfl
  have e2 : unescape ['\\'] = none := rfl
  constructor
  · simp only [parseCharRange, rangePair, h1, h2, e1, hb.unescape]
  · simp only [parseCharRange, rangePair, h3, e2]

example : Spells ['a'] 'a' ∧ Spells ['\\', 'n'] '\n' :=
  ⟨.plain (by decide) (by decide), .escape (.letter .n) rfl⟩

/-! ## C44: bounded repeats -/

/-- What a bounded repeat with the given bounds should be. -/
def repeatSpec (a b : Option Nat) : Res (MetaRange Nat) :=
  if (∀ x ∈ a, x < 2 ^ 64) ∧ (∀ x ∈ b, x < 2 ^ 64) ∧ b ≠ some 0 ∧ (∀ x ∈ a, ∀ y ∈ b, x ≤ y) then
    .ok ⟨a, b⟩
  else .error

/-- `{a..b}`, `{a..}`, `{..b}`, `{..}`: accepted exactly when the bounds fit, are not contradictory and
allow at least one repetition, with the bounds as written. -/
theorem C44_repeat (a b : Option Nat) :
    parseBoundedRepeat (repeatPair (a.map decimal) (b.map decimal)) = repeatSpec a b := by
  unfold repeatSpec
  cases a with
  | none =>
    cases b with
    | none => simp [parseBoundedRepeat, repeatPair, boundPairs, parseRange, parseNumbers, Res.bind]
    | some y =>
      by_cases hy : y < 2 ^ 64
      · by_cases h0 : y = 0
        · subst h0
          simp [parseBoundedRepeat, repeatPair, boundPairs, parseRange, parseNumbers, Res.bind,
            usizeFromStr_decimal]
        · simp [parseBoundedRepeat, repeatPair, boundPairs, parseRange, parseNumbers, Res.bind,
            usizeFromStr_decimal, hy, h0]
      · simp [parseBoundedRepeat, repeatPair, boundPairs, parseRange, parseNumbers, Res.bind,
          usizeFromStr_decimal, hy]
  | some x =>
    by_cases hx : x < 2 ^ 64
    · cases b with
      | none => simp [parseBoundedRepeat, repeatPair, boundPairs, parseRange, parseNumbers, Res.bind,
          usizeFromStr_decimal, hx]
      | some y =>
        by_cases hy : y < 2 ^ 64
        · by_cases h0 : y = 0
          · subst h0
            by_cases hx0 : x = 0
            · subst hx0
              simp [parseBoundedRepeat, repeatPair, boundPairs, parseRange, parseNumbers, Res.bind,
                usizeFromStr_decimal]
            · simp [parseBoundedRepeat, repeatPair, boundPairs, parseRange, parseNumbers, Res.bind,
                usizeFromStr_decimal, hx]
          · by_cases hxy : x ≤ y
            · simp [parseBoundedRepeat, repeatPair, boundPairs, parseRange, parseNumbers, Res.bind,
                usizeFromStr_decimal, hx, hy, h0, hxy, Nat.not_lt.2 hxy]
            · simp [parseBoundedRepeat, repeatPair, boundPairs, parseRange, parseNumbers, Res.bind,
                usizeFromStr_decimal, hx, hy, h0, hxy, Nat.lt_of_not_le hxy]
        · simp [parseBoundedRepeat, repeatPair, boundPairs, parseRange, parseNumbers, Res.bind,
            usizeFromStr_decimal, hx, hy]
    · cases b <;> simp [parseBoundedRepeat, repeatPair, boundPairs, parseRange, parseNumbers, Res.bind,
        usizeFromStr_decimal, hx]

/-- `{n}` is `{n..n}`. -/
theorem C44_exact (n : Nat) : parseBoundedRepeat (exactPair (decimal n)) = repeatSpec (some n) (some n) := by
  unfold repeatSpec
  by_cases hx : n < 2 ^ 64
  · by_cases h0 : n = 0
    · subst h0
      simp [parseBoundedRepeat, exactPair, parseRange, parseNumbers, Res.bind, usizeFromStr_decimal]
    · simp [parseBoundedRepeat, exactPair, parseRange, parseNumbers, Res.bind, usizeFromStr_decimal, hx, h0]
  · simp [parseBoundedRepeat, exactPair, parseRange, parseNumbers, Res.bind, usizeFromStr_decimal, hx]

/-- Whatever is accepted, from any pairs at all, is satisfiable. -/
theorem C44_satisfiable (pair : MetaPair) (r : MetaRange Nat) (h : parseBoundedRepeat pair = .ok r) :
    r.stop ≠ some 0 ∧ ∀ x ∈ r.start, ∀ y ∈ r.stop, x ≤ y := by
  unfold parseBoundedRepeat at h
  cases hr : parseRange usizeFromStr pair.inner with
  | error => rw [hr] at h; cases h
  | panic => rw [hr] at h; cases h
  | ok range =>
    rw [hr] at h
    simp only [Res.bind] at h
    obtain ⟨a, b⟩ := range
    cases a with
    | none =>
      cases b with
      | none => cases h; simp
      | some y =>
        simp only at h
        split at h
        · cases h
        · cases h; simp; assumption
    | some x =>
      cases b with
      | none => cases h; simp
      | some y =>
        simp only at h
        split at h
        · cases h
        · split at h
          · cases h
          · cases h; simp; exact ⟨by assumption, by omega⟩

example : parseBoundedRepeat (repeatPair (some ['2']) (some ['5'])) = .ok ⟨some 2, some 5⟩ := by decide
example : parseBoundedRepeat (repeatPair (some ['5']) (some ['2'])) = .error := by decide

end Pest3.Props
