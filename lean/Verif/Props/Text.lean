import Verif.LinesSpan

/-!
# Properties C01–C11, C56, C57: text positions and spans

`Boundary`, `At`, `splitLines` are the specification vocabulary: `Boundary t i` says the text can be cut
between two characters at byte `i`; `p.At pre suf` says the cursor `p` stands between `pre` and `suf`.
-/

namespace Pest3.Props

open Pest3

/-- "a嗨\nb": one-, three- and one-byte characters. -/
def sample : Str := ⟨100, ['a', '嗨', '\n', 'b']⟩

/-! ## C01 -/

theorem C01_position_new (s : Str) (i : Nat) :
    Position.new s i = (if Boundary s.text i then some ⟨s, i⟩ else none) := by
  cases h : Position.new s i with
  | none =>
    rw [if_neg]
    intro hb
    have := Position.new_eq_some.2 ⟨hb, rfl⟩
    rw [h] at this; cases this
  | some p =>
    obtain ⟨h1, rfl⟩ := Position.new_eq_some.1 h
    rw [if_pos h1]

theorem C01_span_new (s : Str) (a b : Nat) :
    Span.new s a b =
      (if a ≤ b ∧ Boundary s.text a ∧ Boundary s.text b then some ⟨s, a, b⟩ else none) := by
  cases h : Span.new s a b with
  | none =>
    rw [if_neg]
    rintro ⟨h1, h2, h3⟩
    have := Span.new_eq_some.2 ⟨h1, h2, h3, rfl⟩
    rw [h] at this; cases this
  | some p =>
    obtain ⟨h1, h2, h3, rfl⟩ := Span.new_eq_some.1 h
    rw [if_pos ⟨h1, h2, h3⟩]

/-- The byte-level test of the standard library is the cut-between-characters specification. -/
theorem C01_byte_test (t : Text) (i : Nat) : isCharBoundary (bytes t) i = true ↔ Boundary t i :=
  isCharBoundary_iff

example : Boundary sample.text 4 ∧ ¬ Boundary sample.text 2 ∧ (Position.new sample 4).isSome := by
  refine ⟨⟨['a', '嗨'], ['\n', 'b'], rfl, rfl⟩, ?_, ?_⟩
  · rw [← isCharBoundary_iff]; decide
  · decide

/-! ## C02: every cursor operation, and every sequence of them -/

/-- The cursor operations of `Position` with their arguments. -/
inductive CursorOp where
  | skip (n : Nat)
  | skipBack (n : Nat)
  | skipUntil (strings : List Text)
  | nextChar
  | matchChar (c : Char)
  | matchCharBy (f : Char → Bool)
  | matchString (s : Text)
  | matchInsensitive (s : Text)
  | matchRange (lo hi : Char)

/-- Run one operation; the Boolean is the reported success. -/
def CursorOp.run : CursorOp → Position → Option (Bool × Position)
  | .skip n, p => p.skip n
  | .skipBack n, p => p.skipBack n
  | .skipUntil ss, p => some (p.skipUntil ss)
  | .nextChar, p => p.nextChar.map fun r => (r.1.isSome, r.2)
  | .matchChar c, p => (p.matchChar c).map fun b => (b, p)
  | .matchCharBy f, p => p.matchCharBy f
  | .matchString s, p => some (p.matchString s)
  | .matchInsensitive s, p => p.matchInsensitive s
  | .matchRange lo hi, p => p.matchRange lo hi

/-- The documented exception: `skip_until` moves to the end when nothing is found. -/
def CursorOp.isSkipUntil : CursorOp → Bool
  | .skipUntil _ => true
  | _ => false

theorem C02_cursor_op (op : CursorOp) (p : Position) (hv : p.Valid) :
    ∃ b q, op.run p = some (b, q) ∧ q.Valid ∧ q.input = p.input ∧ q.pos ≤ q.input.len ∧
      (b = false → op.isSkipUntil = false → q = p) := by
  obtain ⟨pre, suf, h⟩ := Position.valid_iff_at.1 hv
  have hself : p.Valid ∧ p.input = p.input ∧ p.pos ≤ p.input.len := ⟨hv, rfl, h.le_len⟩
  have mk : ∀ q : Position, ∀ pre' suf', q.At pre' suf' → q.input = p.input →
      q.Valid ∧ q.input = p.input ∧ q.pos ≤ q.input.len :=
    fun q _ _ hq hi => ⟨hq.valid, hi, hq.le_len⟩
  cases op with
  | skip n =>
    simp only [CursorOp.run, h.skip]
    split
    · have h' : p.At pre (suf.take n ++ suf.drop n) := by simpa using h
      obtain ⟨a, b, c⟩ := mk _ _ _ h'.advance rfl
      exact ⟨_, _, rfl, a, b, c, by simp⟩
    · exact ⟨_, _, rfl, hself.1, rfl, hself.2.2, fun _ _ => rfl⟩
  | skipBack n =>
    simp only [CursorOp.run, h.skipBack]
    split
    · have h' : (Position.mk p.input (utf8Len (pre.take (pre.length - n)))).At
          (pre.take (pre.length - n)) (pre.drop (pre.length - n) ++ suf) :=
        ⟨by rw [h.1, ← List.append_assoc, List.take_append_drop], rfl⟩
      obtain ⟨a, b, c⟩ := mk _ _ _ h' rfl
      exact ⟨_, _, rfl, a, b, c, by simp⟩
    · exact ⟨_, _, rfl, hself.1, rfl, hself.2.2, fun _ _ => rfl⟩
  | skipUntil ss =>
    simp only [CursorOp.run, Position.skipUntil, CursorOp.isSkipUntil]
    split
    · next i hi =>
      obtain ⟨_, _, _, ⟨pre', suf', e1, e2, _⟩, _⟩ := Position.skipUntilLoop_some hi
      obtain ⟨a, b, c⟩ := mk ⟨p.input, i⟩ pre' suf' ⟨e1, e2.symm⟩ rfl
      exact ⟨_, _, rfl, a, b, c, by simp⟩
    · obtain ⟨a, b, c⟩ := mk ⟨p.input, p.input.len⟩ p.input.text [] ⟨by simp, rfl⟩ rfl
      exact ⟨_, _, rfl, a, b, c, by simp⟩
  | nextChar =>
    simp only [CursorOp.run, h.nextChar]
    cases suf with
    | nil => exact ⟨_, _, rfl, hself.1, rfl, hself.2.2, fun _ _ => rfl⟩
    | cons c cs =>
      obtain ⟨a, b, d⟩ := mk _ _ _ h.advance_cons rfl
      exact ⟨_, _, rfl, a, b, d, by simp⟩
  | matchChar c =>
    simp only [CursorOp.run, h.matchChar]
    exact ⟨_, _, rfl, hself.1, rfl, hself.2.2, fun _ _ => rfl⟩
  | matchCharBy f =>
    simp only [CursorOp.run, h.matchCharBy]
    cases suf with
    | nil => exact ⟨_, _, rfl, hself.1, rfl, hself.2.2, fun _ _ => rfl⟩
    | cons c cs =>
      simp only
      split
      · obtain ⟨a, b, d⟩ := mk _ _ _ h.advance_cons rfl
        exact ⟨_, _, rfl, a, b, d, by simp⟩
      · exact ⟨_, _, rfl, hself.1, rfl, hself.2.2, fun _ _ => rfl⟩
  | matchString s =>
    simp only [CursorOp.run, h.matchString]
    split
    · next hp =>
      obtain ⟨r, rfl⟩ := hp
      obtain ⟨a, b, d⟩ := mk _ _ _ h.advance rfl
      exact ⟨_, _, rfl, a, b, d, by simp⟩
    · exact ⟨_, _, rfl, hself.1, rfl, hself.2.2, fun _ _ => rfl⟩
  | matchInsensitive s =>
    simp only [CursorOp.run, h.matchInsensitive]
    split
    · next hp =>
      obtain ⟨m, r, rfl, hl⟩ := insensPrefix_iff.1 hp
      have hlen : utf8Len s = utf8Len m := by
        rw [← utf8Len_map_toLower s, ← hl, utf8Len_map_toLower]
      obtain ⟨a, b, d⟩ := mk _ _ _ h.advance rfl
      rw [hlen]
      exact ⟨_, _, rfl, a, b, d, by simp⟩
    · exact ⟨_, _, rfl, hself.1, rfl, hself.2.2, fun _ _ => rfl⟩
  | matchRange lo hi =>
    simp only [CursorOp.run, h.matchRange]
    cases suf with
    | nil => exact ⟨_, _, rfl, hself.1, rfl, hself.2.2, fun _ _ => rfl⟩
    | cons c cs =>
      simp only
      split
      · obtain ⟨a, b, d⟩ := mk _ _ _ h.advance_cons rfl
        exact ⟨_, _, rfl, a, b, d, by simp⟩
      · exact ⟨_, _, rfl, hself.1, rfl, hself.2.2, fun _ _ => rfl⟩

/-- Run a whole history of operations, ignoring the reported Booleans. -/
def runOps : List CursorOp → Position → Option Position
  | [], p => some p
  | op :: ops, p =>
    match op.run p with
    | none => none
    | some (_, q) => runOps ops q

/-- No history of cursor operations panics or leaves a character boundary. -/
theorem C02_cursor_history (ops : List CursorOp) (s : Str) (i : Nat) (p : Position)
    (hp : Position.new s i = some p) :
    ∃ q, runOps ops p = some q ∧ q.Valid ∧ q.input = s ∧ q.pos ≤ s.len := by
  obtain ⟨hb, rfl⟩ := Position.new_eq_some.1 hp
  have : ∀ (ops : List CursorOp) (p : Position), p.Valid → p.input = s →
      ∃ q, runOps ops p = some q ∧ q.Valid ∧ q.input = s ∧ q.pos ≤ s.len := by
    intro ops
    induction ops with
    | nil =>
      intro p hv hi
      exact ⟨p, rfl, hv, hi, by rw [← hi]; exact Boundary.le hv⟩
    | cons op ops ih =>
      intro p hv hi
      obtain ⟨b, q, h1, h2, h3, _, _⟩ := C02_cursor_op op p hv
      obtain ⟨q', h4⟩ := ih q h2 (h3.trans hi)
      exact ⟨q', by simp [runOps, h1, h4.1], h4.2⟩
  exact this ops _ hb rfl

example : ∃ p, Position.new sample 1 = some p ∧
    (runOps [.matchString ['嗨'], .skip 1, .skipBack 2, .matchRange 'a' 'z'] p).map (·.pos) = some 1 :=
  ⟨⟨sample, 1⟩, by decide, by decide⟩

/-! ## C03: literals -/

/-- A literal matches exactly when the remaining text starts with it, and consumes exactly it. -/
theorem C03_match_string (p : Position) (pre suf s : Text) (h : p.At pre suf) :
    (∀ rest, suf = s ++ rest →
      p.matchString s = (true, ⟨p.input, p.pos + utf8Len s⟩) ∧
      (Position.mk p.input (p.pos + utf8Len s)).At (pre ++ s) rest) ∧
    ((¬ ∃ rest, suf = s ++ rest) → p.matchString s = (false, p)) := by
  rw [h.matchString]
  constructor
  · rintro rest rfl
    exact ⟨if_pos ⟨rest, rfl⟩, h.advance⟩
  · intro hn
    rw [if_neg]
    rintro ⟨r, hr⟩
    exact hn ⟨r, hr.symm⟩

example : (Position.mk sample 1).At ['a'] ['嗨', '\n', 'b'] ∧
    (Position.mk sample 1).matchString ['嗨'] = (true, ⟨sample, 4⟩) :=
  ⟨⟨rfl, by decide⟩, by decide⟩

/-! ## C04: case-insensitive literals -/

/-- An insensitive literal matches exactly when the remaining text starts with a text equal to it up
to ASCII case, and consumes exactly that text. -/
theorem C04_match_insensitive (p : Position) (pre suf s : Text) (h : p.At pre suf) :
    (∀ m rest, suf = m ++ rest → m.map Char.toLower = s.map Char.toLower →
      p.matchInsensitive s = some (true, ⟨p.input, p.pos + utf8Len m⟩) ∧
      (Position.mk p.input (p.pos + utf8Len m)).At (pre ++ m) rest) ∧
    ((¬ ∃ m rest, suf = m ++ rest ∧ m.map Char.toLower = s.map Char.toLower) →
      p.matchInsensitive s = some (false, p)) := by
  rw [h.matchInsensitive]
  constructor
  · rintro m rest rfl hl
    have hlen : utf8Len s = utf8Len m := by
      rw [← utf8Len_map_toLower s, ← hl, utf8Len_map_toLower]
    rw [if_pos (insensPrefix_iff.2 ⟨m, rest, rfl, hl⟩), hlen]
    exact ⟨rfl, h.advance⟩
  · intro hn
    rw [if_neg]
    intro hp
    exact hn (insensPrefix_iff.1 hp)

/-- `Char.toLower` folds exactly the ASCII capitals. -/
theorem C04_fold_is_ascii (c : Char) :
    (c.toLower = if 'A' ≤ c ∧ c ≤ 'Z' then Char.ofNat (c.toNat + 32) else c) := by
  by_cases h : c.toNat < 128
  · have : ∀ n : Fin 128, (Char.ofNat n).toLower =
        if 'A' ≤ Char.ofNat n ∧ Char.ofNat n ≤ 'Z' then Char.ofNat ((Char.ofNat n).toNat + 32)
        else Char.ofNat n := by decide
    have := this ⟨c.toNat, h⟩
    simpa only [Char.ofNat_toNat] using this
  · rw [toLower_eq_self_of_ge h, if_neg]
    rintro ⟨_, h2⟩
    have h2 : c.toNat ≤ 'Z'.toNat := h2
    have : 'Z'.toNat = 90 := by decide
    omega

example : (Position.mk ⟨0, ['X', 'y', 'Z', '1']⟩ 0).matchInsensitive ['x', 'Y'] =
    some (true, ⟨⟨0, ['X', 'y', 'Z', '1']⟩, 2⟩) := by decide

/-! ## C05: single characters -/

theorem C05_match_range (p : Position) (pre suf : Text) (lo hi : Char) (h : p.At pre suf) :
    p.matchRange lo hi = match suf with
      | [] => some (false, p)
      | c :: _ => if lo ≤ c ∧ c ≤ hi then some (true, ⟨p.input, p.pos + c.utf8Size⟩)
        else some (false, p) := by
  rw [h.matchRange]
  cases suf with
  | nil => rfl
  | cons c cs => simp

theorem C05_match_char_by (p : Position) (pre suf : Text) (f : Char → Bool) (h : p.At pre suf) :
    p.matchCharBy f = match suf with
      | [] => some (false, p)
      | c :: _ => if f c then some (true, ⟨p.input, p.pos + c.utf8Size⟩) else some (false, p) :=
  h.matchCharBy f

theorem C05_next_char (p : Position) (pre suf : Text) (h : p.At pre suf) :
    p.nextChar = match suf with
      | [] => some (none, p)
      | c :: _ => some (some c, ⟨p.input, p.pos + c.utf8Size⟩) :=
  h.nextChar

example : (Position.mk sample 1).matchRange '嗨' '嗨' = some (true, ⟨sample, 4⟩) := by decide

/-! ## C06: skipping -/

theorem C06_skip (p : Position) (pre suf : Text) (n : Nat) (h : p.At pre suf) :
    (n ≤ suf.length → ∃ q, p.skip n = some (true, q) ∧ q.input = p.input ∧
      q.At (pre ++ suf.take n) (suf.drop n)) ∧
    (suf.length < n → p.skip n = some (false, p)) := by
  rw [h.skip]
  constructor
  · intro hn
    have h' : p.At pre (suf.take n ++ suf.drop n) := by simpa using h
    exact ⟨_, if_pos hn, rfl, h'.advance⟩
  · intro hn
    rw [if_neg (by omega)]

theorem C06_skip_back (p : Position) (pre suf : Text) (n : Nat) (h : p.At pre suf) :
    (n ≤ pre.length → ∃ q, p.skipBack n = some (true, q) ∧ q.input = p.input ∧
      q.At (pre.take (pre.length - n)) (pre.drop (pre.length - n) ++ suf)) ∧
    (pre.length < n → p.skipBack n = some (false, p)) := by
  rw [h.skipBack]
  constructor
  · intro hn
    refine ⟨_, if_pos hn, rfl, ?_, rfl⟩
    rw [h.1, ← List.append_assoc, List.take_append_drop]
  · intro hn
    rw [if_neg (by omega)]

theorem C06_skip_then_back (p q : Position) (n : Nat) (hv : p.Valid)
    (hs : p.skip n = some (true, q)) : q.skipBack n = some (true, p) := by
  obtain ⟨pre, suf, h⟩ := Position.valid_iff_at.1 hv
  have hn : n ≤ suf.length := by
    apply Nat.le_of_not_lt
    intro hlt
    rw [(C06_skip p pre suf n h).2 hlt] at hs
    cases hs
  obtain ⟨q', h1, h2, h3⟩ := (C06_skip p pre suf n h).1 hn
  rw [h1] at hs
  cases hs
  obtain ⟨r, h4, h5, h6⟩ := (C06_skip_back q _ _ n h3).1 (by simp; omega)
  rw [h4]
  have e : (pre ++ suf.take n).length - n = pre.length := by simp; omega
  rw [e, List.take_left'] at h6
  · have : r.pos = p.pos := by rw [h6.2, h.2]
    cases r; cases p; simp_all
  · rfl

theorem C06_back_then_skip (p q : Position) (n : Nat) (hv : p.Valid)
    (hs : p.skipBack n = some (true, q)) : q.skip n = some (true, p) := by
  obtain ⟨pre, suf, h⟩ := Position.valid_iff_at.1 hv
  have hn : n ≤ pre.length := by
    apply Nat.le_of_not_lt
    intro hlt
    rw [(C06_skip_back p pre suf n h).2 hlt] at hs
    cases hs
  obtain ⟨q', h1, h2, h3⟩ := (C06_skip_back p pre suf n h).1 hn
  rw [h1] at hs
  cases hs
  have hl : (pre.drop (pre.length - n)).length = n := by simp; omega
  obtain ⟨r, h4, h5, h6⟩ := (C06_skip q _ _ n h3).1 (by simp; omega)
  rw [h4]
  have e : (pre.drop (pre.length - n) ++ suf).take n = pre.drop (pre.length - n) := by
    rw [List.take_append_of_le_length (by omega), List.take_of_length_le (by omega)]
  rw [e, List.take_append_drop] at h6
  have : r.pos = p.pos := by rw [h6.2, h.2]
  cases r; cases p; simp_all

example : (Position.mk sample 1).Valid ∧ (Position.mk sample 1).skip 2 = some (true, ⟨sample, 5⟩) ∧
    (Position.mk sample 5).skipBack 2 = some (true, ⟨sample, 1⟩) := by
  refine ⟨⟨['a'], ['嗨', '\n', 'b'], rfl, by decide⟩, by decide, by decide⟩

/-! ## C07: line and column -/

/-- Line = 1 + number of newlines before the cursor; column = 1 + number of characters after the last
of them. -/
theorem C07_line_col (p : Position) (pre suf : Text) (h : p.At pre suf) :
    ∃ line col, p.lineCol = some (line, col) ∧ line = 1 + pre.count '\n' ∧
      ∃ before current, pre = before ++ current ∧ '\n' ∉ current ∧
        (before = [] ∨ ∃ b, before = b ++ ['\n']) ∧ col = 1 + current.length := by
  refine ⟨_, _, h.lineCol, rfl, uptoNewline pre, sinceNewline pre,
    (uptoNewline_append_sinceNewline pre).symm, sinceNewline_not_mem pre, ?_, rfl⟩
  by_cases hm : '\n' ∈ pre
  · exact Or.inr (uptoNewline_ends hm)
  · exact Or.inl (uptoNewline_eq_nil hm)

example : (Position.mk sample 5).At ['a', '嗨', '\n'] ['b'] ∧
    (Position.mk sample 5).lineCol = some (2, 1) :=
  ⟨⟨rfl, by decide⟩, by
    rw [Position.At.lineCol (pre := ['a', '嗨', '\n']) (suf := ['b']) ⟨rfl, by decide⟩]; decide⟩

/-! ## C08: the line containing a position -/

theorem C08_line_of (p : Position) (pre suf : Text) (h : p.At pre suf) :
    ∃ before l1 l2 after, p.lineOf = some (l1 ++ l2) ∧ pre = before ++ l1 ∧ suf = l2 ++ after ∧
      '\n' ∉ l1 ∧ (before = [] ∨ ∃ b, before = b ++ ['\n']) ∧
      (('\n' ∉ l2 ∧ after = []) ∨ ∃ m, l2 = m ++ ['\n'] ∧ '\n' ∉ m) := by
  refine ⟨uptoNewline pre, sinceNewline pre, restOfLine suf, afterLine suf, h.lineOf,
    (uptoNewline_append_sinceNewline pre).symm, (restOfLine_append_afterLine suf).symm,
    sinceNewline_not_mem pre, ?_, ?_⟩
  · by_cases hm : '\n' ∈ pre
    · exact Or.inr (uptoNewline_ends hm)
    · exact Or.inl (uptoNewline_eq_nil hm)
  · by_cases hm : '\n' ∈ suf
    · obtain ⟨m, h1, h2⟩ := restOfLine_newline hm
      exact Or.inr ⟨m, h2, h1⟩
    · have := restOfLine_no_newline hm
      exact Or.inl ⟨by rw [this.1]; exact hm, this.2⟩

/-- Column and line agree: the first `col - 1` characters of `line_of` are those between the line's start
and the cursor. -/
theorem C08_line_of_col (p : Position) (hv : p.Valid) :
    ∃ line col text, p.lineCol = some (line, col) ∧ p.lineOf = some text ∧
      col - 1 ≤ text.length ∧ p.findLineStart + utf8Len (text.take (col - 1)) = p.pos := by
  obtain ⟨pre, suf, h⟩ := Position.valid_iff_at.1 hv
  refine ⟨_, _, _, h.lineCol, h.lineOf, ?_, ?_⟩
  · simp
  · rw [Nat.add_sub_cancel_left, List.take_left', h.findLineStart, ← utf8Len_append,
      uptoNewline_append_sinceNewline, h.2]
    rfl

example : (Position.mk sample 1).lineOf = some ['a', '嗨', '\n'] := by decide

/-! ## C09: spans -/

/-- `as_str` is the text between the two cuts. -/
theorem C09_as_str (sp : Span) (hv : sp.Valid) :
    ∃ a m b, sp.input.text = a ++ m ++ b ∧ utf8Len a = sp.start ∧ utf8Len (a ++ m) = sp.stop ∧
      sp.asStr = some m ∧ utf8Len m = sp.stop - sp.start := by
  obtain ⟨hle, ⟨p1, s1, e1, l1⟩, ⟨p2, s2, e2, l2⟩⟩ := hv
  obtain ⟨m, h1, h2⟩ := split_le (e1.symm.trans e2) (by omega)
  refine ⟨p1, m, s2, by rw [e2, h1], l1, by rw [← h1, l2], ?_, ?_⟩
  · unfold Span.asStr
    rw [e2, h1, ← l1, ← l2, h1, utf8Len_append]
    exact getRange_append _ _ _
  · have := congrArg utf8Len h1
    rw [utf8Len_append] at this
    omega

theorem C09_split (sp : Span) (hv : sp.Valid) :
    ∃ a b, sp.split = some (a, b) ∧ a.Valid ∧ b.Valid ∧ a.pos = sp.start ∧ b.pos = sp.stop ∧
      sp.startPos = some a ∧ sp.endPos = some b ∧ a.span b = some sp := by
  have h1 : Position.newUnchecked sp.input sp.start = some ⟨sp.input, sp.start⟩ := by
    unfold Position.newUnchecked
    rw [if_pos (getFrom_isSome.2 hv.2.1)]
  have h2 : Position.newUnchecked sp.input sp.stop = some ⟨sp.input, sp.stop⟩ := by
    unfold Position.newUnchecked
    rw [if_pos (getFrom_isSome.2 hv.2.2)]
  refine ⟨⟨sp.input, sp.start⟩, ⟨sp.input, sp.stop⟩, ?_, hv.2.1, hv.2.2, rfl, rfl, h1, h2, ?_⟩
  · unfold Span.split
    rw [h1, h2]
  · exact Position.span_eq_some rfl hv.2.1 hv.2.2 hv.1

/-- The first and last included offset denoted by range bounds on a text of length `len`. -/
def boundsOf (len : Nat) : Span.Bound → Span.Bound → Nat × Nat
  | lo, hi =>
    ((match lo with | .included i => i | .excluded i => i + 1 | .unbounded => 0),
     (match hi with | .included i => i + 1 | .excluded i => i | .unbounded => len))

/-- `get` selects exactly the sub-text between the bounds, relative to the span. -/
theorem C09_get (sp : Span) (lo hi : Span.Bound) (hv : sp.Valid) :
    ∃ text, sp.asStr = some text ∧
      let r := boundsOf (utf8Len text) lo hi
      if r.1 ≤ r.2 ∧ Boundary text r.1 ∧ Boundary text r.2 then
        ∃ sub, sp.get lo hi = some (some sub) ∧ sub.Valid ∧ sub.input = sp.input ∧
          sub.asStr = getRange text r.1 r.2 ∧ sub.start = sp.start + r.1 ∧ sub.stop = sp.start + r.2
      else sp.get lo hi = some none := by
  obtain ⟨a, m, b, e, l1, l2, hs, hl⟩ := C09_as_str sp hv
  refine ⟨m, hs, ?_⟩
  have hget : sp.get lo hi = some ((getRange m (boundsOf (utf8Len m) lo hi).1
      (boundsOf (utf8Len m) lo hi).2).map fun _ =>
        (⟨sp.input, sp.start + (boundsOf (utf8Len m) lo hi).1,
          sp.start + (boundsOf (utf8Len m) lo hi).2⟩ : Span)) := by
    unfold Span.get
    rw [hs]
    cases lo <;> cases hi <;> rfl
  simp only
  generalize boundsOf (utf8Len m) lo hi = r at hget
  obtain ⟨x, y⟩ := r
  rw [hget]
  split
  · next hc =>
    obtain ⟨h1, ⟨u, v, e1, f1⟩, ⟨u', v', e2, f2⟩⟩ := hc
    simp only at h1 f1 f2
    obtain ⟨w, g1, g2⟩ := split_le (e1.symm.trans e2) (by omega)
    subst g1
    have hgr : getRange m x y = some w := by
      rw [e2, ← f1, ← f2, utf8Len_append]
      exact getRange_append _ _ _
    have hval : (Span.mk sp.input (sp.start + x) (sp.start + y)).Valid := by
      refine ⟨by simp; omega, ⟨a ++ u, v ++ b, ?_, ?_⟩, ⟨a ++ (u ++ w), v' ++ b, ?_, ?_⟩⟩
      · rw [e, e1]; simp
      · rw [utf8Len_append, l1, f1]
      · rw [e, e2]; simp
      · rw [utf8Len_append, l1, f2]
    refine ⟨⟨sp.input, sp.start + x, sp.start + y⟩, by rw [hgr]; rfl, hval, rfl, ?_, rfl, rfl⟩
    rw [hgr]
    obtain ⟨a', m', b', e', l1', l2', hs', -⟩ := C09_as_str _ hval
    rw [hs']
    simp only at e' l1' l2'
    have E : (a ++ u) ++ (w ++ (v' ++ b)) = a' ++ (m' ++ b') := by
      rw [← List.append_assoc a' m' b', ← e', e, e2]; simp
    obtain ⟨q1, q2⟩ := split_unique E (by rw [utf8Len_append, l1, f1, l1'])
    have hlw : utf8Len w = utf8Len m' := by
      have f2' := f2
      rw [utf8Len_append] at f2' l2'
      omega
    obtain ⟨q3, -⟩ := split_unique q2 hlw
    rw [q3]
  · next hc =>
    have : getRange m x y = none := by
      cases hg : getRange m x y with
      | none => rfl
      | some z => exact absurd (getRange_isSome.1 (by rw [hg]; rfl)) hc
    rw [this]; rfl

example : (Span.mk sample 1 5).Valid ∧ (Span.mk sample 1 5).asStr = some ['嗨', '\n'] ∧
    (Span.mk sample 1 5).get (.included 3) .unbounded = some (some ⟨sample, 4, 5⟩) := by
  refine ⟨by decide, by decide, by decide⟩

/-! ## C10: merging -/

/-- Specification: an offset range covers `i`. -/
def covers (sp : Span) (i : Nat) : Prop := sp.start ≤ i ∧ i < sp.stop

theorem C10_merge (a b : Span) (ha : a.Valid) (hb : b.Valid) (hin : a.input = b.input) :
    (a.start ≤ b.stop ∧ b.start ≤ a.stop →
      ∃ m, a.merge b = some m ∧ m.Valid ∧ m.input = a.input ∧
        (∀ i, covers m i ↔ covers a i ∨ covers b i) ∧
        (m.start = a.start ∨ m.start = b.start) ∧ (m.stop = a.stop ∨ m.stop = b.stop)) ∧
    (¬ (a.start ≤ b.stop ∧ b.start ≤ a.stop) → a.merge b = none) := by
  obtain ⟨a1, a2, a3⟩ := ha
  obtain ⟨b1, b2, b3⟩ := hb
  rw [← hin] at b2 b3
  constructor
  · rintro ⟨h1, h2⟩
    have hmin : Boundary a.input.text (min a.start b.start) := by
      rw [Nat.min_def]; split <;> assumption
    have hmax : Boundary a.input.text (max a.stop b.stop) := by
      rw [Nat.max_def]; split <;> assumption
    have hle : min a.start b.start ≤ max a.stop b.stop := by omega
    refine ⟨⟨a.input, min a.start b.start, max a.stop b.stop⟩, ?_, ⟨hle, hmin, hmax⟩, rfl, ?_, ?_, ?_⟩
    · unfold Span.merge
      rw [if_pos (by simp; omega)]
      exact Span.new_eq_some.2 ⟨hle, hmin, hmax, rfl⟩
    · intro i
      simp only [covers]
      omega
    · simp only; omega
    · simp only; omega
  · intro h
    unfold Span.merge
    rw [if_neg]
    simp; omega

theorem C10_merge_comm (a b : Span) (hin : a.input = b.input) : a.merge b = b.merge a := by
  unfold Span.merge
  rw [hin, Nat.min_comm, Nat.max_comm]
  congr 1
  simp [and_comm]

example : (Span.mk sample 0 4).merge ⟨sample, 4, 6⟩ = some ⟨sample, 0, 6⟩ ∧
    (Span.mk sample 0 1).merge ⟨sample, 4, 6⟩ = none := by decide

/-! ## C11: lines -/

/-- The lines of any text: nothing lost, at most one newline per line, at its end. -/
theorem C11_lines_partition (s : Str) :
    (Span.mk s 0 s.len).linesSpan = lineSpansFrom s 0 (splitLines s.text) ∧
    (Span.mk s 0 s.len).lines = some (splitLines s.text) ∧
    (splitLines s.text).flatten = s.text ∧
    ∀ l ∈ splitLines s.text, l ≠ [] ∧ ('\n' ∉ l ∨ ∃ m, '\n' ∉ m ∧ l = m ++ ['\n']) := by
  have hv : (Span.mk s 0 s.len).Valid := ⟨Nat.zero_le _, boundary_zero _, boundary_len _⟩
  have key : (Span.mk s 0 s.len).linesSpan = lineSpansFrom s 0 (splitLines s.text) := by
    unfold Span.linesSpan
    rw [Span.linesFrom_spec hv _ (Nat.le_refl _), List.filter_eq_self]
    intro l hl
    have h := lineSpansFrom_mem hl
    have h4 := h.2.2.2 (fun x hx => (splitLines_mem hx).1)
    rw [splitLines_flatten] at h
    simp only at h
    have : l.start ≤ s.len := by unfold Str.len; omega
    simp only [this]
    simp
    omega
  refine ⟨key, ?_, splitLines_flatten _, fun l hl => splitLines_mem hl⟩
  unfold Span.lines
  rw [key]
  have : ∀ (ls : List Text) (pre : Text), s.text = pre ++ ls.flatten →
      (lineSpansFrom s (utf8Len pre) ls).mapM Span.asStr = some ls := by
    intro ls
    induction ls with
    | nil => intro pre _; rfl
    | cons l ls ih =>
      intro pre hpre
      have h1 : Span.asStr ⟨s, utf8Len pre, utf8Len pre + utf8Len l⟩ = some l := by
        unfold Span.asStr
        simp only
        rw [hpre, List.flatten_cons, ← List.append_assoc]
        exact getRange_append _ _ _
      have h2 := ih (pre ++ l) (by rw [hpre]; simp)
      rw [utf8Len_append] at h2
      simp only [lineSpansFrom, List.mapM_cons, h1, h2]
      rfl
  have := this (splitLines s.text) [] (by simp [splitLines_flatten])
  simpa using this

/-- For an arbitrary span: exactly the lines of the text that end after the span's start and begin no
later than its end. -/
theorem C11_lines_of_span (sp : Span) (hv : sp.Valid) :
    sp.linesSpan = (lineSpansFrom sp.input 0 (splitLines sp.input.text)).filter
      (fun l => decide (sp.start < l.stop) && decide (l.start ≤ sp.stop)) :=
  Span.linesFrom_spec hv _ (Nat.le_refl _)

/-- The iterator is exhausted: further calls yield nothing more. -/
theorem C11_iterator_exhausted (sp : Span) (hv : sp.Valid) (n : Nat) (hn : sp.input.len + 1 ≤ n) :
    sp.linesFrom n sp.start = sp.linesSpan := by
  rw [C11_lines_of_span sp hv]
  exact Span.linesFrom_spec hv n hn

/-- A span ending exactly where a line starts also yields that next line, of which it covers nothing:
the documentation "lines (partially) covered" is not exact. -/
theorem C11_extra_line_witness :
    (Span.mk sample 0 5).Valid ∧
      (Span.mk sample 0 5).linesSpan = [⟨sample, 0, 5⟩, ⟨sample, 5, 6⟩] ∧
      ∀ i, ¬ (covers ⟨sample, 0, 5⟩ i ∧ covers ⟨sample, 5, 6⟩ i) := by
  refine ⟨by decide, by decide, ?_⟩
  rintro i ⟨⟨_, h1⟩, ⟨h2, _⟩⟩
  simp at h1 h2
  omega

example : (Span.mk sample 0 6).lines = some [['a', '嗨', '\n'], ['b']] := by decide

/-! ## C56: comparisons -/

/-- On positions of one input: comparison never panics, orders by offset, and agrees with equality and
with the hashed key. -/
theorem C56_cmp (a b : Position) (h : a.input = b.input) :
    a.cmp b = some (compare a.pos b.pos) ∧
    (a.cmp b = some .eq ↔ a.eq b = true) ∧
    (a.eq b = true ↔ a = b) ∧
    (a.eq b = true → a.hashKey = b.hashKey) := by
  have h1 : a.cmp b = some (compare a.pos b.pos) := by
    unfold Position.cmp; rw [if_pos (by rw [h])]
  have h2 : a.eq b = true ↔ a.pos = b.pos := by
    unfold Position.eq; rw [h, Str.ptrEq_refl]; simp
  have h3 : a = b ↔ a.pos = b.pos := by
    constructor
    · rintro rfl; rfl
    · intro hp; cases a; cases b; simp_all
  refine ⟨h1, ?_, ?_, ?_⟩
  · rw [h1, h2]; simp
  · rw [h2, h3]
  · rw [h2, ← h3]; rintro rfl; rfl

theorem C56_cmp_trans (a b c : Position) (h1 : a.cmp b = some .lt) (h2 : b.cmp c = some .lt) :
    a.cmp c = some .lt := by
  unfold Position.cmp at *
  split at h1 <;> split at h2 <;> simp_all [Nat.compare_eq_lt]
  omega

/-- Positions of different inputs are different, even if the texts are the same. -/
theorem C56_other_input (a b : Position) (h : a.input.addr ≠ b.input.addr) : a.eq b = false := by
  simp [Position.eq, Str.ptrEq, h]

/-- Equality of positions is an equivalence, and equal positions are hashed alike. -/
theorem C56_equivalence (a b c : Position) :
    a.eq a = true ∧ (a.eq b = true → b.eq a = true) ∧ (a.eq b = true → b.eq c = true → a.eq c = true) ∧
    (a.eq b = true → a.hashKey = b.hashKey) := by
  simp only [Position.eq, Str.ptrEq, Position.hashKey, Bool.and_eq_true, beq_iff_eq, Prod.mk.injEq]
  refine ⟨by simp, fun h => ?_, fun h h' => ?_, fun h => ?_⟩ <;> simp_all

/-- Spans of one input are equal exactly if they have the same ends. -/
theorem C56_span_eq (a b : Span) (h : a.input = b.input) : a.eq b = true ↔ a = b := by
  cases a; cases b
  simp only at h
  subst h
  simp [Span.eq, Str.ptrEq_refl]

/-- Spans of different inputs are different, even if the texts are the same. -/
theorem C56_span_other_input (a b : Span) (h : a.input.addr ≠ b.input.addr) : a.eq b = false := by
  simp [Span.eq, Str.ptrEq, h]

/-- Equality of spans is an equivalence, and equal spans are hashed alike. -/
theorem C56_span_equivalence (a b c : Span) :
    a.eq a = true ∧ (a.eq b = true → b.eq a = true) ∧ (a.eq b = true → b.eq c = true → a.eq c = true) ∧
    (a.eq b = true → a.hashKey = b.hashKey) := by
  simp only [Span.eq, Str.ptrEq, Span.hashKey, Bool.and_eq_true, beq_iff_eq, Prod.mk.injEq]
  refine ⟨by simp, fun h => ?_, fun h h' => ?_, fun h => ?_⟩ <;> simp_all

example : (Span.mk sample 0 4).eq ⟨sample, 0, 4⟩ = true ∧ (Span.mk sample 0 4).eq ⟨sample, 1, 4⟩ = false := by decide

/-- Across two copies of the same text, `cmp` says `Equal` while `==` says different: the `Ord`
contract (`cmp == Equal` iff `==`) fails. -/
theorem C56_ord_eq_mismatch :
    ∃ a b : Position, a.Valid ∧ b.Valid ∧ a.cmp b = some .eq ∧ a.eq b = false :=
  ⟨⟨⟨1, ['x']⟩, 0⟩, ⟨⟨2, ['x']⟩, 0⟩, boundary_zero _, boundary_zero _, by decide, by decide⟩

/-- Positions over different texts cannot be compared: `cmp` panics. -/
theorem C56_cmp_panics (a b : Position) (h : a.input.text ≠ b.input.text) : a.cmp b = none := by
  unfold Position.cmp; rw [if_neg h]

example : (Position.mk sample 0).cmp ⟨sample, 4⟩ = some .lt := by decide

/-! ## C57: `skip_until` -/

/-- `skip_until` stops at the first place (character boundary before the end of the input) where one
of the strings occurs; if there is none it stops at the end and reports `false`. -/
theorem C57_skip_until (p : Position) (pre suf : Text) (ss : List Text) (h : p.At pre suf) :
    (∃ m rest, suf = m ++ rest ∧ rest ≠ [] ∧ p.skipUntil ss = (true, ⟨p.input, p.pos + utf8Len m⟩) ∧
      (∃ s ∈ ss, s <+: rest) ∧
      ∀ m' rest', suf = m' ++ rest' → m'.length < m.length → ∀ s ∈ ss, ¬ s <+: rest') ∨
    (p.skipUntil ss = (false, ⟨p.input, p.input.len⟩) ∧
      ∀ m rest, suf = m ++ rest → rest ≠ [] → ∀ s ∈ ss, ¬ s <+: rest) := by
  have lenlt : ∀ {m m' r r' : Text}, m ++ r = m' ++ r' → m'.length < m.length →
      utf8Len m' < utf8Len m := by
    intro m m' r r' e hl
    rcases List.append_eq_append_iff.1 e with ⟨x, h1, _⟩ | ⟨x, h1, _⟩
    · rw [h1] at hl; simp at hl; omega
    · subst h1
      have hx : x ≠ [] := by rintro rfl; simp at hl
      have : utf8Len x ≠ 0 := fun h0 => hx (utf8Len_eq_zero.1 h0)
      simp; omega
  have hlen : p.input.len = utf8Len pre + utf8Len suf := by rw [Str.len, h.1, utf8Len_append]
  unfold Position.skipUntil
  split
  · next i hi =>
    left
    obtain ⟨a, b, e, ⟨pre', suf', e1, e2, hs⟩, hmin⟩ := Position.skipUntilLoop_some hi
    have hmem : i ∈ List.range' p.pos (p.input.len - p.pos) := by rw [e]; simp
    rw [List.mem_range'_1] at hmem
    obtain ⟨m, g1, g2⟩ := split_le (h.1.symm.trans e1) (by rw [← h.2, e2]; omega)
    have hm : i = p.pos + utf8Len m := by rw [← e2, g1, utf8Len_append, h.2]
    refine ⟨m, suf', g2, ?_, by rw [hm], hs, ?_⟩
    · rintro rfl
      simp at g2
      subst g2
      have := h.2
      omega
    · intro m' rest' e' hl
      have hj : p.pos + utf8Len m' ∈ a := by
        have hlt := lenlt (g2.symm.trans e') hl
        have hin : p.pos + utf8Len m' ∈ List.range' p.pos (p.input.len - p.pos) := by
          rw [List.mem_range'_1]; omega
        rw [e] at hin
        have hsorted : (List.range' p.pos (p.input.len - p.pos)).Pairwise (· < ·) :=
          List.pairwise_lt_range'
        rw [e, List.pairwise_append, List.pairwise_cons] at hsorted
        rcases List.mem_append.1 hin with h' | h'
        · exact h'
        · rcases List.mem_cons.1 h' with h' | h'
          · omega
          · have := hsorted.2.1.1 _ h'
            omega
      exact hmin _ hj (pre ++ m') rest' (by rw [h.1, e']; simp) (by rw [utf8Len_append, h.2])
  · next hi =>
    right
    refine ⟨rfl, ?_⟩
    intro m rest e hne
    have := Position.skipUntilLoop_none hi (p.pos + utf8Len m) (by
      rw [List.mem_range'_1]
      have hr : utf8Len rest ≠ 0 := fun h0 => hne (utf8Len_eq_zero.1 h0)
      have := congrArg utf8Len e
      rw [utf8Len_append] at this
      have := h.2
      omega) (pre ++ m) rest (by rw [h.1, e]; simp) (by rw [utf8Len_append, h.2])
    exact this

example : (Position.mk sample 0).skipUntil [['b'], ['\n', 'b']] = (true, ⟨sample, 4⟩) := by decide

end Pest3.Props
