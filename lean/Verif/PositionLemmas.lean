import Verif.Position

/-! # Lemmas about positions: everything computed from the cut `pre | suf` at the cursor -/

namespace Pest3

/-- The cursor stands between `pre` and `suf`. -/
def Position.At (p : Position) (pre suf : Text) : Prop :=
  p.input.text = pre ++ suf ∧ p.pos = utf8Len pre

theorem Position.valid_iff_at {p : Position} : p.Valid ↔ ∃ pre suf, p.At pre suf := by
  constructor
  · rintro ⟨pre, suf, h1, h2⟩; exact ⟨pre, suf, h1, h2.symm⟩
  · rintro ⟨pre, suf, h1, h2⟩; exact ⟨pre, suf, h1, h2.symm⟩

theorem Position.At.valid {p : Position} {pre suf : Text} (h : p.At pre suf) : p.Valid :=
  Position.valid_iff_at.2 ⟨pre, suf, h⟩

theorem Position.At.unique {p : Position} {pre suf pre' suf' : Text} (h : p.At pre suf)
    (h' : p.At pre' suf') : pre = pre' ∧ suf = suf' :=
  split_unique (h.1.symm.trans h'.1) (h.2.symm.trans h'.2)

theorem Position.At.getFrom {p : Position} {pre suf : Text} (h : p.At pre suf) :
    getFrom p.input.text p.pos = some suf := by rw [h.1, h.2]; simp

theorem Position.At.getTo {p : Position} {pre suf : Text} (h : p.At pre suf) :
    getTo p.input.text p.pos = some pre := by rw [h.1, h.2]; simp

theorem Position.At.le_len {p : Position} {pre suf : Text} (h : p.At pre suf) :
    p.pos ≤ p.input.len := by rw [Str.len, h.1, h.2]; simp

/-- Moving over `m`. -/
theorem Position.At.advance {p : Position} {pre m suf : Text} (h : p.At pre (m ++ suf)) :
    (Position.mk p.input (p.pos + utf8Len m)).At (pre ++ m) suf :=
  ⟨by simp [h.1], by simp [h.2]⟩

theorem Position.At.advance_cons {p : Position} {c : Char} {pre suf : Text}
    (h : p.At pre (c :: suf)) :
    (Position.mk p.input (p.pos + c.utf8Size)).At (pre ++ [c]) suf :=
  ⟨by simp [h.1], by simp [h.2]⟩

theorem Position.At.atEnd {p : Position} {pre suf : Text} (h : p.At pre suf) :
    p.atEnd = suf.isEmpty := by
  unfold Position.atEnd
  rw [Str.len, h.1, h.2, utf8Len_append]
  cases suf with
  | nil => simp
  | cons c cs =>
    have := utf8Size_pos c
    simp; omega

theorem Position.At.atStart {p : Position} {pre suf : Text} (h : p.At pre suf) :
    p.atStart = pre.isEmpty := by
  unfold Position.atStart
  rw [h.2]
  cases pre with
  | nil => simp
  | cons c cs =>
    have := utf8Size_pos c
    simp; omega

/-! ## Construction -/

theorem Position.new_eq_some {s : Str} {i : Nat} {p : Position} :
    Position.new s i = some p ↔ Boundary s.text i ∧ p = ⟨s, i⟩ := by
  rw [← getFrom_isSome]
  unfold Position.new
  cases getFrom s.text i <;> simp [eq_comm]

theorem Span.new_eq_some {s : Str} {a b : Nat} {sp : Span} :
    Span.new s a b = some sp ↔ a ≤ b ∧ Boundary s.text a ∧ Boundary s.text b ∧ sp = ⟨s, a, b⟩ := by
  unfold Span.new
  split
  · rename_i h
    have := getRange_isSome.1 h
    simp [this, eq_comm]
  · rename_i h
    constructor
    · intro h'; cases h'
    · rintro ⟨h1, h2, h3, -⟩
      exact absurd (getRange_isSome.2 ⟨h1, h2, h3⟩) h

theorem Str.ptrEq_refl (s : Str) : s.ptrEq s = true := by simp [Str.ptrEq]

theorem Position.span_eq_some {p q : Position} (h : p.input = q.input) (hv : p.Valid) (hw : q.Valid)
    (hle : p.pos ≤ q.pos) : p.span q = some ⟨p.input, p.pos, q.pos⟩ := by
  unfold Position.span
  rw [h, Str.ptrEq_refl, if_pos rfl, if_pos]
  exact getRange_isSome.2 ⟨hle, by rw [← h]; exact hv, hw⟩

/-! ## Skipping -/

theorem Position.skipLoop_eq (n : Nat) (t : Text) (len : Nat) :
    Position.skipLoop n t len =
      if n ≤ t.length then some (len + utf8Len (t.take n)) else none := by
  induction n generalizing t len with
  | zero => simp [Position.skipLoop]
  | succ n ih =>
    cases t with
    | nil => simp [Position.skipLoop]
    | cons c cs => simp [Position.skipLoop, ih, Nat.add_assoc]

theorem Position.At.skip {p : Position} {pre suf : Text} (h : p.At pre suf) (n : Nat) :
    p.skip n = if n ≤ suf.length then some (true, ⟨p.input, p.pos + utf8Len (suf.take n)⟩)
      else some (false, p) := by
  unfold Position.skip
  rw [h.getFrom]
  simp only [Position.skipLoop_eq, Nat.zero_add]
  split <;> simp_all

theorem utf8Len_reverse (t : Text) : utf8Len t.reverse = utf8Len t := by
  induction t with
  | nil => rfl
  | cons c cs ih => simp [ih, Nat.add_comm]

theorem Position.At.skipBack {p : Position} {pre suf : Text} (h : p.At pre suf) (n : Nat) :
    p.skipBack n = if n ≤ pre.length then
        some (true, ⟨p.input, utf8Len (pre.take (pre.length - n))⟩)
      else some (false, p) := by
  unfold Position.skipBack
  rw [h.getTo]
  simp only [Position.skipLoop_eq, Nat.zero_add, List.length_reverse]
  split
  · next h1 => split at h1 <;> simp_all
  · next sk h1 =>
    split at h1
    · next hn =>
      simp at h1
      have e : pre.reverse.take n = (pre.drop (pre.length - n)).reverse := by
        rw [List.reverse_drop]
        congr 1
        omega
      have hsum : utf8Len (pre.take (pre.length - n)) + utf8Len (pre.drop (pre.length - n)) =
          utf8Len pre := by rw [← utf8Len_append, List.take_append_drop]
      rw [e, utf8Len_reverse] at h1
      have h2 := h.2
      rw [if_pos (by omega), if_pos hn]
      have : p.pos - sk = utf8Len (pre.take (pre.length - n)) := by omega
      rw [this]
    · cases h1

/-! ## Matching -/

theorem Position.At.nextChar {p : Position} {pre suf : Text} (h : p.At pre suf) :
    p.nextChar = match suf with
      | [] => some (none, p)
      | c :: _ => some (some c, ⟨p.input, p.pos + c.utf8Size⟩) := by
  unfold Position.nextChar
  rw [h.getFrom]
  cases suf <;> rfl

theorem Position.At.matchChar {p : Position} {pre suf : Text} (h : p.At pre suf) (c : Char) :
    p.matchChar c = some (suf.head? == some c) := by
  unfold Position.matchChar
  rw [h.getFrom]
  cases suf with
  | nil => rfl
  | cons d ds =>
    simp [BEq.comm]

theorem Position.At.matchCharBy {p : Position} {pre suf : Text} (h : p.At pre suf)
    (f : Char → Bool) :
    p.matchCharBy f = match suf with
      | [] => some (false, p)
      | c :: _ => if f c then some (true, ⟨p.input, p.pos + c.utf8Size⟩) else some (false, p) := by
  unfold Position.matchCharBy
  rw [h.getFrom]
  cases suf <;> rfl

theorem Position.At.matchRange {p : Position} {pre suf : Text} (h : p.At pre suf)
    (lo hi : Char) :
    p.matchRange lo hi = match suf with
      | [] => some (false, p)
      | c :: _ => if lo ≤ c && c ≤ hi then some (true, ⟨p.input, p.pos + c.utf8Size⟩)
        else some (false, p) := by
  unfold Position.matchRange
  rw [h.getFrom]
  cases suf <;> rfl

theorem byteRange_eq_some_iff {pre suf s : Text} :
    byteRange (bytes (pre ++ suf)) (utf8Len pre) (utf8Len pre + utf8Len s) = some (bytes s) ↔
      s <+: suf := by
  constructor
  · intro h
    rw [← bytes_prefix_iff]
    unfold byteRange at h
    split at h
    · have h1 := Option.some.inj h
      rw [bytes_append, ← length_bytes pre, List.drop_left] at h1
      exact h1 ▸ List.take_prefix _ _
    · cases h
  · rintro ⟨r, rfl⟩
    rw [← List.append_assoc]
    exact byteRange_append

theorem Position.At.matchString {p : Position} {pre suf : Text} (h : p.At pre suf) (s : Text) :
    p.matchString s = if s <+: suf then (true, ⟨p.input, p.pos + utf8Len s⟩) else (false, p) := by
  unfold Position.matchString
  simp only
  have : (some (bytes s) = byteRange (bytes p.input.text) p.pos (p.pos + utf8Len s)) ↔ s <+: suf := by
    rw [h.1, h.2, eq_comm]
    exact byteRange_eq_some_iff
  by_cases hs : s <+: suf
  · rw [if_pos hs, if_pos (this.2 hs)]
  · rw [if_neg hs, if_neg (mt this.1 hs)]

/-! ### ASCII case -/

theorem lowerByte_of_ge (b : UInt8) (h : 128 ≤ b) : Position.lowerByte b = b := by
  unfold Position.lowerByte
  rw [if_neg]
  simp only [Bool.and_eq_true, decide_eq_true_eq, UInt8.le_iff_toNat_le] at h ⊢
  simp at h ⊢
  omega

set_option maxRecDepth 10000 in
theorem or_ge (b : UInt8) : 128 ≤ (b ||| 128) := by
  refine forall_uint8 (P := fun b => 128 ≤ (b ||| 128)) ?_ b
  decide

set_option maxRecDepth 10000 in
theorem or_ge' (b : UInt8) : 128 ≤ (b ||| 192) := by
  refine forall_uint8 (P := fun b => 128 ≤ (b ||| 192)) ?_ b
  decide

set_option maxRecDepth 10000 in
theorem or_ge'' (b : UInt8) : 128 ≤ (b ||| 224) := by
  refine forall_uint8 (P := fun b => 128 ≤ (b ||| 224)) ?_ b
  decide

set_option maxRecDepth 10000 in
theorem or_ge''' (b : UInt8) : 128 ≤ (b ||| 240) := by
  refine forall_uint8 (P := fun b => 128 ≤ (b ||| 240)) ?_ b
  decide

theorem utf8Size_eq_one_iff (c : Char) : c.utf8Size = 1 ↔ c.toNat < 128 := by
  have h : c.toNat = c.val.toNat := rfl
  unfold Char.utf8Size
  simp only [UInt32.le_iff_toNat_le]
  simp only [h]
  split
  · next hh => simp at hh ⊢; omega
  · next hh =>
    simp at hh
    split <;> simp_all
    · omega
    · split <;> simp <;> omega

theorem toLower_eq_self_of_ge {c : Char} (h : ¬ c.toNat < 128) : c.toLower = c := by
  have h' : c.toNat = c.val.toNat := rfl
  unfold Char.toLower
  rw [dif_neg]
  rintro ⟨h1, h2⟩
  simp only [UInt32.le_iff_toNat_le] at h1 h2
  simp at h1 h2
  omega

set_option maxRecDepth 10000 in
theorem lower_ascii (n : Fin 128) :
    (String.utf8EncodeChar (Char.ofNat n)).map Position.lowerByte =
      String.utf8EncodeChar (Char.ofNat n).toLower := by
  revert n
  decide

theorem lower_encode (c : Char) :
    (String.utf8EncodeChar c).map Position.lowerByte = String.utf8EncodeChar c.toLower := by
  by_cases h : c.toNat < 128
  · have := lower_ascii ⟨c.toNat, h⟩
    simpa [Char.ofNat_toNat] using this
  · rw [toLower_eq_self_of_ge h]
    have h1 : c.utf8Size ≠ 1 := mt (utf8Size_eq_one_iff c).1 h
    have h4 := Char.utf8Size_le_four c
    have h0 := utf8Size_pos c
    match hs : c.utf8Size with
    | 0 => omega
    | 1 => omega
    | 2 =>
      rw [String.utf8EncodeChar_eq_cons_cons hs]
      simp [lowerByte_of_ge, or_ge, or_ge']
    | 3 =>
      rw [String.utf8EncodeChar_eq_cons_cons_cons hs]
      simp [lowerByte_of_ge, or_ge, or_ge'']
    | 4 =>
      rw [String.utf8EncodeChar_eq_cons_cons_cons_cons hs]
      simp [lowerByte_of_ge, or_ge, or_ge''']
    | n + 5 => omega

theorem lower_bytes (t : Text) :
    (bytes t).map Position.lowerByte = bytes (t.map Char.toLower) := by
  induction t with
  | nil => rfl
  | cons c cs ih => simp [ih, lower_encode]

theorem zip_all_iff {f : UInt8 → UInt8} {a b : List UInt8} (h : a.length = b.length) :
    (a.zip b).all (fun x => f x.1 == f x.2) = true ↔ a.map f = b.map f := by
  induction a generalizing b with
  | nil => cases b <;> simp_all
  | cons x xs ih =>
    cases b with
    | nil => simp at h
    | cons y ys => simp at h; simp [← ih h]

theorem eqIgnoreAsciiCase_iff (a b : Text) :
    Position.eqIgnoreAsciiCase a b = true ↔ a.map Char.toLower = b.map Char.toLower := by
  unfold Position.eqIgnoreAsciiCase
  rw [Bool.and_eq_true]
  constructor
  · rintro ⟨h1, h2⟩
    rw [zip_all_iff (by simpa using h1), lower_bytes, lower_bytes] at h2
    exact bytes_injective h2
  · intro h
    have h' : (bytes a).map Position.lowerByte = (bytes b).map Position.lowerByte := by
      rw [lower_bytes, lower_bytes, h]
    have hl : (bytes a).length = (bytes b).length := by
      have := congrArg List.length h'
      simpa using this
    exact ⟨by simpa using hl, (zip_all_iff hl).2 h'⟩

theorem utf8Size_toLower (c : Char) : c.toLower.utf8Size = c.utf8Size := by
  have := congrArg List.length (lower_encode c)
  simpa using this.symm

theorem utf8Len_map_toLower (t : Text) : utf8Len (t.map Char.toLower) = utf8Len t := by
  induction t with
  | nil => rfl
  | cons c cs ih => simp [ih, utf8Size_toLower]

/-- The prefix of `t` matching `s` up to ASCII case, if any. -/
def insensPrefix (s t : Text) : Bool :=
  (t.take s.length).map Char.toLower == s.map Char.toLower

theorem insensPrefix_iff {s t : Text} :
    insensPrefix s t = true ↔
      ∃ m r, t = m ++ r ∧ m.map Char.toLower = s.map Char.toLower := by
  unfold insensPrefix
  constructor
  · intro h
    exact ⟨t.take s.length, t.drop s.length, by simp, by simpa using h⟩
  · rintro ⟨m, r, rfl, h⟩
    have hl : m.length = s.length := by simpa using congrArg List.length h
    rw [← hl]
    simp [h]

theorem Position.At.matchInsensitive {p : Position} {pre suf : Text} (h : p.At pre suf)
    (s : Text) :
    p.matchInsensitive s =
      if insensPrefix s suf then some (true, ⟨p.input, p.pos + utf8Len s⟩) else some (false, p) := by
  unfold Position.matchInsensitive
  rw [h.getFrom]
  simp only
  have key : (match getRange suf 0 (utf8Len s) with
      | some slice => Position.eqIgnoreAsciiCase slice s
      | none => false) = insensPrefix s suf := by
    rw [Bool.eq_iff_iff, insensPrefix_iff]
    constructor
    · intro hm
      split at hm
      · next sl hsl =>
        have hb := getRange_isSome.1 (by rw [hsl]; rfl)
        obtain ⟨m, r, hmr, hl⟩ := hb.2.2
        refine ⟨m, r, hmr, ?_⟩
        have := getRange_append [] m r
        simp only [List.nil_append, utf8Len_nil, Nat.zero_add] at this
        rw [← hmr, hl, hsl] at this
        cases this
        exact (eqIgnoreAsciiCase_iff _ _).1 hm
      · cases hm
    · rintro ⟨m, r, rfl, hl⟩
      have hlen : utf8Len s = utf8Len m := by
        rw [← utf8Len_map_toLower s, ← hl, utf8Len_map_toLower]
      have := getRange_append [] m r
      simp only [List.nil_append, utf8Len_nil, Nat.zero_add] at this
      rw [hlen, this]
      exact (eqIgnoreAsciiCase_iff _ _).2 hl
  exact congrArg (fun b : Bool => if b = true then some (true, Position.mk p.input (p.pos + utf8Len s))
    else some (false, p)) key

end Pest3
