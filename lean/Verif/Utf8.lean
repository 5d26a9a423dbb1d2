/-!
# Strings as UTF-8 text

Model of the parts of Rust's `str` used by `core/src/position.rs` and `core/src/span.rs`.

A string slice `&str` is a list of Unicode scalar values together with an abstract address
(needed for `ptr::eq`, `core/src/position.rs:115`, `core/src/span.rs:304`).  Its bytes are obtained
with Lean core's `String.utf8EncodeChar`.  All offsets are byte offsets.
-/

namespace Pest3

/-- The characters of a string. -/
abbrev Text := List Char

/-- `str::len`: the number of bytes.  (Rust std; `char::len_utf8` is `Char.utf8Size`.) -/
def utf8Len : Text → Nat
  | [] => 0
  | c :: cs => c.utf8Size + utf8Len cs

/-- `str::as_bytes`. -/
def bytes : Text → List UInt8
  | [] => []
  | c :: cs => String.utf8EncodeChar c ++ bytes cs

/-- A `&str`: address and contents.  Two simultaneously live slices with the same address and
length have the same contents. -/
structure Str where
  addr : Nat
  text : Text
deriving DecidableEq, Repr

/-- `str::len`. -/
def Str.len (s : Str) : Nat := utf8Len s.text

/-- `ptr::eq` on `&str` compares the (fat) pointers: address and length. -/
def Str.ptrEq (a b : Str) : Bool := a.addr == b.addr && a.len == b.len

/-- The test `(b as i8) >= -0x40` of `str::is_char_boundary`: `b` is not a continuation byte. -/
def isLeadByte (b : UInt8) : Bool := b < 128 || 192 ≤ b

/-- `str::is_char_boundary` (Rust std), on bytes. -/
def isCharBoundary (bs : List UInt8) (i : Nat) : Bool :=
  if i = 0 then true
  else match bs[i]? with
    | none => i == bs.length
    | some b => isLeadByte b

/-- Remove the characters occupying the first `i` bytes. -/
def dropB : Text → Nat → Text
  | [], _ => []
  | c :: cs, i => if i = 0 then c :: cs else dropB cs (i - c.utf8Size)

/-- Keep the characters occupying the first `i` bytes. -/
def takeB : Text → Nat → Text
  | [], _ => []
  | c :: cs, i => if i = 0 then [] else c :: takeB cs (i - c.utf8Size)

/-- `str::get(i..)` (Rust std): `None` unless `i` is a boundary. -/
def getFrom (t : Text) (i : Nat) : Option Text :=
  if isCharBoundary (bytes t) i then some (dropB t i) else none

/-- `str::get(..i)`. -/
def getTo (t : Text) (i : Nat) : Option Text :=
  if isCharBoundary (bytes t) i then some (takeB t i) else none

/-- `str::get(a..b)`: `None` unless `a <= b` and both are boundaries.  The indexing operator
`&s[a..b]` is the same function, with `none` standing for the panic. -/
def getRange (t : Text) (a b : Nat) : Option Text :=
  if a ≤ b && isCharBoundary (bytes t) a && isCharBoundary (bytes t) b then
    some (takeB (dropB t a) (b - a))
  else none

/-- `<[u8]>::get(a..b)`. -/
def byteRange (bs : List UInt8) (a b : Nat) : Option (List UInt8) :=
  if a ≤ b && b ≤ bs.length then some ((bs.drop a).take (b - a)) else none

/-- `str::char_indices`, starting at byte offset `i`. -/
def charIndicesFrom : Nat → Text → List (Nat × Char)
  | _, [] => []
  | i, c :: cs => (i, c) :: charIndicesFrom (i + c.utf8Size) cs

/-- `str::char_indices`. -/
def charIndices (t : Text) : List (Nat × Char) := charIndicesFrom 0 t

/-! ## Specification of boundaries: a cut between two characters. -/

/-- Specification: `i` bytes is exactly the length of some prefix of the characters. -/
def Boundary (t : Text) (i : Nat) : Prop := ∃ pre suf, t = pre ++ suf ∧ utf8Len pre = i

/-! ## Basic facts -/

theorem utf8Size_pos (c : Char) : 0 < c.utf8Size := Char.utf8Size_pos c

@[simp] theorem utf8Len_nil : utf8Len [] = 0 := rfl
@[simp] theorem utf8Len_cons (c : Char) (cs : Text) :
    utf8Len (c :: cs) = c.utf8Size + utf8Len cs := rfl

@[simp] theorem utf8Len_append (a b : Text) : utf8Len (a ++ b) = utf8Len a + utf8Len b := by
  induction a with
  | nil => simp
  | cons c cs ih => simp [ih, Nat.add_assoc]

@[simp] theorem utf8Len_eq_zero {t : Text} : utf8Len t = 0 ↔ t = [] := by
  cases t with
  | nil => simp
  | cons c cs =>
    have := utf8Size_pos c
    simp; omega

@[simp] theorem bytes_nil : bytes [] = [] := rfl
@[simp] theorem bytes_cons (c : Char) (cs : Text) :
    bytes (c :: cs) = String.utf8EncodeChar c ++ bytes cs := rfl

@[simp] theorem bytes_append (a b : Text) : bytes (a ++ b) = bytes a ++ bytes b := by
  induction a with
  | nil => simp
  | cons c cs ih => simp [ih]

@[simp] theorem length_bytes (t : Text) : (bytes t).length = utf8Len t := by
  induction t with
  | nil => rfl
  | cons c cs ih => simp [ih]

theorem utf8EncodeChar_ne_nil (c : Char) : String.utf8EncodeChar c ≠ [] := by
  intro h
  have := congrArg List.length h
  have h2 := utf8Size_pos c
  simp at this
  omega

/-- UTF-8 is a prefix code: the first character is determined by the bytes. -/
theorem encode_cancel {c d : Char} {x y : List UInt8}
    (h : String.utf8EncodeChar c ++ x = String.utf8EncodeChar d ++ y) : c = d ∧ x = y := by
  have hcd : c = d := by
    have h1 := @ByteArray.utf8DecodeChar?_utf8EncodeChar_append x.toByteArray c
    have h2 := @ByteArray.utf8DecodeChar?_utf8EncodeChar_append y.toByteArray d
    rw [← List.toByteArray_append, h, List.toByteArray_append, h2] at h1
    exact (Option.some.inj h1).symm
  subst hcd
  exact ⟨rfl, List.append_cancel_left h⟩

/-- A text is determined by its bytes. -/
theorem bytes_injective {s t : Text} (h : bytes s = bytes t) : s = t := by
  induction s generalizing t with
  | nil =>
    cases t with
    | nil => rfl
    | cons d ds =>
      exact absurd (List.append_eq_nil_iff.1 h.symm).1 (utf8EncodeChar_ne_nil d)
  | cons c cs ih =>
    cases t with
    | nil =>
      exact absurd (List.append_eq_nil_iff.1 h).1 (utf8EncodeChar_ne_nil c)
    | cons d ds =>
      obtain ⟨h1, h2⟩ := encode_cancel h
      rw [h1, ih h2]

/-- Byte-wise prefix equals character-wise prefix. -/
theorem bytes_prefix_iff {s t : Text} : bytes s <+: bytes t ↔ s <+: t := by
  constructor
  · intro h
    induction s generalizing t with
    | nil => exact List.nil_prefix
    | cons c cs ih =>
      obtain ⟨r, hr⟩ := h
      cases t with
      | nil =>
        exact absurd (List.append_eq_nil_iff.1 (List.append_eq_nil_iff.1 hr).1).1
          (utf8EncodeChar_ne_nil c)
      | cons d ds =>
        rw [bytes_cons, bytes_cons, List.append_assoc] at hr
        obtain ⟨h1, h2⟩ := encode_cancel hr
        subst h1
        exact List.cons_prefix_cons.2 ⟨rfl, ih ⟨r, h2⟩⟩
  · rintro ⟨r, rfl⟩
    exact ⟨bytes r, (bytes_append _ _).symm⟩

theorem forall_uint8 {P : UInt8 → Prop} (h : ∀ n : Fin 256, P (UInt8.ofFin n)) (b : UInt8) : P b := by
  have := h b.toFin
  simpa using this

set_option maxRecDepth 10000 in
theorem isLeadByte_of_first (b : UInt8) (h : b.IsUTF8FirstByte) : isLeadByte b = true := by
  revert h
  refine forall_uint8 (P := fun b => b.IsUTF8FirstByte → isLeadByte b = true) ?_ b
  decide

set_option maxRecDepth 10000 in
theorem isLeadByte_cont (b : UInt8) : isLeadByte (b &&& 63 ||| 128) = false := by
  refine forall_uint8 (P := fun b => isLeadByte (b &&& 63 ||| 128) = false) ?_ b
  decide

/-- Only the first byte of an encoded character is a lead byte. -/
theorem isLeadByte_encode {c : Char} {i : Nat} {b : UInt8}
    (h : (String.utf8EncodeChar c)[i]? = some b) : isLeadByte b = true ↔ i = 0 := by
  obtain ⟨hi, rfl⟩ := List.getElem?_eq_some_iff.1 h
  constructor
  · intro hb
    cases i with
    | zero => rfl
    | succ i =>
      exfalso
      have hlen : i + 1 < c.utf8Size := by simpa using hi
      have h4 := Char.utf8Size_le_four c
      match hs : c.utf8Size, i, hlen with
      | 2, 0, _ =>
        have e := String.utf8EncodeChar_eq_cons_cons hs
        simp [e, isLeadByte_cont] at hb
      | 3, 0, _ =>
        have e := String.utf8EncodeChar_eq_cons_cons_cons hs
        simp [e, isLeadByte_cont] at hb
      | 3, 1, _ =>
        have e := String.utf8EncodeChar_eq_cons_cons_cons hs
        simp [e, isLeadByte_cont] at hb
      | 4, 0, _ =>
        have e := String.utf8EncodeChar_eq_cons_cons_cons_cons hs
        simp [e, isLeadByte_cont] at hb
      | 4, 1, _ =>
        have e := String.utf8EncodeChar_eq_cons_cons_cons_cons hs
        simp [e, isLeadByte_cont] at hb
      | 4, 2, _ =>
        have e := String.utf8EncodeChar_eq_cons_cons_cons_cons hs
        simp [e, isLeadByte_cont] at hb
      | n + 5, _, _ => omega
  · rintro rfl
    exact isLeadByte_of_first _ (UInt8.isUTF8FirstByte_getElem_utf8EncodeChar.2 rfl)

/-! ## `is_char_boundary` is the specification -/

theorem boundary_zero (t : Text) : Boundary t 0 := ⟨[], t, rfl, rfl⟩

theorem boundary_cons {c : Char} {cs : Text} {i : Nat} :
    Boundary (c :: cs) i ↔ i = 0 ∨ (c.utf8Size ≤ i ∧ Boundary cs (i - c.utf8Size)) := by
  constructor
  · rintro ⟨pre, suf, h, rfl⟩
    cases pre with
    | nil => exact Or.inl rfl
    | cons d ds =>
      simp at h
      obtain ⟨rfl, rfl⟩ := h
      right
      exact ⟨by simp, ds, suf, rfl, by simp⟩
  · rintro (rfl | ⟨h1, pre, suf, rfl, h2⟩)
    · exact boundary_zero _
    · exact ⟨c :: pre, suf, rfl, by simp; omega⟩

theorem boundary_nil {i : Nat} : Boundary [] i ↔ i = 0 := by
  constructor
  · rintro ⟨pre, suf, h, rfl⟩
    have := List.append_eq_nil_iff.1 h.symm
    simp [this.1]
  · rintro rfl; exact boundary_zero _

theorem isCharBoundary_iff {t : Text} {i : Nat} :
    isCharBoundary (bytes t) i = true ↔ Boundary t i := by
  induction t generalizing i with
  | nil =>
    rw [boundary_nil]
    by_cases h : i = 0 <;> simp [isCharBoundary, h]
  | cons c cs ih =>
    rw [boundary_cons, ← ih]
    by_cases h0 : i = 0
    · simp [isCharBoundary, h0]
    simp only [h0, false_or]
    by_cases hlt : i < c.utf8Size
    · have hsome : (String.utf8EncodeChar c)[i]? =
          some ((String.utf8EncodeChar c)[i]'(by simpa using hlt)) :=
        List.getElem?_eq_getElem (by simpa using hlt)
      have hb := isLeadByte_encode hsome
      have : (bytes (c :: cs))[i]? = some ((String.utf8EncodeChar c)[i]'(by simpa using hlt)) := by
        rw [bytes_cons, List.getElem?_append_left (by simpa using hlt), hsome]
      simp only [isCharBoundary, h0, if_false, this, hb, false_iff]
      omega
    · have hle : c.utf8Size ≤ i := by omega
      simp only [hle, true_and]
      have e : (bytes (c :: cs))[i]? = (bytes cs)[i - c.utf8Size]? := by
        rw [bytes_cons, List.getElem?_append_right (by simpa using hle)]
        simp
      unfold isCharBoundary
      rw [e]
      simp only [h0, if_false]
      by_cases h1 : i - c.utf8Size = 0
      · simp only [h1, if_true, iff_true]
        cases cs with
        | nil => simp; omega
        | cons d ds =>
          have hd : (String.utf8EncodeChar d)[0]? = some ((String.utf8EncodeChar d)[0]'(by
            simp [utf8Size_pos])) := List.getElem?_eq_getElem _
          have : (bytes (d :: ds))[0]? = some ((String.utf8EncodeChar d)[0]'(by
            simp [utf8Size_pos])) := by
            rw [bytes_cons, List.getElem?_append_left (by simp [utf8Size_pos]), hd]
          rw [this]
          exact (isLeadByte_encode hd).2 rfl
      · simp only [h1, if_false]
        cases (bytes cs)[i - c.utf8Size]? with
        | none => simp; omega
        | some b => simp

instance (t : Text) (i : Nat) : Decidable (Boundary t i) :=
  decidable_of_iff _ isCharBoundary_iff

theorem Boundary.le {t : Text} {i : Nat} (h : Boundary t i) : i ≤ utf8Len t := by
  obtain ⟨pre, suf, rfl, rfl⟩ := h
  simp

theorem boundary_len (t : Text) : Boundary t (utf8Len t) := ⟨t, [], by simp, rfl⟩

theorem boundary_append_left (pre suf : Text) : Boundary (pre ++ suf) (utf8Len pre) :=
  ⟨pre, suf, rfl, rfl⟩

@[simp] theorem isCharBoundary_append (pre suf : Text) :
    isCharBoundary (bytes (pre ++ suf)) (utf8Len pre) = true :=
  isCharBoundary_iff.2 (boundary_append_left pre suf)

/-! ## Cutting at a boundary -/

@[simp] theorem dropB_zero (t : Text) : dropB t 0 = t := by cases t <;> simp [dropB]
@[simp] theorem takeB_zero (t : Text) : takeB t 0 = [] := by cases t <;> simp [takeB]

@[simp] theorem dropB_append (pre suf : Text) : dropB (pre ++ suf) (utf8Len pre) = suf := by
  induction pre with
  | nil => simp
  | cons c cs ih =>
    have := utf8Size_pos c
    simp only [List.cons_append, dropB, utf8Len_cons]
    rw [if_neg (by omega)]
    simpa using ih

@[simp] theorem takeB_append (pre suf : Text) : takeB (pre ++ suf) (utf8Len pre) = pre := by
  induction pre with
  | nil => simp
  | cons c cs ih =>
    have := utf8Size_pos c
    simp only [List.cons_append, takeB, utf8Len_cons]
    rw [if_neg (by omega)]
    simpa using ih

@[simp] theorem takeB_len (t : Text) : takeB t (utf8Len t) = t := by
  have := takeB_append t []
  simpa using this

@[simp] theorem dropB_len (t : Text) : dropB t (utf8Len t) = [] := by
  have := dropB_append t []
  simpa using this

@[simp] theorem getFrom_append (pre suf : Text) :
    getFrom (pre ++ suf) (utf8Len pre) = some suf := by
  simp [getFrom, -bytes_append]

@[simp] theorem getTo_append (pre suf : Text) :
    getTo (pre ++ suf) (utf8Len pre) = some pre := by
  simp [getTo, -bytes_append]

theorem getRange_append (a b c : Text) :
    getRange (a ++ b ++ c) (utf8Len a) (utf8Len a + utf8Len b) = some b := by
  have h1 : isCharBoundary (bytes (a ++ b ++ c)) (utf8Len a) = true := by
    rw [List.append_assoc]; exact isCharBoundary_append _ _
  have h2 : isCharBoundary (bytes (a ++ b ++ c)) (utf8Len a + utf8Len b) = true := by
    rw [← utf8Len_append]; exact isCharBoundary_append _ _
  unfold getRange
  rw [h1, h2]
  simp

theorem getFrom_isSome {t : Text} {i : Nat} : (getFrom t i).isSome ↔ Boundary t i := by
  unfold getFrom
  rw [← isCharBoundary_iff]
  split <;> simp_all

theorem getRange_isSome {t : Text} {a b : Nat} :
    (getRange t a b).isSome ↔ a ≤ b ∧ Boundary t a ∧ Boundary t b := by
  unfold getRange
  rw [← isCharBoundary_iff, ← isCharBoundary_iff]
  split <;> simp_all

/-- Two cuts of the same text: the earlier prefix is a prefix of the later. -/
theorem split_le {p1 s1 p2 s2 : Text} (h : p1 ++ s1 = p2 ++ s2) (hl : utf8Len p1 ≤ utf8Len p2) :
    ∃ m, p2 = p1 ++ m ∧ s1 = m ++ s2 := by
  rcases List.append_eq_append_iff.1 h with ⟨m, h1, h2⟩ | ⟨m, h1, h2⟩
  · exact ⟨m, h1, h2⟩
  · subst h1
    have hm : m = [] := by
      rw [utf8Len_append] at hl
      exact utf8Len_eq_zero.1 (by omega)
    subst hm
    exact ⟨[], by simp, by simpa using h2.symm⟩

/-- A cut is determined by its byte offset. -/
theorem split_unique {p1 s1 p2 s2 : Text} (h : p1 ++ s1 = p2 ++ s2)
    (hl : utf8Len p1 = utf8Len p2) : p1 = p2 ∧ s1 = s2 := by
  obtain ⟨m, h1, h2⟩ := split_le h (by omega)
  subst h1
  simp at hl
  subst hl
  simpa using h2

theorem byteRange_append {a b c : Text} :
    byteRange (bytes (a ++ b ++ c)) (utf8Len a) (utf8Len a + utf8Len b) = some (bytes b) := by
  have h1 : (bytes a).length = utf8Len a := length_bytes a
  have h2 : (bytes b).length = utf8Len b := length_bytes b
  unfold byteRange
  rw [if_pos (by simp)]
  rw [Nat.add_sub_cancel_left, bytes_append, bytes_append, List.append_assoc,
    List.drop_append_of_le_length (Nat.le_of_eq h1.symm), ← h1, List.drop_length, ← h2,
    List.nil_append, List.take_left']
  rfl

end Pest3
