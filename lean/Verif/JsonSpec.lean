import Verif.Utf8

/-!
# Specification: JSON texts

The grammar of RFC 8259, with four points left open: a `Dialect` says what is allowed there.
-/

namespace Pest3.Json
open Pest3

/-- Where the JSON of the examples may differ from that of RFC 8259. -/
structure Dialect where
  /-- control characters may occur in strings -/
  controls : Bool
  /-- the four digits after `\u` may be small letters -/
  small : Bool
  /-- in a number with a fraction there may be blanks after the dot, and after the digits that follow it -/
  gaps : Bool
  /-- there may be blanks between an element of an array other than the first and the comma after it -/
  room : Bool

/-- RFC 8259. -/
def rfc : Dialect := ⟨false, true, false, true⟩

/-- The JSON of the examples. -/
def sample : Dialect := ⟨true, false, true, false⟩

/-- What one dialect allows the other allows too. -/
structure Dialect.le (D D' : Dialect) : Prop where
  controls : D.controls = true → D'.controls = true
  small : D.small = true → D'.small = true
  gaps : D.gaps = true → D'.gaps = true
  room : D.room = true → D'.room = true

/-- `ws` (RFC 8259, section 2). -/
def Blank (w : Text) : Prop := ∀ x ∈ w, x = ' ' ∨ x = '\t' ∨ x = '\r' ∨ x = '\n'

/-- Decimal digits, at least one. -/
def Digits (d : Text) : Prop := d ≠ [] ∧ ∀ x ∈ d, '0' ≤ x ∧ x ≤ '9'

/-- A digit after `\u`. -/
def Hex (D : Dialect) (x : Char) : Prop := ('0' ≤ x ∧ x ≤ '9') ∨ ('A' ≤ x ∧ x ≤ 'F') ∨ (D.small = true ∧ 'a' ≤ x ∧ x ≤ 'f')

/-- What is between the quotation marks of a string (section 7). -/
inductive Chars (D : Dialect) : Text → Prop where
  | nil : Chars D []
  | plain {x s} : x ≠ '"' → x ≠ '\\' → (x < ' ' → D.controls = true) → Chars D s → Chars D (x :: s)
  | escape {x s} : x ∈ ['"', '\\', '/', 'b', 'f', 'n', 'r', 't'] → Chars D s → Chars D ('\\' :: x :: s)
  | unicode {h s} : h.length = 4 → (∀ x ∈ h, Hex D x) → Chars D s → Chars D ('\\' :: 'u' :: (h ++ s))

/-- `int` (section 6). -/
inductive Whole : Text → Prop where
  | zero : Whole ['0']
  | other {x d} : '1' ≤ x ∧ x ≤ '9' → (∀ y ∈ d, '0' ≤ y ∧ y ≤ '9') → Whole (x :: d)

/-- `exp`. -/
inductive Exponent : Text → Prop where
  | mk {e s d} : e = 'e' ∨ e = 'E' → s = [] ∨ s = ['+'] ∨ s = ['-'] → Digits d → Exponent (e :: (s ++ d))

/-- What follows the integral part of a number. -/
inductive Fraction (D : Dialect) : Text → Prop where
  | none : Fraction D []
  | exp {x} : Exponent x → Fraction D x
  | dot {w d w' x} : Blank w → Digits d → Blank w' → (D.gaps = false → w = [] ∧ w' = []) → x = [] ∨ Exponent x →
      Fraction D ('.' :: (w ++ d ++ w' ++ x))

/-- `number`. -/
inductive Number (D : Dialect) : Text → Prop where
  | mk {s n x} : s = [] ∨ s = ['-'] → Whole n → Fraction D x → Number D (s ++ n ++ x)

/-- Values, members of an object, the members of an object, the elements of an array (`first` says whether the first of them is the first of the array). -/
inductive Kind where
  | value
  | member
  | members
  | elements (first : Bool)

/-- The grammar (sections 3, 4, 5), without the blanks around what is described. -/
inductive Json (D : Dialect) : Kind → Text → Prop where
  | true : Json D .value ['t', 'r', 'u', 'e']
  | false : Json D .value ['f', 'a', 'l', 's', 'e']
  | null : Json D .value ['n', 'u', 'l', 'l']
  | string {s} : Chars D s → Json D .value ('"' :: (s ++ ['"']))
  | number {x} : Number D x → Json D .value x
  | object {w w' l} : Blank w → Json D .members l → Blank w' → Json D .value ('{' :: (w ++ l ++ w' ++ ['}']))
  | objectEmpty {w} : Blank w → Json D .value ('{' :: (w ++ ['}']))
  | array {w w' l} : Blank w → Json D (.elements Bool.true) l → Blank w' → Json D .value ('[' :: (w ++ l ++ w' ++ [']']))
  | arrayEmpty {w} : Blank w → Json D .value ('[' :: (w ++ [']']))
  | member {s w w' v} : Chars D s → Blank w → Blank w' → Json D .value v → Json D .member ('"' :: (s ++ '"' :: (w ++ ':' :: (w' ++ v))))
  | last {m} : Json D .member m → Json D .members m
  | members {m w w' l} : Json D .member m → Blank w → Blank w' → Json D .members l → Json D .members (m ++ w ++ ',' :: (w' ++ l))
  | element {b v} : Json D .value v → Json D (.elements b) v
  | elements {b v w w' l} : Json D .value v → Blank w → (b = Bool.false → D.room = Bool.false → w = []) → Blank w' → Json D (.elements Bool.false) l →
      Json D (.elements b) (v ++ w ++ ',' :: (w' ++ l))

/-- `JSON-text` (section 2). -/
def JsonText (D : Dialect) (t : Text) : Prop := ∃ w v w', Blank w ∧ Json D .value v ∧ Blank w' ∧ t = w ++ v ++ w'

end Pest3.Json
