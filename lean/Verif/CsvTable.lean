import Verif.CsvLemmas

/-!
# The rules of the grammar of tables match tables
-/

namespace Pest3.Csv
open Pest3 Pest3.Gen
open Pest3.Json (Leaves leaves_seq leaves_many leaves_many1 leaves_or leaves_char leaves_str one many1 strip strip_some strip_length one_length one_some
  dropWhile_not not_cons not_nil mem_takeWhile strip_cons strip_one)

section
variable {u : Unicode}

theorem leaves_range {root : Module} {p : List Name} {ρ : List (Name × Clo)} {lo hi : Char} {pre s : Text} {stk} :
    Leaves u root (.expr (.mk p ρ (.range lo hi))) pre s stk (one (fun x => decide (lo ≤ x ∧ x ≤ hi)) s) := by
  cases s with
  | nil => exact .literalFail rfl rfl
  | cons x s =>
    by_cases h : lo ≤ x ∧ x ≤ hi
    · simp only [one, h, decide_true, and_self, if_true]
      exact ⟨[x], rfl, .literalOk rfl (by simp [leafSpec, eatChar, h]) rfl⟩
    · simp only [one, h, decide_false, Bool.false_eq_true, if_false]
      exact .literalFail rfl (by simp only [leafSpec, eatChar, decide_eq_true_eq, if_neg h, Option.map_none])

/-! ## Cells and commas -/

def isCell (x : Char) : Bool := decide ('a' ≤ x ∧ x ≤ 'z') || (decide ('A' ≤ x ∧ x ≤ 'Z') || (decide ('0' ≤ x ∧ x ≤ '9') || x == '.'))
def isBlank (x : Char) : Bool := x == ' '

theorem isCell_iff {x : Char} : isCell x = true ↔ CellChar x := by simp [isCell, CellChar]

def cellF : Text → Option Text := many1 isCell
def commaF (s : Text) : Option Text := (some (s.dropWhile isBlank)).bind fun s => (strip [','] s).bind fun s => some (s.dropWhile isBlank)

theorem cell_body {pre s : Text} {stk} (hs : s.length + 1 < usizeMax) : Leaves u csvModule (.expr (.mk [] [] tCell)) pre s stk (cellF s) :=
  leaves_many1 rfl hs fun _ _ => leaves_or leaves_range (leaves_or leaves_range (leaves_or leaves_range leaves_char))

theorem leaves_cell {pre s : Text} {stk} (hs : s.length + 1 < usizeMax) : Leaves u csvModule (.expr (.mk [] [] (.path [cellName]))) pre s stk (cellF s) :=
  (cell_body hs).imp fun _ k => .rule (fun _ _ => rfl) rfl rfl k

theorem leaves_comma {pre s : Text} {stk} (hs : s.length + 1 < usizeMax) : Leaves u csvModule (.expr (.mk [] [] tComma)) pre s stk (commaF s) :=
  leaves_seq (leaves_many rfl hs fun _ _ => leaves_char) fun _ _ _ h => leaves_seq leaves_str fun _ s2 _ h' => leaves_many rfl (by omega) fun _ _ => leaves_char

theorem cellF_sound {s s' : Text} (h : cellF s = some s') : ∃ c t, (c = t ∧ Cell c) ∧ s = t ++ s' := by
  unfold cellF many1 at h
  obtain ⟨s1, h1, rfl⟩ := Option.map_eq_some_iff.mp h
  obtain ⟨x, hx, rfl⟩ := one_some h1
  refine ⟨x :: s1.takeWhile isCell, _, ⟨rfl, by simp, ?_⟩, by rw [List.cons_append, List.takeWhile_append_dropWhile]⟩
  intro y hy
  rcases List.mem_cons.mp hy with rfl | hy
  · exact isCell_iff.mp hx
  · exact isCell_iff.mp (mem_takeWhile hy)

theorem cellF_complete {c r : Text} (hc : Cell c) (hr : Json.Not isCell r) : cellF (c ++ r) = some r := by
  obtain ⟨h1, h2⟩ := hc
  cases c with
  | nil => exact absurd rfl h1
  | cons x c =>
    have hx : isCell x = true := isCell_iff.mpr (h2 x List.mem_cons_self)
    simp only [cellF, many1, List.cons_append, one, hx, if_true, Option.map_some]
    rw [dropWhile_not (fun y hy => isCell_iff.mpr (h2 y (List.mem_cons_of_mem _ hy))) hr]

/-- What stands between cells. -/
def Comma (w : Text) : Prop := ∃ a b, Blanks a ∧ Blanks b ∧ w = a ++ ',' :: b

theorem blanks_take (s : Text) : ∃ w, Blanks w ∧ s = w ++ s.dropWhile isBlank :=
  ⟨s.takeWhile isBlank, fun x hx => by have := mem_takeWhile (f := isBlank) hx; simpa [isBlank] using this, List.takeWhile_append_dropWhile.symm⟩

theorem commaF_sound {s s' : Text} (h : commaF s = some s') : ∃ w, Comma w ∧ s = w ++ s' := by
  obtain ⟨s1, h1, h2⟩ := Option.bind_eq_some_iff.mp h
  cases h1
  obtain ⟨s2, h3, h4⟩ := Option.bind_eq_some_iff.mp h2
  cases h4
  obtain ⟨a, ha, k1⟩ := blanks_take s
  obtain ⟨b, hb, k2⟩ := blanks_take s2
  have k3 := strip_some.mp h3
  refine ⟨a ++ ',' :: b, ⟨a, b, ha, hb, rfl⟩, ?_⟩
  rw [List.append_assoc, List.cons_append, ← k2]
  rw [k3] at k1
  exact k1

theorem blanks_drop {w r : Text} (hw : Blanks w) (hr : Json.Not isBlank r) : (w ++ r).dropWhile isBlank = r := dropWhile_not (fun x hx => by simp [isBlank, hw x hx]) hr

theorem cell_blank {c r : Text} (hc : Cell c) : Json.Not isBlank (c ++ r) := by
  obtain ⟨h1, h2⟩ := hc
  cases c with
  | nil => exact absurd rfl h1
  | cons x c =>
    refine not_cons ?_
    have := h2 x List.mem_cons_self
    rw [isBlank, beq_eq_false_iff_ne]
    rintro rfl
    exact absurd (isCell_iff.mpr this) (by decide)

theorem commaF_complete {w c r : Text} (hw : Comma w) (hc : Cell c) : commaF (w ++ (c ++ r)) = some (c ++ r) := by
  obtain ⟨a, b, ha, hb, rfl⟩ := hw
  have h1 : a ++ ',' :: b ++ (c ++ r) = a ++ (',' :: (b ++ (c ++ r))) := by simp
  rw [commaF, h1, blanks_drop ha (not_cons rfl), Option.bind_some, strip_cons, Option.bind_some, blanks_drop hb (cell_blank hc)]

/-! ## Rows -/

theorem row_joined {cs : List Text} {t : Text} : Row cs t ↔ Joined (fun c t => c = t ∧ Cell c) Comma cs t := by
  constructor
  · intro h
    induction h with
    | one h => exact .one ⟨rfl, h⟩
    | @more c w w' cs t h1 h2 h3 _ ih =>
      have := Joined.more (I := fun c t => c = t ∧ Cell c) ⟨rfl, h1⟩ ⟨w, w', h2, h3, rfl⟩ ih
      simpa using this
  · intro h
    induction h with
    | one h => obtain ⟨rfl, h⟩ := h; exact .one h
    | more h1 h2 _ ih =>
      obtain ⟨rfl, h1⟩ := h1
      obtain ⟨a, b, ha, hb, rfl⟩ := h2
      have := Row.more h1 ha hb ih
      simpa using this

def rowF : Text → Option Text := sepByF cellF commaF

theorem leaves_row {pre s : Text} {stk} (hs : s.length + 1 < usizeMax) : Leaves u csvModule (.expr (.mk [] [] tRow)) pre s stk (rowF s) := by
  refine (leaves_separated (n := s.length) (p := []) (fun pre s' h => leaves_cell (by omega)) (fun pre s' h => leaves_comma (by omega)) ?_ (Nat.le_refl _) hs).imp fun _ k => .call (fun _ _ => rfl) rfl rfl k
  intro s1 s2 _ h
  unfold cellF many1 at h
  obtain ⟨s3, h3, rfl⟩ := Option.map_eq_some_iff.mp h
  exact Nat.lt_of_le_of_lt (List.dropWhile_suffix _).length_le (one_length h3)

theorem rowF_sound {s s' : Text} (h : rowF s = some s') : ∃ cs t, Row cs t ∧ s = t ++ s' := by
  obtain ⟨l, t, h1, h2⟩ := joined_sound (fun _ _ => cellF_sound) (fun _ _ => commaF_sound) h
  exact ⟨l, t, row_joined.mpr h1, h2⟩

/-- What may follow a row. -/
def RowEnd (r : Text) : Prop := r = [] ∨ ∃ r', r = '\n' :: r'

theorem shows_cell {c pre r : Text} (hc : Cell c) (hr : Json.Not isCell r) (hl : (c ++ r).length + 1 < usizeMax) :
    ∃ P, CellToken (pre ++ c ++ r) c P ∧ Shows u csvModule (.expr (.mk [] [] (.path [cellName]))) ⟨pre, c ++ r, []⟩ ⟨pre ++ c, r, []⟩ [P] := by
  have h := cell_body (u := u) (pre := pre) (stk := []) hl
  rw [cellF_complete hc hr] at h
  obtain ⟨w, h1, h2⟩ := h
  obtain rfl := List.append_cancel_right h1
  refine ⟨_, ⟨pre, r, rfl, rfl⟩, ?_⟩
  have := Shows.rule (u := u) (root := csvModule) (p := []) (ρ := []) (q := [cellName]) (p' := []) (r := ⟨cellName, [], tCell, false⟩) (fun _ _ => rfl) rfl rfl (shows_plain (ts := [.none]) (by decide) h2)
  simpa [tokens, ruleAt, cellName] using this

theorem shows_row {cs : List Text} {t pre r : Text} (h : Row cs t) (hr : RowEnd r) (hl : (t ++ r).length + 1 < usizeMax) :
    ∃ P, RowToken (pre ++ t ++ r) cs P ∧ Shows u csvModule (.expr (.mk [] [] tRow)) ⟨pre, t ++ r, []⟩ ⟨pre ++ t, r, []⟩ [P] := by
  obtain ⟨F, h1, h2⟩ := shows_separated (u := u) (root := csvModule) (ci := .mk [] [] (.path [cellName])) (cs := .mk [] [] tComma) (I := fun c t => c = t ∧ Cell c) (S := Comma) (Follow := Json.Not isCell) (Stop := RowEnd)
    (Tok := CellToken) (pre := pre) (r := r) (t := t)
    (by rintro a t pre r ⟨rfl, hc⟩ hr hl; exact shows_cell hc hr hl)
    (by
      rintro w a t pre r hw ⟨rfl, hc⟩ hl
      have h := leaves_comma (u := u) (pre := pre) (stk := []) hl
      rw [commaF_complete hw hc] at h
      obtain ⟨w', h1, h2⟩ := h
      obtain rfl := List.append_cancel_right h1
      exact shows_plain (ts := [.none]) (by decide) h2)
    (by rintro w ⟨a, b, -, -, rfl⟩; simp)
    (by
      rintro w r ⟨a, b, ha, -, rfl⟩
      cases a with
      | nil => exact not_cons (by decide)
      | cons x a => rw [ha x List.mem_cons_self]; exact not_cons (by decide))
    (by
      rintro r (rfl | ⟨r', rfl⟩)
      · exact not_nil
      · exact not_cons (by decide))
    (by
      rintro pre r hr
      have hm : Meaning u csvModule (.expr (.mk [] [] tComma)) ⟨pre, r, []⟩ none := by
        rcases hr with rfl | ⟨r', rfl⟩
        · exact leaves_comma (u := u) (pre := pre) (s := []) (stk := []) (by decide)
        · refine .seq (.rep rfl (.repsStop (by decide) (.unitFirst (.literalFail rfl rfl)) (by omega))) .triviaNone (.seqFail (.literalFail rfl rfl))
      exact .seqFail (.param rfl hm))
    (row_joined.mp h) hr hl
  refine ⟨_, ⟨pre, t, r, F, rfl, h, rfl, h1⟩, ?_⟩
  have := Shows.call (u := u) (root := csvModule) (p := []) (ρ := []) (q := [sepName]) (p' := []) (r := ⟨sepName, [['i'], ['s', 'e', 'p']], tSeparated, false⟩) (args := [.path [cellName], tComma]) (fun _ _ => rfl) rfl rfl h2
  simpa [tokens, ruleAt, sepName, tRow] using this

/-! ## Tables -/

theorem table_joined {rows : List (List Text)} {t : Text} : Table rows t ↔ Joined Row (· = ['\n']) rows t := by
  constructor
  · intro h
    induction h with
    | one h => exact .one h
    | more h _ ih => exact .more (w := ['\n']) h rfl ih
  · intro h
    induction h with
    | one h => exact .one h
    | more h1 h2 _ ih => subst h2; exact .more h1 ih

def tableF : Text → Option Text := sepByF rowF (strip ['\n'])

theorem leaves_table {pre s : Text} {stk} (hs : s.length + 1 < usizeMax) : Leaves u csvModule (.expr (.mk [] [] tMain)) pre s stk (tableF s) := by
  refine (leaves_separated (n := s.length) (p := []) (fun pre s' h => leaves_row (by omega)) (fun pre s' h => leaves_str) ?_ (Nat.le_refl _) hs).imp fun _ k => .call (fun _ _ => rfl) rfl rfl k
  intro s1 s2 _ h
  obtain ⟨cs, t, h1, rfl⟩ := rowF_sound h
  have : t ≠ [] := by
    cases h1 with
    | one h => exact h.1
    | more => simp
  have := List.length_pos_iff.mpr this
  simp only [List.length_append]
  omega

theorem tableF_sound {s s' : Text} (h : tableF s = some s') : ∃ rows t, Table rows t ∧ s = t ++ s' := by
  obtain ⟨l, t, h1, h2⟩ := joined_sound (I := Row) (S := (· = ['\n'])) (fun _ _ => rowF_sound) (fun s s' h => ⟨['\n'], rfl, strip_some.mp h⟩) h
  exact ⟨l, t, table_joined.mpr h1, h2⟩

theorem shows_table {rows : List (List Text)} {t : Text} (h : Table rows t) (hl : t.length + 1 < usizeMax) :
    ∃ F, TableToken t rows (.mk (.rule mainName) 0 (utf8Len t) F) ∧ Shows u csvModule (.expr (.mk [] [] tMain)) ⟨[], t, []⟩ ⟨t, [], []⟩ F := by
  obtain ⟨F, h1, h2⟩ := shows_separated (u := u) (root := csvModule) (ci := .mk [] [] tRow) (cs := .mk [] [] (.str ['\n'])) (I := Row) (S := (· = ['\n'])) (Follow := RowEnd) (Stop := (· = [])) (Tok := RowToken)
    (pre := []) (r := []) (t := t)
    (fun a t pre r => shows_row)
    (by
      rintro w a t pre r rfl _ _
      refine .literal rfl ?_
      exact .literalOk (m := ['\n']) rfl (by simp [leafSpec, eatText]) rfl)
    (by rintro w rfl; simp)
    (by rintro w r rfl; exact .inr ⟨r, rfl⟩)
    (by rintro r rfl; exact .inl rfl)
    (by rintro pre r rfl; exact .seqFail (.param rfl (.literalFail rfl rfl)))
    (table_joined.mp h) rfl (by simpa using hl)
  simp only [List.append_nil, List.nil_append] at h1 h2
  refine ⟨_, ⟨F, rfl, h1⟩, ?_⟩
  have := Shows.call (u := u) (root := csvModule) (p := []) (ρ := []) (q := [sepName]) (p' := []) (r := ⟨sepName, [['i'], ['s', 'e', 'p']], tSeparated, false⟩) (args := [tRow, .str ['\n']]) (fun _ _ => rfl) rfl rfl h2
  simpa [tokens, ruleAt, sepName, utf8Len, tMain] using this

end

end Pest3.Csv
