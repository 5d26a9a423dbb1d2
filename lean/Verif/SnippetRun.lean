import Verif.SnippetLemmas
import Verif.Props.Text

/-! # The formatter prints the specified snippet -/

namespace Pest3

variable (width : Text → Nat)

theorem spaces_succ (n : Nat) : spaces n ++ [' '] = spaces (n + 1) := by
  simp [spaces, List.replicate_succ']

@[simp] theorem visualize_nil : visualize [] = [] := rfl

/-- Both ends on one line. -/
theorem displayLines_one (n : Nat) (f m g : Text) (w : Nat) :
    displayLines width [f ++ (m ++ g)] w n (utf8Len f) n (utf8Len (f ++ m)) =
      some (displaySnippetSingleLine width w ⟨n, visualize f, visualize m, visualize g⟩) := by
  simp only [displayLines, if_true, List.head?_cons, Option.pure_def, Option.bind_eq_bind,
    Option.bind_some, Partition2.new_append]

theorem squeeze_one (n : Nat) (f m g : Text) :
    squeeze (displaySnippetSingleLine width (digits (n + 1)) ⟨n, visualize f, visualize m, visualize g⟩) =
      squeeze (snippet width [⟨1 + n, f, m, g⟩]) := by
  rw [Nat.add_comm n 1]
  simp [displaySnippetSingleLine, snippet, body, gutter, Row.pieces, squeeze, spaces_succ]
  rw [Nat.add_comm n 1]

/-- Rows of a snippet of several lines, the first being line `n + 1`. -/
def manyRows (n : Nat) (f g : Text) (M : List Text) (f' g' : Text) : List Row :=
  ⟨1 + n, f, g, []⟩ :: (innerRows (2 + n) M ++ [⟨2 + n + M.length, [], f', g'⟩])

theorem snippet_many (n : Nat) (f g : Text) (M : List Text) (f' g' : Text) :
    snippet width (manyRows n f g M f' g') =
      gutter (digits (2 + n + M.length)) ++
      [.plain ([' '] ++ spaces (width (visualize f))), .marker ['v'], .plain ['\n']] ++
      body (digits (2 + n + M.length)) (manyRows n f g M f' g') ++ gutter (digits (2 + n + M.length)) ++
      [.plain ([' '] ++ spaces (width (visualize f') - 1)), .marker ['^'], .plain ['\n']] := by
  have hl : (manyRows n f g M f' g').getLast? = some ⟨2 + n + M.length, [], f', g'⟩ := by
    simp [manyRows, List.getLast?_cons, List.getLast?_append]
  have hh : (manyRows n f g M f' g').head? = some ⟨1 + n, f, g, []⟩ := rfl
  unfold snippet
  rw [hl, hh]
  simp only
  rw [if_neg (by omega)]

theorem displayLines_many (n w : Nat) (f g : Text) (M : List Text) (f' g' : Text) :
    ∃ out, displayLines width ((f ++ g) :: (M ++ [f' ++ g'])) w n (utf8Len f) (n + M.length + 1)
        (utf8Len f') = some out ∧
      squeeze out = squeeze (gutter w ++
        [.plain ([' '] ++ spaces (width (visualize f))), .marker ['v'], .plain ['\n']] ++
        body w (manyRows n f g M f' g') ++ gutter w ++
        [.plain ([' '] ++ spaces (width (visualize f') - 1)), .marker ['^'], .plain ['\n']]) := by
  have hlen : ((f ++ g) :: (M ++ [f' ++ g'])).length = M.length + 2 := by simp
  have hlast : ((f ++ g) :: (M ++ [f' ++ g'])).getLast? = some (f' ++ g') := by
    simp [List.getLast?_cons, List.getLast?_append]
  unfold displayLines
  rw [if_neg (by omega), hlen, hlast]
  simp only [List.head?_cons, Option.pure_def, Option.bind_eq_bind, Option.bind_some,
    Partition.new_append]
  match M with
  | [] =>
    refine ⟨_, rfl, ?_⟩
    simp [displaySnippetMultiLine, body, manyRows, innerRows, gutter, Row.pieces, squeeze, spaces_succ]
    simp [Nat.add_comm, Nat.add_left_comm]
  | [a] =>
    refine ⟨_, rfl, ?_⟩
    simp [displaySnippetMultiLine, displayFullCoveredSnippet, body, manyRows, innerRows, gutter,
      Row.pieces, squeeze, spaces_succ]
    simp [Nat.add_comm, Nat.add_left_comm]
  | [a, b] =>
    refine ⟨_, rfl, ?_⟩
    simp [displaySnippetMultiLine, displayFullCoveredSnippet, body, manyRows, innerRows, gutter,
      Row.pieces, squeeze, spaces_succ]
    simp [Nat.add_comm, Nat.add_left_comm]
  | [a, b, c] =>
    refine ⟨_, rfl, ?_⟩
    simp [displaySnippetMultiLine, displayFullCoveredSnippet, body, manyRows, innerRows, gutter,
      Row.pieces, squeeze, spaces_succ]
    simp [Nat.add_comm, Nat.add_left_comm]
  | a :: b :: c :: d :: rest =>
    obtain ⟨K, z, hK⟩ : ∃ K z, b :: c :: d :: rest = K ++ [z] :=
      ⟨_, _, (List.dropLast_concat_getLast (by simp)).symm⟩
    have hKl : K.length ≥ 2 := by
      have := congrArg List.length hK
      simp at this; omega
    rw [hK]
    have e2 : ((f ++ g) :: (a :: (K ++ [z]) ++ [f' ++ g']))[(a :: (K ++ [z])).length + 2 - 2]? = some z := by
      simp
    simp only [e2]
    have c1 : (a :: (K ++ [z])).length + 2 ≥ 6 := by simp; omega
    have c2 : (a :: (K ++ [z])).length + 2 ≥ 4 := by simp
    have c0 : (a :: (K ++ [z])).length + 2 ≥ 3 := by simp
    simp only [if_pos c0, if_pos c1, if_pos c2]
    refine ⟨_, rfl, ?_⟩
    have hb : ∀ n, body w (manyRows n f g (a :: (K ++ [z])) f' g') =
        Row.pieces w ⟨1 + n, f, g, []⟩ ++ Row.pieces w ⟨2 + n, [], a, []⟩ ++ gutter w ++
          [.plain " ...\n".toList] ++ Row.pieces w ⟨3 + n + K.length, [], z, []⟩ ++
          Row.pieces w ⟨4 + n + K.length, [], f', g'⟩ := by
      intro n
      have hr : manyRows n f g (a :: (K ++ [z])) f' g' =
          [⟨1 + n, f, g, []⟩, ⟨2 + n, [], a, []⟩] ++ innerRows (3 + n) K ++
            [⟨3 + n + K.length, [], z, []⟩, ⟨4 + n + K.length, [], f', g'⟩] := by
        simp only [manyRows, innerRows, innerRows_append, List.length_cons, List.length_append,
          List.length_nil, List.cons_append, List.nil_append, List.append_assoc]
        rw [show 2 + n + 1 = 3 + n by omega, show 2 + n + (K.length + (0 + 1) + 1) = 4 + n + K.length by omega]
      unfold body
      rw [hr]
      have hln : ([⟨1 + n, f, g, []⟩, ⟨2 + n, [], a, []⟩] ++ innerRows (3 + n) K ++
            [⟨3 + n + K.length, [], z, []⟩, ⟨4 + n + K.length, [], f', g'⟩] : List Row).length =
            2 + K.length + 2 := by simp [length_innerRows]; omega
      rw [if_neg (by rw [hln]; omega), hln, Nat.add_sub_cancel]
      rw [List.drop_left' (by simp [length_innerRows]; omega)]
      simp
    rw [hb]
    simp [displaySnippetMultiLine, displayFullCoveredSnippet, gutter,
      Row.pieces, squeeze, spaces_succ]
    simp [Nat.add_comm, Nat.add_left_comm]

/-- The formatter prints the snippet of the specification. -/
theorem displaySpan_spec (sp : Span) (pre m suf : Text) (ht : sp.input.text = pre ++ m ++ suf)
    (h1 : sp.start = utf8Len pre) (h2 : sp.stop = utf8Len (pre ++ m)) (hne : sp.input.text ≠ []) :
    ∃ out, displaySpan width sp = some out ∧
      squeeze out = squeeze (snippet width (shownRows pre m suf)) := by
  unfold displaySpan
  rw [whole_lines]
  simp only [Option.bind_eq_bind, Option.bind_some, (Props.C11_lines_partition sp.input).2.1]
  rw [ht] at hne
  have hf := falls pre m suf hne
  unfold shownRows
  rw [ht, h1, h2]
  generalize splitLines (pre ++ m ++ suf) = L at hf
  cases hf with
  | @one A f g B e1 e2 e3 e3' e4 e5 =>
    have l1 : utf8Len pre = utf8Len A.flatten + utf8Len f := by rw [e1, utf8Len_append]
    have pos : ∀ {x : Text}, x ≠ [] → 0 < utf8Len x := fun h =>
      Nat.pos_of_ne_zero fun h0 => h (utf8Len_eq_zero.1 h0)
    have k1 := locate_eq (utf8Len pre) 0 0 A (f ++ (m ++ g)) B
      (by rcases e3 with h | h
          · exact Or.inl h
          · right; have := pos h; omega) (by omega) (by simp; omega)
    have k2 := locate_eq (utf8Len (pre ++ m)) (utf8Len A.flatten) A.length [] (f ++ (m ++ g)) B
      (Or.inl rfl) (by simp; omega) (by simp; omega)
    simp only [Nat.zero_add] at k1
    simp only [List.nil_append, List.flatten_nil, utf8Len_nil, Nat.add_zero, List.length_nil] at k2
    simp only [k1, Option.bind_some, k2]
    simp only [Nat.le_refl, if_true, Nat.sub_self, Nat.zero_add, List.drop_left,
      List.take_succ_cons, List.take_zero]
    rw [ceilLog10_eq, show utf8Len pre - utf8Len A.flatten = utf8Len f by omega,
      show utf8Len (pre ++ m) - utf8Len A.flatten = utf8Len (f ++ m) by simp; omega,
      displayLines_one]
    refine ⟨_, rfl, ?_⟩
    rw [squeeze_one]
    congr 2
    have := shown_filter (utf8Len pre) (utf8Len (pre ++ m)) A [f ++ (m ++ g)] B
    rw [e4, e5, Nat.add_comm 1 A.length]
    simp only [List.length_singleton, List.singleton_append] at this
    rw [Nat.add_comm 1 A.length] at this
    rw [this]
    simp only [rowsFrom]
    rw [ofLine_cut] 
    · left; omega
    · right; simp; omega
    · left; simp; omega
    · simp
  | @more A f g M f' g' B e1 e2 e3 e4 e5 e6 e7 =>
    have l1 : utf8Len pre = utf8Len A.flatten + utf8Len f := by rw [e1, utf8Len_append]
    have l2 : utf8Len (pre ++ m) =
        utf8Len A.flatten + utf8Len f + (utf8Len g + (utf8Len M.flatten + utf8Len f')) := by
      rw [utf8Len_append, l1, e2]; simp
    have pos : ∀ {x : Text}, x ≠ [] → 0 < utf8Len x := fun h =>
      Nat.pos_of_ne_zero fun h0 => h (utf8Len_eq_zero.1 h0)
    have k1 := locate_eq (utf8Len pre) 0 0 A (f ++ g) (M ++ (f' ++ g') :: B)
      (by rcases e4 with h | h
          · exact Or.inl h
          · right; have := pos h; omega) (by omega) (by simp; omega)
    have hp := pos e5
    have k2 := locate_eq (utf8Len (pre ++ m)) (utf8Len A.flatten) A.length ((f ++ g) :: M) (f' ++ g') B
      (Or.inr (by rw [l2]; simp; omega)) (by rw [l2]; simp; omega) (by rw [l2]; simp; omega)
    simp only [Nat.zero_add] at k1
    simp only [List.cons_append] at k2
    simp only [k1, Option.bind_some, k2]
    simp only [List.length_cons]
    rw [if_pos (by omega)]
    simp only [List.drop_left]
    have ht : ((f ++ g) :: (M ++ (f' ++ g') :: B)).take (A.length + (M.length + 1) - A.length + 1) =
        (f ++ g) :: (M ++ [f' ++ g']) := by
      rw [show A.length + (M.length + 1) - A.length + 1 = M.length + 1 + 1 by omega]
      simp [List.take_append]
      exact List.take_of_length_le (by omega)
    rw [ht, ceilLog10_eq, show utf8Len pre - utf8Len A.flatten = utf8Len f by omega,
      show utf8Len (pre ++ m) - (utf8Len A.flatten + utf8Len ((f ++ g) :: M).flatten) = utf8Len f' by
        rw [l2]; simp; omega]
    obtain ⟨out, ho1, ho2⟩ := displayLines_many width A.length (digits (2 + A.length + M.length)) f g M f' g'
    rw [show A.length + (M.length + 1) + 1 = 2 + A.length + M.length by omega,
      show A.length + (M.length + 1) = A.length + M.length + 1 by omega]
    refine ⟨out, ho1, ?_⟩
    rw [ho2, ← snippet_many]
    congr 2
    have := shown_filter (utf8Len pre) (utf8Len (pre ++ m)) A ((f ++ g) :: (M ++ [f' ++ g'])) B
    rw [e6, e7]
    simp only [List.length_cons, List.length_append, List.length_nil, List.cons_append,
      List.append_assoc, List.nil_append] at this
    rw [show 1 + A.length + M.length + 1 = A.length + (M.length + (0 + 1) + 1) by omega, this]
    simp only [rowsFrom, rowsFrom_append]
    unfold manyRows
    have r1 := ofLine_cut (1 + A.length) (utf8Len A.flatten) f g [] (utf8Len pre) (utf8Len (pre ++ m))
      (Or.inl (by omega)) (Or.inr (by omega)) (Or.inr rfl) (by omega)
    rw [List.append_nil] at r1
    have r2 := rowsFrom_inner (utf8Len pre) (utf8Len (pre ++ m)) (2 + A.length)
      (utf8Len A.flatten + utf8Len (f ++ g)) M (by simp; omega) (by rw [l2]; simp; omega)
    have r3 := ofLine_cut (2 + A.length + M.length) (utf8Len A.flatten + utf8Len (f ++ g) + utf8Len M.flatten)
      [] f' g' (utf8Len pre) (utf8Len (pre ++ m)) (Or.inr rfl) (Or.inr (by rw [l2]; simp; omega))
      (Or.inl (by rw [l2]; simp; omega)) (by omega)
    rw [List.nil_append] at r3
    rw [show 1 + A.length + 1 = 2 + A.length by omega, r1, r2, r3]

/-! ## Positions -/

/-- The snippet of a position: its line, with a caret under the character at the position. -/
def caret (number : Nat) (before after : Text) : List Piece :=
  let w := digits number
  gutter w ++ [.plain ['\n']] ++
  [.number (padNat w number), .plain [' '], .number ['|'],
   .plain ([' '] ++ visualize (before ++ after) ++ ['\n'])] ++
  gutter w ++ [.plain ([' '] ++ spaces (width (visualize before))), .marker ['^'], .plain ['\n']]

theorem visualize_append (a b : Text) : visualize (a ++ b) = visualize a ++ visualize b := by
  simp [visualize]

theorem displayPositionLoop_eq (target pos n : Nat) (A : List Text) (f g : Text) (rest : List Text)
    (hg : g ≠ []) (h : target = pos + utf8Len A.flatten + utf8Len f) :
    displayPositionLoop width target pos (enumFrom n (A ++ (f ++ g) :: rest)) =
      some (displaySnippetSinglePos width (ceilLog10 (n + A.length + 1))
        ⟨n + A.length, visualize f, visualize g⟩) := by
  have hp : 0 < utf8Len g := Nat.pos_of_ne_zero fun h0 => hg (utf8Len_eq_zero.1 h0)
  induction A generalizing pos n with
  | nil =>
    simp only [List.flatten_nil, utf8Len_nil, Nat.add_zero] at h
    simp only [List.nil_append, enumFrom, displayPositionLoop, List.length_nil, Nat.add_zero]
    rw [if_pos (by simp; omega), if_pos (by omega), show target - pos = utf8Len f by omega]
    simp [Partition.new_append]
  | cons a A ih =>
    simp only [List.flatten_cons, utf8Len_append] at h
    simp only [List.cons_append, enumFrom, displayPositionLoop, List.length_cons]
    rw [if_neg (by omega), ih (pos + utf8Len a) (n + 1) (by omega)]
    rw [show n + 1 + A.length = n + (A.length + 1) by omega]

theorem displayPositionLoop_end (target pos n : Nat) (A : List Text)
    (h : pos + utf8Len A.flatten ≤ target) :
    displayPositionLoop width target pos (enumFrom n A) = some [] := by
  induction A generalizing pos n with
  | nil => rfl
  | cons a A ih =>
    simp only [List.flatten_cons, utf8Len_append] at h
    simp only [enumFrom, displayPositionLoop]
    rw [if_neg (by omega), ih (pos + utf8Len a) (n + 1) (by omega)]

/-- The formatter shows the line of the character after the cursor, and nothing at the end. -/
theorem displayPosition_spec (p : Position) (pre suf : Text) (h : p.At pre suf) :
    ∃ out, displayPosition width p = some out ∧
      squeeze out = if suf = [] then [] else
        squeeze (caret width (1 + pre.count '\n') (sinceNewline pre) (restOfLine suf)) := by
  unfold displayPosition
  rw [whole_lines]
  simp only [Option.bind_eq_bind, Option.bind_some, (Props.C11_lines_partition p.input).2.1]
  rw [h.1, h.2]
  by_cases hs : suf = []
  · subst hs
    rw [displayPositionLoop_end width _ _ _ _ (by simp [splitLines_flatten])]
    exact ⟨_, rfl, rfl⟩
  · have hsplit : splitLines (pre ++ suf) = splitLines (uptoNewline pre) ++
        (sinceNewline pre ++ restOfLine suf) :: splitLines (afterLine suf) := by
      have e : pre ++ suf = uptoNewline pre ++ (sinceNewline pre ++ suf) := by
        rw [← List.append_assoc, uptoNewline_append_sinceNewline]
      rw [e, splitLines_upto, splitLines_eq (t := sinceNewline pre ++ suf) (by simp [hs]),
        (restOfLine_append (sinceNewline_not_mem pre)).1,
        (restOfLine_append (sinceNewline_not_mem pre)).2]
    have hl : utf8Len pre = utf8Len (uptoNewline pre) + utf8Len (sinceNewline pre) := by
      rw [← utf8Len_append, uptoNewline_append_sinceNewline]
    rw [hsplit, displayPositionLoop_eq width _ _ _ _ _ _ _ (restOfLine_ne_nil hs)
      (by rw [splitLines_flatten, hl]; omega), ceilLog10_eq, length_splitLines_upto]
    refine ⟨_, rfl, ?_⟩
    rw [if_neg hs]
    simp [displaySnippetSinglePos, caret, gutter, squeeze, spaces_succ, visualize_append]
    simp [Nat.add_comm]

/-! ## What squeezing keeps -/

theorem markedText_append (a b : List Piece) : markedText (a ++ b) = markedText a ++ markedText b := by
  induction a with
  | nil => rfl
  | cons x a ih => cases x <;> simp [markedText, ih]

theorem markedText_squeeze (l : List Piece) : markedText (squeeze l) = markedText l := by
  induction l with
  | nil => rfl
  | cons x l ih =>
    cases x with
    | plain a =>
      simp only [squeeze, markedText, ← ih]
      cases squeeze l with
      | nil => rfl
      | cons y l' => cases y <;> rfl
    | span t => simp [squeeze, markedText, ih]
    | marker t => simp [squeeze, markedText, ih]
    | number t => simp [squeeze, markedText, ih]

theorem numbersShown_append (a b : List Piece) :
    numbersShown (a ++ b) = numbersShown a ++ numbersShown b := by
  simp [numbersShown]

theorem numbersShown_squeeze (l : List Piece) : numbersShown (squeeze l) = numbersShown l := by
  induction l with
  | nil => rfl
  | cons x l ih =>
    unfold numbersShown at ih
    cases x with
    | plain a =>
      simp only [squeeze, numbersShown, List.filterMap_cons, ← ih]
      cases squeeze l with
      | nil => rfl
      | cons y l' => cases y <;> rfl
    | span t => simp [squeeze, numbersShown, ih]
    | marker t => simp [squeeze, numbersShown, ih]
    | number t => simp [squeeze, numbersShown, List.filterMap_cons, ih]

theorem padNat_ne_bar (w n : Nat) : padNat w n ≠ ['|'] := by
  intro h
  have h1 : ∀ c ∈ showNat n, c = '|' := by
    intro c hc
    have : c ∈ padNat w n := by simp [padNat, hc]
    rw [h] at this
    simpa using this
  rw [showNat_eq] at h1
  cases hd : Nat.toDigits 10 n with
  | nil => exact absurd hd Nat.toDigits_ne_nil
  | cons c cs =>
    have hc := h1 c (by rw [hd]; simp)
    have := Nat.isDigit_of_mem_toDigits (b := 10) (n := n) (c := c) (by omega) (by omega) (by rw [hd]; simp)
    rw [hc] at this
    exact absurd this (by decide)

theorem length_padNat {w n : Nat} (h : digits n ≤ w) : (padNat w n).length = w := by
  unfold padNat digits at *
  simp; omega

theorem numbersShown_row (w : Nat) (r : Row) : numbersShown (r.pieces w) = [padNat w r.number] := by
  simp [numbersShown, Row.pieces, padNat_ne_bar]

theorem numbersShown_rows (w : Nat) (rs : List Row) :
    numbersShown (rs.flatMap (Row.pieces w)) = rs.map fun r => padNat w r.number := by
  induction rs with
  | nil => rfl
  | cons r rs ih => rw [List.flatMap_cons, numbersShown_append, numbersShown_row, ih]; rfl

theorem markedText_rows (w : Nat) (rs : List Row) :
    markedText (rs.flatMap (Row.pieces w)) = visualize (rs.flatMap Row.marked) := by
  induction rs with
  | nil => rfl
  | cons r rs ih =>
    rw [List.flatMap_cons, markedText_append, ih, List.flatMap_cons, visualize_append]
    simp [Row.pieces, markedText]

/-- The rows that are printed: all, or the first two and the last two of more than five. -/
def printed (rows : List Row) : List Row :=
  if rows.length ≤ 5 then rows else rows.take 2 ++ rows.drop (rows.length - 2)

theorem numbersShown_body (w : Nat) (rs : List Row) :
    numbersShown (body w rs) = (printed rs).map fun r => padNat w r.number := by
  unfold body printed
  split
  · exact numbersShown_rows w rs
  · simp only [numbersShown_append, numbersShown_rows, List.map_append]
    simp [numbersShown, gutter]

theorem markedText_body (w : Nat) (rs : List Row) :
    markedText (body w rs) = visualize ((printed rs).flatMap Row.marked) := by
  unfold body printed
  split
  · exact markedText_rows w rs
  · simp only [markedText_append, markedText_rows, List.flatMap_append, visualize_append]
    simp [markedText, gutter]

theorem numbersShown_snippet (rs : List Row) (first last : Row) (h1 : rs.head? = some first)
    (h2 : rs.getLast? = some last) :
    numbersShown (snippet width rs) = (printed rs).map fun r => padNat (digits last.number) r.number := by
  unfold snippet
  rw [h1, h2]
  simp only
  split
  · simp only [numbersShown_append, numbersShown_body]
    simp [numbersShown, gutter]
  · simp only [numbersShown_append, numbersShown_body]
    simp [numbersShown, gutter]

theorem markedText_snippet (rs : List Row) (first last : Row) (h1 : rs.head? = some first)
    (h2 : rs.getLast? = some last) :
    markedText (snippet width rs) = visualize ((printed rs).flatMap Row.marked) := by
  unfold snippet
  rw [h1, h2]
  simp only
  split
  · simp only [markedText_append, markedText_body]
    simp [markedText, gutter]
  · simp only [markedText_append, markedText_body]
    simp [markedText, gutter]

/-! ## The rows shown -/

theorem rowsFrom_numbers (start stop n off : Nat) (ls : List Text) :
    (rowsFrom start stop n off ls).map Row.number = List.range' n ls.length := by
  induction ls generalizing n off with
  | nil => rfl
  | cons l ls ih => simp [rowsFrom, ih, List.range'_succ, Row.ofLine]

theorem innerRows_facts (n : Nat) (M : List Text) :
    (innerRows n M).map Row.number = List.range' n M.length ∧
    (innerRows n M).flatMap Row.marked = M.flatten ∧
    (innerRows n M).map (fun r => r.before ++ r.marked ++ r.after) = M := by
  induction M generalizing n with
  | nil => exact ⟨rfl, rfl, rfl⟩
  | cons l M ih =>
    obtain ⟨h1, h2, h3⟩ := ih (n + 1)
    simp [innerRows, h1, h2, List.range'_succ]
    simpa using h3

/-- The rows shown are whole consecutive lines of the input, with the span's text as their marked part. -/
theorem shownRows_facts (pre m suf : Text) (hne : pre ++ m ++ suf ≠ []) :
    ∃ A S B, splitLines (pre ++ m ++ suf) = A ++ (S ++ B) ∧ S ≠ [] ∧
      (shownRows pre m suf).map (fun r => r.before ++ r.marked ++ r.after) = S ∧
      (shownRows pre m suf).map Row.number = List.range' (A.length + 1) S.length ∧
      (shownRows pre m suf).flatMap Row.marked = m ∧
      lineBefore pre = A.length + 1 ∧ lineBefore (pre ++ m) = A.length + S.length := by
  have hf := falls pre m suf hne
  unfold shownRows
  generalize splitLines (pre ++ m ++ suf) = L at hf
  cases hf with
  | @one A f g B e1 e2 e3 e3' e4 e5 =>
    refine ⟨A, [f ++ (m ++ g)], B, rfl, by simp, ?_⟩
    have l1 : utf8Len pre = utf8Len A.flatten + utf8Len f := by rw [e1, utf8Len_append]
    have := shown_filter (utf8Len pre) (utf8Len (pre ++ m)) A [f ++ (m ++ g)] B
    rw [e4, e5, Nat.add_comm 1 A.length]
    simp only [List.length_singleton, List.singleton_append] at this
    rw [Nat.add_comm 1 A.length] at this
    rw [this]
    simp only [rowsFrom]
    rw [ofLine_cut]
    · simp
    · left; omega
    · right; simp; omega
    · left; simp; omega
    · simp
  | @more A f g M f' g' B e1 e2 e3 e4 e5 e6 e7 =>
    refine ⟨A, (f ++ g) :: (M ++ [f' ++ g']), B, by simp, by simp, ?_⟩
    have l1 : utf8Len pre = utf8Len A.flatten + utf8Len f := by rw [e1, utf8Len_append]
    have l2 : utf8Len (pre ++ m) =
        utf8Len A.flatten + utf8Len f + (utf8Len g + (utf8Len M.flatten + utf8Len f')) := by
      rw [utf8Len_append, l1, e2]; simp
    have := shown_filter (utf8Len pre) (utf8Len (pre ++ m)) A ((f ++ g) :: (M ++ [f' ++ g'])) B
    rw [e6, e7]
    simp only [List.length_cons, List.length_append, List.length_nil, List.cons_append,
      List.append_assoc, List.nil_append] at this
    rw [show 1 + A.length + M.length + 1 = A.length + (M.length + (0 + 1) + 1) by omega, this]
    simp only [rowsFrom, rowsFrom_append]
    have r1 := ofLine_cut (1 + A.length) (utf8Len A.flatten) f g [] (utf8Len pre) (utf8Len (pre ++ m))
      (Or.inl (by omega)) (Or.inr (by omega)) (Or.inr rfl) (by omega)
    rw [List.append_nil] at r1
    have r2 := rowsFrom_inner (utf8Len pre) (utf8Len (pre ++ m)) (2 + A.length)
      (utf8Len A.flatten + utf8Len (f ++ g)) M (by simp; omega) (by rw [l2]; simp; omega)
    have r3 := ofLine_cut (2 + A.length + M.length) (utf8Len A.flatten + utf8Len (f ++ g) + utf8Len M.flatten)
      [] f' g' (utf8Len pre) (utf8Len (pre ++ m)) (Or.inr rfl) (Or.inr (by rw [l2]; simp; omega))
      (Or.inl (by rw [l2]; simp; omega)) (by omega)
    rw [List.nil_append] at r3
    rw [show 1 + A.length + 1 = 2 + A.length by omega, r1, r2, r3]
    obtain ⟨i1, i2, i3⟩ := innerRows_facts (2 + A.length) M
    refine ⟨?_, ?_, ?_, by omega, by simp⟩
    · simp only [List.map_cons, List.map_append, List.map_nil]
      rw [i3]; simp
    · simp only [List.map_cons, List.map_append, List.map_nil]
      rw [i1]
      simp only [List.length_cons, List.length_append, List.length_nil]
      rw [List.range'_succ, ← List.range'_append_1, Nat.add_comm 1 A.length,
        show A.length + 1 + 1 = 2 + A.length by omega]
      rfl
    · simp only [List.flatMap_cons, List.flatMap_append, List.flatMap_nil, i2]
      rw [e2]; simp

end Pest3
