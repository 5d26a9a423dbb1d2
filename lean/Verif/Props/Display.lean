import Verif.SnippetRun

/-!
# Properties C12–C15: showing spans and positions

`shownRows pre m suf` (in `Verif.Snippet`) is the specification: the lines of `pre ++ m ++ suf` from the
one holding the last character before the span to the one holding the last character of the span, each
cut by comparing byte offsets with the span's.
-/

namespace Pest3.Props

open Pest3

/-- Every column counts one; the theorems hold for any width. -/
def plainWidth : Text → Nat := List.length

/-! ## C12: formatting does not panic -/

/-- Formatting a span panics exactly when the input is empty. -/
theorem C12_span_partial (width : Text → Nat) (sp : Span) (hv : sp.Valid) :
    (displaySpan width sp).isSome ↔ sp.input.text ≠ [] := by
  obtain ⟨a, m, b, ht, h1, h2, _, _⟩ := C09_as_str sp hv
  constructor
  · intro h hn
    have hs : sp.start = 0 := by
      rw [hn] at ht
      have : a = [] := by simp at ht; exact ht.1
      rw [← h1, this]; rfl
    have : displaySpan width sp = none := by
      unfold displaySpan
      rw [whole_lines]
      simp only [Option.bind_eq_bind, Option.bind_some, (C11_lines_partition sp.input).2.1, hn]
      rfl
    rw [this] at h
    exact absurd h (by simp)
  · intro hn
    obtain ⟨out, ho, _⟩ := displaySpan_spec width sp a m b ht h1.symm h2.symm hn
    rw [ho]; rfl

/-- The claim as stated fails: the one span of an empty input is valid and its `Display` panics. -/
theorem C12_empty_input_witness (width : Text → Nat) (addr : Nat) :
    (Span.mk ⟨addr, []⟩ 0 0).Valid ∧ Span.new ⟨addr, []⟩ 0 0 = some ⟨⟨addr, []⟩, 0, 0⟩ ∧
      (Span.mk ⟨addr, []⟩ 0 0).toText width = none := by
  refine ⟨⟨Nat.le_refl _, boundary_zero _, boundary_zero _⟩,
    Span.new_eq_some.2 ⟨Nat.le_refl _, boundary_zero _, boundary_zero _, rfl⟩, ?_⟩
  have hv : (Span.mk ⟨addr, []⟩ 0 0).Valid := ⟨Nat.le_refl _, boundary_zero _, boundary_zero _⟩
  have h : displaySpan width (Span.mk ⟨addr, []⟩ 0 0) = none := by
    cases hd : displaySpan width (Span.mk ⟨addr, []⟩ 0 0) with
    | none => rfl
    | some out => exact absurd rfl ((C12_span_partial width _ hv).1 (by rw [hd]; rfl))
  simp [Span.toText, h]

/-- Formatting a position never panics. -/
theorem C12_position (width : Text → Nat) (p : Position) (hv : p.Valid) :
    (displayPosition width p).isSome ∧ (p.toText width).isSome := by
  obtain ⟨pre, suf, h⟩ := Position.valid_iff_at.1 hv
  obtain ⟨out, ho, _⟩ := displayPosition_spec width p pre suf h
  have hr : ∀ l w, (FormatOption.default.render l w).isSome := by
    intro l
    induction l with
    | nil => intro w; rfl
    | cons x l ih => intro w; cases x <;> exact ih _
  refine ⟨by rw [ho]; rfl, ?_⟩
  unfold Position.toText
  rw [ho]
  exact hr _ _

/-- With formatters and a writer that never fail, all of a span is written. -/
theorem C12_written {W : Type} (opt : FormatOption W) (hopt : ∀ x w, (opt.write x w).isSome)
    (width : Text → Nat) (sp : Span) (hv : sp.Valid) (hne : sp.input.text ≠ []) (w : W) :
    ∃ out w', displaySpan width sp = some out ∧ opt.render out w = some w' := by
  obtain ⟨out, ho⟩ := Option.isSome_iff_exists.1 ((C12_span_partial width sp hv).2 hne)
  refine ⟨out, ?_⟩
  have hr : ∀ l w, ∃ w', opt.render l w = some w' := by
    intro l
    induction l with
    | nil => intro w; exact ⟨w, rfl⟩
    | cons x l ih =>
      intro w
      obtain ⟨w1, h1⟩ := Option.isSome_iff_exists.1 (hopt x w)
      simp only [FormatOption.render, h1]
      exact ih w1
  obtain ⟨w', h⟩ := hr out w
  exact ⟨w', ho, h⟩

example : (Span.mk sample 0 6).Valid ∧ sample.text ≠ [] := ⟨by decide, by decide⟩
example : (Position.mk sample 6).Valid := by decide

/-! ## C13: what a snippet shows -/

/-- The rows shown are consecutive whole lines of the input, nothing lost, numbered consecutively, and
the marked parts together are the text of the span. -/
theorem C13_rows (pre m suf : Text) (hne : pre ++ m ++ suf ≠ []) :
    ∃ A S B, splitLines (pre ++ m ++ suf) = A ++ (S ++ B) ∧ S ≠ [] ∧
      (shownRows pre m suf).map (fun r => r.before ++ r.marked ++ r.after) = S ∧
      (shownRows pre m suf).map Row.number = List.range' (A.length + 1) S.length ∧
      (shownRows pre m suf).flatMap Row.marked = m ∧
      lineBefore pre = A.length + 1 ∧ lineBefore (pre ++ m) = A.length + S.length :=
  shownRows_facts pre m suf hne

/-- Formatting a span prints exactly that snippet. -/
theorem C13_span (width : Text → Nat) (sp : Span) (hv : sp.Valid) (hne : sp.input.text ≠ []) :
    ∃ pre m suf out, sp.input.text = pre ++ m ++ suf ∧ utf8Len pre = sp.start ∧ sp.asStr = some m ∧
      displaySpan width sp = some out ∧
      squeeze out = squeeze (snippet width (shownRows pre m suf)) := by
  obtain ⟨a, m, b, ht, h1, h2, h3, _⟩ := C09_as_str sp hv
  obtain ⟨out, ho, hs⟩ := displaySpan_spec width sp a m b ht h1.symm h2.symm hne
  exact ⟨a, m, b, out, ht, h1, h3, ho, hs⟩

theorem shown_ends (pre m suf : Text) (hne : pre ++ m ++ suf ≠ []) :
    ∃ first last, (shownRows pre m suf).head? = some first ∧ (shownRows pre m suf).getLast? = some last ∧
      first.number = lineBefore pre ∧ last.number = lineBefore (pre ++ m) ∧
      ∀ r ∈ shownRows pre m suf, r.number ≤ last.number := by
  obtain ⟨A, S, B, _, h2, _, h4, _, h6, h7⟩ := shownRows_facts pre m suf hne
  have hl : 0 < S.length := List.length_pos_iff.2 h2
  have hlen : (shownRows pre m suf).length = S.length := by
    have := congrArg List.length h4; simpa using this
  have hn : shownRows pre m suf ≠ [] := by
    intro h; rw [h] at hlen; simp at hlen; omega
  refine ⟨(shownRows pre m suf).head hn, (shownRows pre m suf).getLast hn,
    List.head?_eq_some_head hn, List.getLast?_eq_some_getLast hn, ?_, ?_, ?_⟩
  · have := congrArg List.head? h4
    rw [List.head?_map, List.head?_eq_some_head hn] at this
    obtain ⟨k, hk⟩ : ∃ k, S.length = k + 1 := ⟨S.length - 1, by omega⟩
    rw [hk, List.range'_succ] at this
    simp at this
    omega
  · have := congrArg List.getLast? h4
    rw [List.getLast?_map, List.getLast?_eq_some_getLast hn, List.getLast?_range'] at this
    rw [if_neg (by omega)] at this
    simp at this
    omega
  · intro r hr
    have hm : r.number ∈ (shownRows pre m suf).map Row.number := List.mem_map_of_mem hr
    rw [h4, List.mem_range'_1] at hm
    have := congrArg List.getLast? h4
    rw [List.getLast?_map, List.getLast?_eq_some_getLast hn, List.getLast?_range'] at this
    rw [if_neg (by omega)] at this
    simp at this
    omega

/-- What is handed to the span formatter is the text of the span with control characters made visible,
if the span covers at most five lines; otherwise it is the part of it on the rows printed. -/
theorem C13_marked_text (width : Text → Nat) (sp : Span) (hv : sp.Valid) (hne : sp.input.text ≠ []) :
    ∃ pre m suf out, sp.input.text = pre ++ m ++ suf ∧ utf8Len pre = sp.start ∧ sp.asStr = some m ∧
      displaySpan width sp = some out ∧
      markedText out = visualize ((printed (shownRows pre m suf)).flatMap Row.marked) ∧
      (lineBefore (pre ++ m) < lineBefore pre + 5 → markedText out = visualize m) := by
  obtain ⟨pre, m, suf, out, ht, h1, h2, h3, h4⟩ := C13_span width sp hv hne
  refine ⟨pre, m, suf, out, ht, h1, h2, h3, ?_⟩
  obtain ⟨first, last, e1, e2, _⟩ := shown_ends pre m suf (by rw [← ht]; exact hne)
  have hm : markedText out = visualize ((printed (shownRows pre m suf)).flatMap Row.marked) := by
    rw [← markedText_squeeze, h4, markedText_squeeze, markedText_snippet width _ first last e1 e2]
  refine ⟨hm, fun hl => ?_⟩
  obtain ⟨A, S, B, _, _, _, k4, k5, k6, k7⟩ := shownRows_facts pre m suf (by rw [← ht]; exact hne)
  have hlen : (shownRows pre m suf).length = S.length := by
    have := congrArg List.length k4; simpa using this
  rw [hm, printed, if_pos (by omega), k5]

/-- The line number of a cut is the number of the line holding the character before it. -/
theorem lineBefore_lineCol (p : Position) (pre suf : Text) (h : p.At pre suf) :
    ∃ line col, p.lineCol = some (line, col) ∧
      lineBefore pre = if col = 1 ∧ p.pos ≠ 0 then line - 1 else line := by
  refine ⟨_, _, h.lineCol, ?_⟩
  rcases List.eq_nil_or_concat pre with rfl | ⟨init, c, rfl⟩
  · rw [if_neg]
    · rfl
    · intro hh; exact hh.2 h.2
  · rw [List.concat_eq_append] at h ⊢
    have hp : p.pos ≠ 0 := by
      rw [h.2]; have := utf8Size_pos c; simp; omega
    unfold lineBefore
    by_cases hc : c = '\n'
    · subst hc
      rw [if_pos]
      · simp [List.count_append]; omega
      · refine ⟨?_, hp⟩
        have := sinceNewline_append_newline init []
        simp at this
        rw [this]; rfl
    · rw [if_neg]
      · simp [List.count_append, hc]
      · rintro ⟨h1, _⟩
        simp [sinceNewline, hc] at h1

/-- The line numbers printed: those of consecutive lines, the first and the last being the lines of the
span's ends as `line_col` gives them, except that an end which is at the beginning of a line (other than
the beginning of the input) is attributed to the line before. -/
theorem C13_line_numbers_partial (width : Text → Nat) (sp : Span) (hv : sp.Valid)
    (hne : sp.input.text ≠ []) :
    ∃ out first last l1 c1 l2 c2, displaySpan width sp = some out ∧
      (Position.mk sp.input sp.start).lineCol = some (l1, c1) ∧
      (Position.mk sp.input sp.stop).lineCol = some (l2, c2) ∧
      first = (if c1 = 1 ∧ sp.start ≠ 0 then l1 - 1 else l1) ∧
      last = (if c2 = 1 ∧ sp.stop ≠ 0 then l2 - 1 else l2) ∧
      numbersShown out =
        (if last < first + 5 then List.range' first (last + 1 - first)
          else [first, first + 1, last - 1, last]).map (padNat (digits last)) := by
  obtain ⟨pre, m, suf, ht, h1, h2, h3, _⟩ := C09_as_str sp hv
  have ht' : pre ++ m ++ suf ≠ [] := by rw [← ht]; exact hne
  obtain ⟨out, ho, hs⟩ := displaySpan_spec width sp pre m suf ht h1.symm h2.symm hne
  obtain ⟨l1, c1, k1, k2⟩ := lineBefore_lineCol ⟨sp.input, sp.start⟩ pre (m ++ suf)
    ⟨by simp [ht], h1.symm⟩
  obtain ⟨l2, c2, k3, k4⟩ := lineBefore_lineCol ⟨sp.input, sp.stop⟩ (pre ++ m) suf ⟨ht, h2.symm⟩
  obtain ⟨first, last, e1, e2, e3, e4, _⟩ := shown_ends pre m suf ht'
  refine ⟨out, lineBefore pre, lineBefore (pre ++ m), l1, c1, l2, c2, ho, k1, k3,
    k2, k4, ?_⟩
  rw [← numbersShown_squeeze, hs, numbersShown_squeeze, numbersShown_snippet width _ first last e1 e2]
  obtain ⟨A, S, B, _, f2, _, f4, f5, f6, f7⟩ := shownRows_facts pre m suf ht'
  have hlen : (shownRows pre m suf).length = S.length := by
    have := congrArg List.length f4; simpa using this
  have hl : 0 < S.length := List.length_pos_iff.2 f2
  have hmap : ∀ rs : List Row, rs.map (fun r => padNat (digits last.number) r.number) =
      (rs.map Row.number).map (padNat (digits last.number)) := by intro rs; simp
  rw [hmap, e4]
  congr 1
  unfold printed
  by_cases h5 : S.length ≤ 5
  · rw [if_pos (by omega), if_pos (by omega), f4]
    congr 1 <;> omega
  · rw [if_neg (by omega), if_neg (by omega), List.map_append, List.map_take, List.map_drop, f4, hlen]
    obtain ⟨k, hk⟩ : ∃ k, S.length = 2 + (k + 2) := ⟨S.length - 4, by omega⟩
    rw [hk]
    have ha : List.range' (A.length + 1) (2 + (k + 2)) =
        [A.length + 1, A.length + 2] ++ (List.range' (A.length + 3) k ++ [A.length + 3 + k, A.length + 4 + k]) := by
      rw [← List.range'_append_1, ← List.range'_append_1]
      simp [List.range']
      omega
    rw [ha, show 2 + (k + 2) - 2 = 2 + k by omega, ← List.append_assoc,
      List.drop_left' (by simp; omega)]
    simp
    omega

/-- The claim as stated fails: the span of the "2" in "1\n2\n" starts on line 2, but the snippet starts
with line 1. -/
theorem C13_line_witness (width : Text → Nat) :
    let sp : Span := ⟨⟨0, ['1', '\n', '2', '\n']⟩, 2, 3⟩
    sp.Valid ∧ sp.asStr = some ['2'] ∧ (Position.mk sp.input sp.start).lineCol = some (2, 1) ∧
      ∃ out, displaySpan width sp = some out ∧ numbersShown out = [['1'], ['2']] := by
  refine ⟨by decide, by decide, ?_, ?_⟩
  · rw [Position.At.lineCol (pre := ['1', '\n']) (suf := ['2', '\n']) ⟨rfl, by decide⟩]; decide
  · obtain ⟨out, first, last, l1, c1, l2, c2, h1, h2, h3, h4, h5, h6⟩ := C13_line_numbers_partial width
      ⟨⟨0, ['1', '\n', '2', '\n']⟩, 2, 3⟩ (by decide) (by decide)
    rw [Position.At.lineCol (pre := ['1', '\n']) (suf := ['2', '\n']) ⟨rfl, by decide⟩] at h2
    rw [Position.At.lineCol (pre := ['1', '\n', '2']) (suf := ['\n']) ⟨rfl, by decide⟩] at h3
    refine ⟨out, h1, ?_⟩
    obtain ⟨rfl, rfl⟩ : l1 = 2 ∧ c1 = 1 := by
      have : (2, 1) = (l1, c1) := Option.some.inj (Eq.trans (by decide) h2)
      simpa [eq_comm] using this
    obtain ⟨rfl, rfl⟩ : l2 = 2 ∧ c2 = 2 := by
      have : (2, 2) = (l2, c2) := Option.some.inj (Eq.trans (by decide) h3)
      simpa [eq_comm] using this
    obtain rfl : first = 1 := h4
    obtain rfl : last = 2 := h5
    rw [h6]
    have hd : digits 2 = 1 := digits_lt (by omega)
    have h1 : showNat 1 = ['1'] := by rw [showNat_eq, Nat.toDigits_of_lt_base (by omega)]; rfl
    have h2 : showNat 2 = ['2'] := by rw [showNat_eq, Nat.toDigits_of_lt_base (by omega)]; rfl
    simp [hd, padNat, List.range', h1, h2]

/-- A position is shown on its own line, with the caret under its character; at the end of the input
nothing is shown. -/
theorem C13_position (width : Text → Nat) (p : Position) (pre suf : Text) (h : p.At pre suf) :
    ∃ out line col text, displayPosition width p = some out ∧ p.lineCol = some (line, col) ∧
      p.lineOf = some text ∧
      squeeze out = if suf = [] then [] else
        squeeze (caret width line (text.take (col - 1)) (text.drop (col - 1))) := by
  obtain ⟨out, ho, hs⟩ := displayPosition_spec width p pre suf h
  refine ⟨out, _, _, _, ho, h.lineCol, h.lineOf, ?_⟩
  rw [hs, Nat.add_sub_cancel_left, List.take_left' rfl, List.drop_left' rfl]

/-! ## C14: the gutter -/

/-- `ceil_log10` is the number of decimal digits. -/
theorem C14_digits (n : Nat) :
    ceilLog10 n = (Nat.toDigits 10 n).length ∧ n < 10 ^ ceilLog10 n ∧
      (n = 0 ∨ 10 ^ (ceilLog10 n - 1) ≤ n) := by
  have h : ceilLog10 n = (Nat.toDigits 10 n).length := by
    rw [ceilLog10_eq, digits, showNat_eq]
  have hp : 0 < ceilLog10 n := by rw [ceilLog10_eq]; exact digits_pos n
  refine ⟨h, ?_, ?_⟩
  · exact (Nat.length_toDigits_le_iff (by omega) hp).1 (by omega)
  · by_cases h1 : ceilLog10 n = 1
    · rw [h1]; simp; omega
    · right
      have := Nat.length_toDigits_le_iff (b := 10) (n := n) (k := ceilLog10 n - 1) (by omega) (by omega)
      rcases Nat.lt_or_ge n (10 ^ (ceilLog10 n - 1)) with h2 | h2
      · have := this.2 h2; omega
      · exact h2

/-- Every printed line number has the width of the largest one, which is printed without padding; the others have blanks in front. -/
theorem C14_gutter (width : Text → Nat) (sp : Span) (hv : sp.Valid) (hne : sp.input.text ≠ []) :
    ∃ out last, displaySpan width sp = some out ∧ (numbersShown out).getLast? = some (showNat last) ∧
      ∀ t ∈ numbersShown out, t.length = (showNat last).length ∧ ∃ k n, n ≤ last ∧ t = List.replicate k ' ' ++ showNat n := by
  obtain ⟨pre, m, suf, ht, h1, h2, h3, _⟩ := C09_as_str sp hv
  have ht' : pre ++ m ++ suf ≠ [] := by rw [← ht]; exact hne
  obtain ⟨out, ho, hs⟩ := displaySpan_spec width sp pre m suf ht h1.symm h2.symm hne
  obtain ⟨first, last, e1, e2, e3, e4, e5⟩ := shown_ends pre m suf ht'
  have hn : numbersShown out =
      (printed (shownRows pre m suf)).map fun r => padNat (digits last.number) r.number := by
    rw [← numbersShown_squeeze, hs, numbersShown_squeeze, numbersShown_snippet width _ first last e1 e2]
  refine ⟨out, last.number, ho, ?_, ?_⟩
  · rw [hn, List.getLast?_map]
    have hl : (printed (shownRows pre m suf)).getLast? = some last := by
      unfold printed
      split
      · exact e2
      · next h =>
        rw [List.getLast?_append, List.getLast?_drop, if_neg (by omega), e2]; rfl
    rw [hl]
    simp [padNat, digits]
  · intro t ht
    rw [hn] at ht
    obtain ⟨r, hr, rfl⟩ := List.mem_map.1 ht
    have hr' : r ∈ shownRows pre m suf := by
      unfold printed at hr
      split at hr
      · exact hr
      · rcases List.mem_append.1 hr with h | h
        · exact List.mem_of_mem_take h
        · exact List.mem_of_mem_drop h
    exact ⟨length_padNat (digits_mono (e5 r hr')), _, r.number, e5 r hr', rfl⟩

/-! ## C15: control characters -/

/-- One visible character for each character; only ASCII control characters change; the result never
contains one, in particular no line break. -/
theorem C15_visualize (t : Text) :
    (visualize t).length = t.length ∧
    (∀ i (h : i < t.length), (visualize t)[i]? = some (visualizeChar t[i])) ∧
    (∀ c, 0x20 ≤ c.toNat → c.toNat ≠ 0x7f → visualizeChar c = c) ∧
    (∀ c, c.toNat < 0x20 ∨ c.toNat = 0x7f → 0x2400 ≤ (visualizeChar c).toNat ∧
      (visualizeChar c).toNat ≤ 0x2421) ∧
    (∀ c ∈ visualize t, 0x20 ≤ c.toNat ∧ c.toNat ≠ 0x7f) := by
  have key : ∀ n, n ≤ 0x1f → (Char.ofNat (0x2400 + n)).toNat = 0x2400 + n := by decide
  have hctl : ∀ c : Char, c.toNat < 0x20 ∨ c.toNat = 0x7f → 0x2400 ≤ (visualizeChar c).toNat ∧
      (visualizeChar c).toNat ≤ 0x2421 := by
    intro c hc
    unfold visualizeChar
    split
    · next h => rw [key _ h]; omega
    · rw [if_pos (by omega)]; decide
  have hid : ∀ c : Char, 0x20 ≤ c.toNat → c.toNat ≠ 0x7f → visualizeChar c = c := by
    intro c h1 h2
    unfold visualizeChar
    rw [if_neg (by omega), if_neg h2]
  refine ⟨by simp [visualize], fun i h => by simp [visualize, h], hid, hctl, ?_⟩
  intro c hc
  obtain ⟨d, _, rfl⟩ := List.mem_map.1 hc
  by_cases h : d.toNat < 0x20 ∨ d.toNat = 0x7f
  · have := hctl d h; omega
  · rw [hid d (by omega) (by omega)]; omega

/-- Different control characters are shown differently. -/
theorem C15_distinct (c d : Char) (hc : c.toNat < 0x20 ∨ c.toNat = 0x7f)
    (hd : d.toNat < 0x20 ∨ d.toNat = 0x7f) (h : visualizeChar c = visualizeChar d) : c = d := by
  have key : ∀ n, n ≤ 0x1f → (Char.ofNat (0x2400 + n)).toNat = 0x2400 + n := by decide
  have e := congrArg Char.toNat h
  unfold visualizeChar at e
  apply Char.toNat_inj.1
  have k1 : (Char.ofNat 0x2421).toNat = 0x2421 := by decide
  by_cases h1 : c.toNat ≤ 0x1f <;> by_cases h2 : d.toNat ≤ 0x1f
  · rw [if_pos h1, if_pos h2, key _ h1, key _ h2] at e; omega
  · rw [if_pos h1, if_neg h2, if_pos (by omega), key _ h1, k1] at e; omega
  · rw [if_neg h1, if_pos (by omega), if_pos h2, key _ h2, k1] at e; omega
  · omega

example : visualize ['a', '\t', '\n', '\r', '嗨'] = ['a', '␉', '␊', '␍', '嗨'] := by decide

end Pest3.Props
