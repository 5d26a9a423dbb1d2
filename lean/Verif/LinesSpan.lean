import Verif.LineLemmas

/-! # `LinesSpan` against a specification by splitting the text -/

namespace Pest3

/-- Specification: the lines of a text, each with its terminating newline if it has one. -/
def splitLines : Text → List Text
  | [] => []
  | c :: cs =>
    if c = '\n' then [c] :: splitLines cs
    else match splitLines cs with
      | [] => [[c]]
      | l :: ls => (c :: l) :: ls

/-- Specification: consecutive spans covering the given pieces, from offset `off`. -/
def lineSpansFrom (input : Str) : Nat → List Text → List Span
  | _, [] => []
  | off, l :: ls => ⟨input, off, off + utf8Len l⟩ :: lineSpansFrom input (off + utf8Len l) ls

theorem splitLines_flatten (t : Text) : (splitLines t).flatten = t := by
  induction t with
  | nil => rfl
  | cons c cs ih =>
    simp only [splitLines]
    split
    · simp [ih]
    · split
      · next h => rw [h] at ih; simp at ih; simp [ih]
      · next l ls h => rw [h] at ih; simp at ih; simp [ih]

theorem splitLines_mem {t l : Text} (h : l ∈ splitLines t) :
    l ≠ [] ∧ ('\n' ∉ l ∨ ∃ m, '\n' ∉ m ∧ l = m ++ ['\n']) := by
  induction t generalizing l with
  | nil => simp [splitLines] at h
  | cons c cs ih =>
    simp only [splitLines] at h
    split at h
    · next hc =>
      rcases List.mem_cons.1 h with rfl | h
      · subst hc; exact ⟨by simp, Or.inr ⟨[], by simp, rfl⟩⟩
      · exact ih h
    · next hc =>
      have hc' : ¬ '\n' = c := fun e => hc e.symm
      split at h
      · simp at h; subst h
        exact ⟨by simp, Or.inl (by simp [hc'])⟩
      · next l' ls hl =>
        rcases List.mem_cons.1 h with rfl | h
        · obtain ⟨_, h2⟩ := ih (l := l') (by rw [hl]; simp)
          refine ⟨by simp, ?_⟩
          rcases h2 with h2 | ⟨m, hm, rfl⟩
          · left; simp [hc', h2]
          · right; exact ⟨c :: m, by simp [hc', hm], rfl⟩
        · exact ih (by rw [hl]; simp [h])

theorem splitLines_eq {t : Text} (h : t ≠ []) :
    splitLines t = restOfLine t :: splitLines (afterLine t) := by
  induction t with
  | nil => exact absurd rfl h
  | cons c cs ih =>
    simp only [splitLines, restOfLine, afterLine]
    split
    · rfl
    · cases cs with
      | nil => simp [splitLines, restOfLine, afterLine]
      | cons d ds => rw [ih (by simp)]

theorem splitLines_append_newline (r t : Text) :
    splitLines (r ++ '\n' :: t) = splitLines (r ++ ['\n']) ++ splitLines t := by
  induction r with
  | nil => simp [splitLines]
  | cons c cs ih =>
    simp only [List.cons_append, splitLines, ih]
    split
    · simp
    · have hne : splitLines (cs ++ ['\n']) ≠ [] := by
        rw [splitLines_eq (by simp)]; simp
      cases hs : splitLines (cs ++ ['\n']) with
      | nil => exact absurd hs hne
      | cons l ls => simp

theorem splitLines_upto (pre t : Text) :
    splitLines (uptoNewline pre ++ t) = splitLines (uptoNewline pre) ++ splitLines t := by
  by_cases h : '\n' ∈ pre
  · obtain ⟨r, hr⟩ := uptoNewline_ends h
    rw [hr, List.append_assoc, List.singleton_append, splitLines_append_newline]
  · rw [uptoNewline_eq_nil h]; simp [splitLines]

theorem restOfLine_append {s t : Text} (h : '\n' ∉ s) :
    restOfLine (s ++ t) = s ++ restOfLine t ∧ afterLine (s ++ t) = afterLine t := by
  induction s with
  | nil => simp
  | cons c cs ih =>
    simp only [List.mem_cons, not_or] at h
    have hc : ¬ c = '\n' := fun e => h.1 e.symm
    simp [restOfLine, afterLine, hc, ih h.2]

theorem lineSpansFrom_append (input : Str) (off : Nat) (a b : List Text) :
    lineSpansFrom input off (a ++ b) =
      lineSpansFrom input off a ++ lineSpansFrom input (off + utf8Len a.flatten) b := by
  induction a generalizing off with
  | nil => simp [lineSpansFrom]
  | cons l ls ih => simp [lineSpansFrom, ih, Nat.add_assoc]

theorem lineSpansFrom_mem {input : Str} {off : Nat} {ls : List Text} {s : Span}
    (h : s ∈ lineSpansFrom input off ls) :
    off ≤ s.start ∧ s.start ≤ s.stop ∧ s.stop ≤ off + utf8Len ls.flatten ∧
      ((∀ l ∈ ls, l ≠ []) → s.start < s.stop) := by
  induction ls generalizing off with
  | nil => simp [lineSpansFrom] at h
  | cons l ls ih =>
    simp only [lineSpansFrom, List.mem_cons] at h
    rcases h with rfl | h
    · simp only [List.flatten_cons, utf8Len_append]
      refine ⟨Nat.le_refl _, by omega, by omega, fun hne => ?_⟩
      have := hne l (by simp)
      have : utf8Len l ≠ 0 := fun h0 => this (utf8Len_eq_zero.1 h0)
      omega
    · obtain ⟨h1, h2, h3, h4⟩ := ih h
      simp only [List.flatten_cons, utf8Len_append]
      refine ⟨by omega, h2, by omega, fun hne => h4 (fun x hx => hne x (by simp [hx]))⟩

theorem filter_start (input : Str) (bound : Nat) (off : Nat) (ls : List Text) :
    (lineSpansFrom input off ls).filter (fun l => decide (l.start ≤ bound)) =
      (lineSpansFrom input off ls).takeWhile (fun l => decide (l.start ≤ bound)) := by
  induction ls generalizing off with
  | nil => rfl
  | cons l ls ih =>
    simp only [lineSpansFrom, List.filter_cons, List.takeWhile_cons, ih]
    by_cases h : off ≤ bound
    · simp [h]
    · simp only [h, decide_false, Bool.false_eq_true, if_false]
      rw [← ih, List.filter_eq_nil_iff]
      intro s hs
      have := lineSpansFrom_mem hs
      simp; omega

theorem sinceNewline_append_newline (a m : Text) : sinceNewline (a ++ (m ++ ['\n'])) = [] := by
  simp [sinceNewline]

theorem uptoNewline_of_since_nil {t : Text} (h : sinceNewline t = []) : uptoNewline t = t := by
  have := uptoNewline_append_sinceNewline t
  rw [h] at this
  simpa using this

theorem length_le_utf8Len (t : Text) : t.length ≤ utf8Len t := by
  induction t with
  | nil => simp
  | cons c cs ih =>
    have := utf8Size_pos c
    simp; omega

theorem restOfLine_ne_nil {t : Text} (h : t ≠ []) : restOfLine t ≠ [] := by
  cases t with
  | nil => exact absurd rfl h
  | cons c cs => simp only [restOfLine]; split <;> simp

/-- The step of the iterator. -/
theorem Span.linesNext_eq {span : Span} {pre suf : Text} (hin : span.input.text = pre ++ suf)
    (hle : utf8Len pre ≤ span.stop) (hne : suf ≠ []) :
    span.linesNext (utf8Len pre) =
      (some ⟨span.input, utf8Len (uptoNewline pre), utf8Len pre + utf8Len (restOfLine suf)⟩,
        utf8Len pre + utf8Len (restOfLine suf)) := by
  have hat : (Position.mk span.input (utf8Len pre)).At pre suf := ⟨hin, rfl⟩
  unfold Span.linesNext
  rw [if_neg (by omega)]
  have hnew : Position.new span.input (utf8Len pre) = some ⟨span.input, utf8Len pre⟩ :=
    Position.new_eq_some.2 ⟨hat.valid, rfl⟩
  rw [hnew]
  simp only [hat.atEnd, hat.findLineStart, hat.findLineEnd]
  rw [if_neg (by simpa using hne)]
  have hs : Span.new span.input (utf8Len (uptoNewline pre)) (utf8Len pre + utf8Len (restOfLine suf)) =
      some ⟨span.input, utf8Len (uptoNewline pre), utf8Len pre + utf8Len (restOfLine suf)⟩ := by
    have e := congrArg utf8Len (uptoNewline_append_sinceNewline pre)
    rw [utf8Len_append] at e
    refine Span.new_eq_some.2 ⟨by omega, ?_, ?_, rfl⟩
    · refine ⟨uptoNewline pre, sinceNewline pre ++ suf, ?_, rfl⟩
      rw [hin, ← List.append_assoc, uptoNewline_append_sinceNewline]
    · refine ⟨pre ++ restOfLine suf, afterLine suf, ?_, by simp⟩
      rw [hin, List.append_assoc, restOfLine_append_afterLine]
  rw [hs]

theorem Span.linesNext_end {span : Span} (pos : Nat)
    (h : span.stop < pos ∨ pos = span.input.len) : (span.linesNext pos).1 = none := by
  unfold Span.linesNext
  split
  · rfl
  · split
    · rfl
    · next p hp =>
      obtain ⟨_, rfl⟩ := Position.new_eq_some.1 hp
      rw [if_pos]
      simp only [Position.atEnd, beq_iff_eq]
      omega

theorem Span.linesFrom_end {span : Span} (fuel pos : Nat)
    (h : span.stop < pos ∨ pos = span.input.len) : span.linesFrom fuel pos = [] := by
  cases fuel with
  | zero => rfl
  | succ n =>
    unfold Span.linesFrom
    have := Span.linesNext_end (span := span) pos h
    cases hn : span.linesNext pos with
    | mk a b => rw [hn] at this; simp at this; subst this; rfl

theorem afterLine_length {t : Text} (h : t ≠ []) : (afterLine t).length < t.length := by
  have h1 := congrArg List.length (restOfLine_append_afterLine t)
  have h2 : (restOfLine t).length ≠ 0 := fun h0 =>
    restOfLine_ne_nil h (List.length_eq_zero_iff.1 h0)
  rw [List.length_append] at h1
  omega

theorem Span.linesFrom_lineStart {span : Span} (fuel : Nat) (pre suf : Text)
    (hin : span.input.text = pre ++ suf) (hs : sinceNewline pre = []) (hf : suf.length + 1 ≤ fuel) :
    span.linesFrom fuel (utf8Len pre) =
      (lineSpansFrom span.input (utf8Len pre) (splitLines suf)).takeWhile
        (fun l => decide (l.start ≤ span.stop)) := by
  induction fuel generalizing pre suf with
  | zero => omega
  | succ n ih =>
    by_cases hne : suf = []
    · subst hne
      rw [Span.linesFrom_end]
      · simp [splitLines, lineSpansFrom]
      · right; rw [Str.len, hin]; simp
    · rw [splitLines_eq hne]
      simp only [lineSpansFrom, List.takeWhile_cons]
      by_cases hle : utf8Len pre ≤ span.stop
      · simp only [hle, decide_true, if_true]
        unfold Span.linesFrom
        rw [Span.linesNext_eq hin hle hne, uptoNewline_of_since_nil hs]
        simp only
        congr 1
        have hlen := afterLine_length hne
        have hin' : span.input.text = (pre ++ restOfLine suf) ++ afterLine suf := by
          rw [hin, List.append_assoc, restOfLine_append_afterLine]
        by_cases hm : '\n' ∈ suf
        · obtain ⟨m, _, hm2⟩ := restOfLine_newline hm
          have := ih (pre ++ restOfLine suf) (afterLine suf) hin'
            (by rw [hm2]; exact sinceNewline_append_newline _ _) (by omega)
          rw [utf8Len_append] at this
          exact this
        · have h2 := restOfLine_no_newline hm
          rw [h2.2, Span.linesFrom_end]
          · simp [splitLines, lineSpansFrom]
          · right; rw [Str.len, hin, utf8Len_append, h2.1]
      · simp only [hle, decide_false]
        exact Span.linesFrom_end _ _ (Or.inl (by omega))

/-- The iterator yields exactly the lines of the text that end after the start of the span and
start no later than its end. -/
theorem Span.linesFrom_spec {span : Span} (hv : span.Valid) (fuel : Nat)
    (hf : span.input.len + 1 ≤ fuel) :
    span.linesFrom fuel span.start =
      (lineSpansFrom span.input 0 (splitLines span.input.text)).filter
        (fun l => decide (span.start < l.stop) && decide (l.start ≤ span.stop)) := by
  obtain ⟨hle, ⟨pre, suf, hin, hpre⟩, _⟩ := hv
  rw [← hpre] at hle ⊢
  by_cases hne : suf = []
  · subst hne
    rw [Span.linesFrom_end _ _ (Or.inr (by rw [Str.len, hin]; simp)), eq_comm,
      List.filter_eq_nil_iff]
    intro s hs
    have := (lineSpansFrom_mem hs).2.2.1
    rw [splitLines_flatten, hin] at this
    simp at this ⊢
    omega
  · have hsplit : splitLines span.input.text =
        splitLines (uptoNewline pre) ++ (sinceNewline pre ++ restOfLine suf) :: splitLines (afterLine suf) := by
      have e : span.input.text = uptoNewline pre ++ (sinceNewline pre ++ suf) := by
        rw [hin, ← List.append_assoc, uptoNewline_append_sinceNewline]
      rw [e, splitLines_upto, splitLines_eq (t := sinceNewline pre ++ suf) (by simp [hne]),
        (restOfLine_append (sinceNewline_not_mem pre)).1,
        (restOfLine_append (sinceNewline_not_mem pre)).2]
    have hu := congrArg utf8Len (uptoNewline_append_sinceNewline pre)
    rw [utf8Len_append] at hu
    have hrpos : 0 < utf8Len (restOfLine suf) :=
      Nat.pos_of_ne_zero fun h0 => restOfLine_ne_nil hne (utf8Len_eq_zero.1 h0)
    rw [hsplit, lineSpansFrom_append, List.filter_append]
    have h1 : (lineSpansFrom span.input 0 (splitLines (uptoNewline pre))).filter
        (fun l => decide (utf8Len pre < l.stop) && decide (l.start ≤ span.stop)) = [] := by
      rw [List.filter_eq_nil_iff]
      intro s hs
      have := (lineSpansFrom_mem hs).2.2.1
      rw [splitLines_flatten] at this
      simp
      omega
    rw [h1, List.nil_append, splitLines_flatten, Nat.zero_add]
    simp only [lineSpansFrom, List.filter_cons, utf8Len_append]
    have hoff : utf8Len (uptoNewline pre) + (utf8Len (sinceNewline pre) + utf8Len (restOfLine suf)) =
        utf8Len pre + utf8Len (restOfLine suf) := by omega
    rw [hoff, if_pos (by simp; omega)]
    have hrest : (lineSpansFrom span.input (utf8Len pre + utf8Len (restOfLine suf))
          (splitLines (afterLine suf))).filter
          (fun l => decide (utf8Len pre < l.stop) && decide (l.start ≤ span.stop)) =
        (lineSpansFrom span.input (utf8Len pre + utf8Len (restOfLine suf))
          (splitLines (afterLine suf))).filter (fun l => decide (l.start ≤ span.stop)) := by
      apply List.filter_congr
      intro s hs
      have := lineSpansFrom_mem hs
      have : utf8Len pre < s.stop := by omega
      simp [this]
    rw [hrest, filter_start]
    obtain ⟨n, rfl⟩ : ∃ n, fuel = n + 1 := ⟨fuel - 1, by omega⟩
    unfold Span.linesFrom
    rw [Span.linesNext_eq hin hle hne]
    simp only
    congr 1
    have hin' : span.input.text = (pre ++ restOfLine suf) ++ afterLine suf := by
      rw [hin, List.append_assoc, restOfLine_append_afterLine]
    by_cases hm : '\n' ∈ suf
    · obtain ⟨m, _, hm2⟩ := restOfLine_newline hm
      have hlen : (afterLine suf).length + 1 ≤ n := by
        have h1 := afterLine_length hne
        have h2 := length_le_utf8Len span.input.text
        rw [hin, List.length_append] at h2
        rw [Str.len, hin] at hf
        omega
      have := Span.linesFrom_lineStart n (pre ++ restOfLine suf) (afterLine suf) hin'
        (by rw [hm2]; exact sinceNewline_append_newline _ _) hlen
      rw [utf8Len_append] at this
      exact this
    · have h2 := restOfLine_no_newline hm
      rw [h2.2, Span.linesFrom_end]
      · simp [splitLines, lineSpansFrom]
      · right; rw [Str.len, hin, utf8Len_append, h2.1]

end Pest3
