import Verif.PositionLemmas

/-! # Lemmas about lines, `skip_until` and `LinesSpan` -/

namespace Pest3

/-! ## `line_col` -/

/-- One step of an editor's cursor over a character. -/
def editorStep (lc : Nat × Nat) (c : Char) : Nat × Nat :=
  if c = '\n' then (lc.1 + 1, 1) else (lc.1, lc.2 + 1)

theorem Position.lineColLoop_eq (n : Nat) (t : Text) (hn : t.length ≤ n) (lc : Nat × Nat) :
    Position.lineColLoop (utf8Len t) t lc = some (t.foldl editorStep lc) := by
  induction n generalizing t lc with
  | zero =>
    have : t = [] := List.length_eq_zero_iff.1 (by omega)
    subst this
    unfold Position.lineColLoop
    simp
  | succ n ih =>
    cases t with
    | nil => unfold Position.lineColLoop; simp
    | cons c cs =>
      have hc := utf8Size_pos c
      simp at hn
      unfold Position.lineColLoop
      rw [if_neg (by simp; omega)]
      by_cases hr : c = '\r'
      · subst hr
        simp only [if_true]
        have h1 : Char.utf8Size '\r' = 1 := by decide
        cases cs with
        | nil =>
          simp only [utf8Len_cons, h1, utf8Len_nil, List.foldl_cons, List.foldl_nil]
          have := ih [] (by simp) (lc.1, lc.2 + 1)
          simpa [editorStep] using this
        | cons d ds =>
          have h2 : Char.utf8Size '\n' = 1 := by decide
          simp only
          by_cases hd : d = '\n'
          · subst hd
            simp only [if_true, utf8Len_cons, h1, h2]
            rw [if_neg (by omega)]
            have := ih ds (by simp at hn; omega) (lc.1 + 1, 1)
            simp only [List.foldl_cons]
            have e : 1 + (1 + utf8Len ds) - 2 = utf8Len ds := by omega
            rw [e, this]
            simp [editorStep]
          · rw [if_neg hd]
            have := ih (d :: ds) hn (lc.1, lc.2 + 1)
            simp only [utf8Len_cons, h1] at this ⊢
            rw [Nat.add_sub_cancel_left, this]
            simp [editorStep]
      · simp only [hr, if_false]
        by_cases hnl : c = '\n'
        · subst hnl
          have h2 : Char.utf8Size '\n' = 1 := by decide
          rw [if_pos rfl]
          have := ih cs hn (lc.1 + 1, 1)
          simp only [utf8Len_cons, h2, Nat.add_sub_cancel_left, this]
          simp [editorStep]
        · rw [if_neg hnl, if_pos (by simp)]
          have := ih cs hn (lc.1, lc.2 + 1)
          simp only [utf8Len_cons, Nat.add_sub_cancel_left, this]
          simp [editorStep, hnl]

/-- The characters since the last newline. -/
def sinceNewline (t : Text) : Text := (t.reverse.takeWhile (fun c => c != '\n')).reverse

/-- The text up to and including the last newline. -/
def uptoNewline (t : Text) : Text := (t.reverse.dropWhile (fun c => c != '\n')).reverse

theorem uptoNewline_append_sinceNewline (t : Text) : uptoNewline t ++ sinceNewline t = t := by
  unfold uptoNewline sinceNewline
  rw [← List.reverse_append, List.takeWhile_append_dropWhile, List.reverse_reverse]

theorem editor_foldl (t : Text) :
    t.foldl editorStep (1, 1) = (1 + t.count '\n', 1 + (sinceNewline t).length) := by
  suffices h : ∀ r : Text, r.reverse.foldl editorStep (1, 1) =
      (1 + r.reverse.count '\n', 1 + (sinceNewline r.reverse).length) by
    simpa using h t.reverse
  intro r
  induction r with
  | nil => simp [sinceNewline]
  | cons c cs ih =>
    rw [List.reverse_cons, List.foldl_append, ih]
    unfold sinceNewline
    by_cases hc : c = '\n'
    · subst hc
      simp [editorStep]
      omega
    · have hc' : (c == '\n') = false := by simpa using hc
      simp [editorStep, hc, List.count_append]
      omega

theorem Position.At.lineCol {p : Position} {pre suf : Text} (h : p.At pre suf) :
    p.lineCol = some (1 + pre.count '\n', 1 + (sinceNewline pre).length) := by
  unfold Position.lineCol
  rw [if_neg (by have := h.le_len; omega), h.getTo]
  simp only
  rw [h.2, Position.lineColLoop_eq pre.length pre (Nat.le_refl _), editor_foldl]

/-! ## Line boundaries -/

theorem charIndicesFrom_append (i : Nat) (a b : Text) :
    charIndicesFrom i (a ++ b) = charIndicesFrom i a ++ charIndicesFrom (i + utf8Len a) b := by
  induction a generalizing i with
  | nil => simp [charIndicesFrom]
  | cons c cs ih => simp [charIndicesFrom, ih, Nat.add_assoc]

theorem charIndicesFrom_mem {i : Nat} {t : Text} {x : Nat × Char} (h : x ∈ charIndicesFrom i t) :
    i ≤ x.1 ∧ x.1 < i + utf8Len t := by
  induction t generalizing i with
  | nil => simp [charIndicesFrom] at h
  | cons c cs ih =>
    have hc := utf8Size_pos c
    simp only [charIndicesFrom, List.mem_cons] at h
    rcases h with rfl | h
    · simp; omega
    · have := ih h
      simp; omega

theorem dropWhile_all {α : Type} {p : α → Bool} {a b : List α} (h : ∀ x ∈ a, p x = true) :
    (a ++ b).dropWhile p = b.dropWhile p := by
  induction a with
  | nil => rfl
  | cons x xs ih =>
    simp only [List.cons_append, List.dropWhile_cons, h x (by simp), if_true]
    exact ih (fun y hy => h y (by simp [hy]))

theorem dropWhile_none {α : Type} {p : α → Bool} {a : List α} (h : ∀ x ∈ a, p x = false) :
    a.dropWhile p = a := by
  cases a with
  | nil => rfl
  | cons x xs => simp [h x]

theorem find_newline_rev (i : Nat) (t : Text) :
    ((charIndicesFrom i t).reverse.find? (fun x => x.2 == '\n')) =
      if '\n' ∈ t then some (i + utf8Len (uptoNewline t) - 1, '\n') else none := by
  suffices h : ∀ r : Text, ((charIndicesFrom i r.reverse).reverse.find? (fun x => x.2 == '\n')) =
      if '\n' ∈ r then some (i + utf8Len (uptoNewline r.reverse) - 1, '\n') else none by
    have := h t.reverse
    simpa using this
  intro r
  induction r with
  | nil => simp [charIndicesFrom]
  | cons c cs ih =>
    rw [List.reverse_cons, charIndicesFrom_append]
    simp only [charIndicesFrom, List.reverse_append, List.reverse_cons, List.reverse_nil,
      List.nil_append, List.singleton_append, List.find?_cons]
    by_cases hc : c = '\n'
    · subst hc
      have h2 : Char.utf8Size '\n' = 1 := by decide
      simp [uptoNewline, h2, utf8Len_reverse]
    · have hc' : (c == '\n') = false := by simpa using hc
      have hc'' : ¬ ('\n' = c) := fun h => hc h.symm
      rw [hc']
      simp only [ih, List.mem_cons, hc'', false_or]
      have e : uptoNewline (cs.reverse ++ [c]) = uptoNewline cs.reverse := by
        simp [uptoNewline, hc]
      rw [e]

theorem uptoNewline_eq_nil {t : Text} (h : '\n' ∉ t) : uptoNewline t = [] := by
  unfold uptoNewline
  rw [List.reverse_eq_nil_iff]
  have := dropWhile_all (p := fun c => c != '\n') (a := t.reverse) (b := []) (by
    intro x hx
    simp at hx ⊢
    rintro rfl
    exact h hx)
  simpa using this

theorem uptoNewline_ends {t : Text} (h : '\n' ∈ t) : ∃ r, uptoNewline t = r ++ ['\n'] := by
  suffices hh : ∀ r : Text, '\n' ∈ r → ∃ q, uptoNewline r.reverse = q ++ ['\n'] by
    have := hh t.reverse (by simpa using h)
    simpa using this
  intro r
  induction r with
  | nil => simp
  | cons c cs ih =>
    intro hm
    by_cases hc : c = '\n'
    · subst hc
      exact ⟨cs.reverse, by simp [uptoNewline]⟩
    · have hm' : '\n' ∈ cs := by
        rcases List.mem_cons.1 hm with h | h
        · exact absurd h.symm hc
        · exact h
      obtain ⟨q, hq⟩ := ih hm'
      exact ⟨q, by rw [← hq]; simp [uptoNewline, hc]⟩

theorem sinceNewline_not_mem (t : Text) : '\n' ∉ sinceNewline t := by
  unfold sinceNewline
  intro h
  rw [List.mem_reverse] at h
  have := List.all_takeWhile (p := fun c => c != '\n') (l := t.reverse)
  rw [List.all_eq_true] at this
  simpa using this _ h

theorem Position.At.findLineStart {p : Position} {pre suf : Text} (h : p.At pre suf) :
    p.findLineStart = utf8Len (uptoNewline pre) := by
  unfold Position.findLineStart
  rw [h.1, h.2]
  split
  · next he =>
    have : pre ++ suf = [] := by simpa using he
    have := (List.append_eq_nil_iff.1 this).1
    simp [this, uptoNewline]
  · have e : ((charIndices (pre ++ suf)).reverse.dropWhile (fun x => decide (x.1 ≥ utf8Len pre))) =
        (charIndicesFrom 0 pre).reverse := by
      unfold charIndices
      rw [charIndicesFrom_append, List.reverse_append, dropWhile_all, dropWhile_none]
      · intro x hx
        have := charIndicesFrom_mem (List.mem_reverse.1 hx)
        simp; omega
      · intro x hx
        have := charIndicesFrom_mem (List.mem_reverse.1 hx)
        simp; omega
    rw [e, find_newline_rev]
    by_cases hm : '\n' ∈ pre
    · obtain ⟨q, hq⟩ := uptoNewline_ends hm
      have h2 : Char.utf8Size '\n' = 1 := by decide
      simp only [hm, if_true]
      rw [hq]
      simp [h2]
    · simp only [hm, if_false]
      rw [uptoNewline_eq_nil hm]; simp

/-- The rest of the line, including its newline. -/
def restOfLine : Text → Text
  | [] => []
  | c :: cs => if c = '\n' then [c] else c :: restOfLine cs

/-- What follows the line. -/
def afterLine : Text → Text
  | [] => []
  | c :: cs => if c = '\n' then cs else afterLine cs

theorem restOfLine_append_afterLine (t : Text) : restOfLine t ++ afterLine t = t := by
  induction t with
  | nil => rfl
  | cons c cs ih =>
    simp only [restOfLine, afterLine]
    split <;> simp [ih]

theorem find_newline (i : Nat) (t : Text) :
    ((charIndicesFrom i t).find? (fun x => x.2 == '\n')) =
      if '\n' ∈ t then some (i + utf8Len (restOfLine t) - 1, '\n') else none := by
  induction t generalizing i with
  | nil => simp [charIndicesFrom]
  | cons c cs ih =>
    simp only [charIndicesFrom, List.find?_cons, restOfLine]
    by_cases hc : c = '\n'
    · subst hc
      have h2 : Char.utf8Size '\n' = 1 := by decide
      simp [h2]
    · have hc' : (c == '\n') = false := by simpa using hc
      have hc'' : ¬ ('\n' = c) := fun h => hc h.symm
      simp only [hc', ih, List.mem_cons, hc'', false_or, hc, if_false, utf8Len_cons]
      simp only [Nat.add_assoc]

theorem restOfLine_no_newline {t : Text} (h : '\n' ∉ t) : restOfLine t = t ∧ afterLine t = [] := by
  induction t with
  | nil => simp [restOfLine, afterLine]
  | cons c cs ih =>
    simp only [List.mem_cons, not_or] at h
    have hc : ¬ c = '\n' := fun e => h.1 e.symm
    simp [restOfLine, afterLine, hc, ih h.2]

theorem restOfLine_newline {t : Text} (h : '\n' ∈ t) : ∃ m, '\n' ∉ m ∧ restOfLine t = m ++ ['\n'] := by
  induction t with
  | nil => simp at h
  | cons c cs ih =>
    by_cases hc : c = '\n'
    · exact ⟨[], by simp, by simp [restOfLine, hc]⟩
    · have : '\n' ∈ cs := by
        rcases List.mem_cons.1 h with e | e
        · exact absurd e.symm hc
        · exact e
      obtain ⟨m, h1, h2⟩ := ih this
      refine ⟨c :: m, ?_, by simp [restOfLine, hc, h2]⟩
      simp only [List.mem_cons, not_or]
      exact ⟨fun e => hc e.symm, h1⟩

theorem Position.At.findLineEnd {p : Position} {pre suf : Text} (h : p.At pre suf) :
    p.findLineEnd = utf8Len pre + utf8Len (restOfLine suf) := by
  unfold Position.findLineEnd
  have hnl : Char.utf8Size '\n' = 1 := by decide
  rw [Str.len, h.1, h.2]
  split
  · next he =>
    have : pre ++ suf = [] := by simpa using he
    have := List.append_eq_nil_iff.1 this
    simp [this, restOfLine]
  · next hne =>
    split
    · next hl =>
      rw [utf8Len_append] at hl ⊢
      have hpos : 0 < utf8Len pre + utf8Len suf := by
        rw [← utf8Len_append]
        apply Nat.pos_of_ne_zero
        intro h0
        apply hne
        rw [utf8Len_eq_zero.1 h0]; rfl
      have hsuf : utf8Len suf = 1 := by omega
      cases suf with
      | nil => simp at hsuf
      | cons c cs =>
        have hc := utf8Size_pos c
        simp at hsuf
        have : cs = [] := utf8Len_eq_zero.1 (by omega)
        subst this
        simp [restOfLine]
    · have e : ((charIndices (pre ++ suf)).dropWhile (fun x => decide (x.1 < utf8Len pre))) =
          charIndicesFrom (utf8Len pre) suf := by
        unfold charIndices
        rw [charIndicesFrom_append, dropWhile_all, dropWhile_none]
        · simp
        · intro x hx
          have := charIndicesFrom_mem hx
          simp; omega
        · intro x hx
          have := charIndicesFrom_mem hx
          simp; omega
      rw [e, find_newline]
      by_cases hm : '\n' ∈ suf
      · obtain ⟨m, _, hq⟩ := restOfLine_newline hm
        simp only [hm, if_true]
        rw [hq]
        simp [hnl]; omega
      · simp only [hm, if_false]
        rw [(restOfLine_no_newline hm).1, utf8Len_append]

theorem Position.At.lineOf {p : Position} {pre suf : Text} (h : p.At pre suf) :
    p.lineOf = some (sinceNewline pre ++ restOfLine suf) := by
  unfold Position.lineOf
  rw [if_neg (by have := h.le_len; omega), h.findLineStart, h.findLineEnd, h.1]
  have e1 : pre ++ suf = uptoNewline pre ++ (sinceNewline pre ++ restOfLine suf) ++ afterLine suf := by
    rw [List.append_assoc, List.append_assoc, restOfLine_append_afterLine, ← List.append_assoc,
      uptoNewline_append_sinceNewline]
  have e2 : utf8Len pre + utf8Len (restOfLine suf) =
      utf8Len (uptoNewline pre) + utf8Len (sinceNewline pre ++ restOfLine suf) := by
    have := congrArg utf8Len (uptoNewline_append_sinceNewline pre)
    rw [utf8Len_append] at this ⊢
    omega
  rw [e1, e2]
  exact getRange_append _ _ _

/-! ## `skip_until` -/

theorem Position.skipUntilLoop_some {t : Text} {ss : List Text} {l : List Nat} {i : Nat}
    (h : Position.skipUntilLoop t ss l = some i) :
    ∃ a b, l = a ++ i :: b ∧
      (∃ pre suf, t = pre ++ suf ∧ utf8Len pre = i ∧ ∃ s ∈ ss, s <+: suf) ∧
      ∀ j ∈ a, ∀ pre suf, t = pre ++ suf → utf8Len pre = j → ∀ s ∈ ss, ¬ s <+: suf := by
  induction l with
  | nil => simp [Position.skipUntilLoop] at h
  | cons j l ih =>
    have hpre : ∀ (s string : Text), (some (bytes s) == byteRange (bytes string) 0 (utf8Len s)) = true ↔
        s <+: string := by
      intro s string
      have := @byteRange_eq_some_iff [] string s
      simp only [List.nil_append, utf8Len_nil, Nat.zero_add] at this
      rw [← this, beq_iff_eq, eq_comm]
    unfold Position.skipUntilLoop at h
    split at h
    · next hg =>
      obtain ⟨a, b, h1, h2, h3⟩ := ih h
      refine ⟨j :: a, b, by simp [h1], h2, ?_⟩
      intro k hk pre suf e1 e2
      rcases List.mem_cons.1 hk with rfl | hk
      · subst e1; subst e2; simp at hg
      · exact h3 k hk pre suf e1 e2
    · next string hg =>
      split at h
      · next hany =>
        cases h
        refine ⟨[], l, rfl, ?_, by simp⟩
        obtain ⟨pre, suf, e1, e2⟩ := getFrom_isSome.1 (by rw [hg]; rfl : (getFrom t i).isSome)
        refine ⟨pre, suf, e1, e2, ?_⟩
        subst e1; subst e2
        simp at hg
        subst hg
        obtain ⟨s, hs, hs'⟩ := List.any_eq_true.1 hany
        exact ⟨s, hs, (hpre _ _).1 hs'⟩
      · next hany =>
        obtain ⟨a, b, h1, h2, h3⟩ := ih h
        refine ⟨j :: a, b, by simp [h1], h2, ?_⟩
        intro k hk pre suf e1 e2
        rcases List.mem_cons.1 hk with rfl | hk
        · subst e1; subst e2
          simp at hg
          subst hg
          intro s hs hp
          exact hany (List.any_eq_true.2 ⟨s, hs, (hpre _ _).2 hp⟩)
        · exact h3 k hk pre suf e1 e2

theorem Position.skipUntilLoop_none {t : Text} {ss : List Text} {l : List Nat}
    (h : Position.skipUntilLoop t ss l = none) :
    ∀ j ∈ l, ∀ pre suf, t = pre ++ suf → utf8Len pre = j → ∀ s ∈ ss, ¬ s <+: suf := by
  induction l with
  | nil => simp
  | cons j l ih =>
    have hpre : ∀ (s string : Text), (some (bytes s) == byteRange (bytes string) 0 (utf8Len s)) = true ↔
        s <+: string := by
      intro s string
      have := @byteRange_eq_some_iff [] string s
      simp only [List.nil_append, utf8Len_nil, Nat.zero_add] at this
      rw [← this, beq_iff_eq, eq_comm]
    unfold Position.skipUntilLoop at h
    intro k hk pre suf e1 e2
    split at h
    · next hg =>
      rcases List.mem_cons.1 hk with rfl | hk
      · subst e1; subst e2; simp at hg
      · exact ih h k hk pre suf e1 e2
    · next string hg =>
      split at h
      · cases h
      · next hany =>
        rcases List.mem_cons.1 hk with rfl | hk
        · subst e1; subst e2
          simp at hg
          subst hg
          intro s hs hp
          exact hany (List.any_eq_true.2 ⟨s, hs, (hpre _ _).2 hp⟩)
        · exact ih h k hk pre suf e1 e2

end Pest3
