import Verif.Snippet

namespace Pest3

/-! ## Digits -/

theorem showNat_eq (n : Nat) : showNat n = Nat.toDigits 10 n := by
  unfold showNat
  rw [show toString n = n.repr from rfl, Nat.toList_repr]

theorem digits_lt {n : Nat} (h : n < 10) : digits n = 1 := by
  unfold digits; rw [showNat_eq, Nat.toDigits_of_lt_base h]; rfl

theorem digits_ge {n : Nat} (h : 10 ≤ n) : digits n = digits (n / 10) + 1 := by
  unfold digits; rw [showNat_eq, showNat_eq, Nat.toDigits_of_base_le (by omega) h]; simp

theorem ceilLog10Loop_eq (d i : Nat) : ceilLog10Loop d i + 1 = d + digits i := by
  induction i using Nat.strongRecOn generalizing d with
  | _ i ih =>
    unfold ceilLog10Loop
    by_cases h : i ≥ 10
    · rw [if_pos h, ih (i / 10) (by omega), digits_ge h]; omega
    · rw [if_neg h, digits_lt (by omega)]

theorem ceilLog10_eq (n : Nat) : ceilLog10 n = digits n := by
  have := ceilLog10Loop_eq 1 n
  unfold ceilLog10; omega

theorem digits_pos (n : Nat) : 0 < digits n := by
  unfold digits; rw [showNat_eq]; exact Nat.length_toDigits_pos

theorem digits_mono {a b : Nat} (h : a ≤ b) : digits a ≤ digits b := by
  have hb := digits_pos b
  unfold digits at *
  rw [showNat_eq, showNat_eq] at *
  rw [Nat.length_toDigits_le_iff (by omega) hb]
  have := (Nat.length_toDigits_le_iff (b := 10) (n := b) (by omega) hb).1 (Nat.le_refl _)
  omega

/-! ## Characters by offset -/

theorem charsAt_append (P : Nat → Bool) (off : Nat) (a b : Text) :
    charsAt P off (a ++ b) = charsAt P off a ++ charsAt P (off + utf8Len a) b := by
  simp [charsAt, charIndicesFrom_append]

theorem charIndicesFrom_snd (off : Nat) (l : Text) : (charIndicesFrom off l).map Prod.snd = l := by
  induction l generalizing off with
  | nil => rfl
  | cons c cs ih => simp [charIndicesFrom, ih]

theorem charIndicesFrom_range {off : Nat} {l : Text} {x : Nat × Char}
    (h : x ∈ charIndicesFrom off l) : off ≤ x.1 ∧ x.1 < off + utf8Len l := by
  induction l generalizing off with
  | nil => simp [charIndicesFrom] at h
  | cons c cs ih =>
    have := utf8Size_pos c
    simp only [charIndicesFrom, List.mem_cons] at h
    rcases h with rfl | h
    · simp; omega
    · have := ih h
      simp; omega

theorem charsAt_all {P : Nat → Bool} {off : Nat} {l : Text}
    (h : ∀ i, off ≤ i → i < off + utf8Len l → P i = true) : charsAt P off l = l := by
  unfold charsAt
  rw [List.filter_eq_self.2, charIndicesFrom_snd]
  intro x hx
  have := charIndicesFrom_range hx
  exact h _ this.1 this.2

theorem charsAt_none {P : Nat → Bool} {off : Nat} {l : Text}
    (h : ∀ i, off ≤ i → i < off + utf8Len l → P i = false) : charsAt P off l = [] := by
  unfold charsAt
  rw [List.filter_eq_nil_iff.2]; rfl
  intro x hx
  have := charIndicesFrom_range hx
  simp [h _ this.1 this.2]

/-- A line cut at both ends of the span. -/
theorem ofLine_cut (number off : Nat) (f m g : Text) (start stop : Nat)
    (h1 : off + utf8Len f ≤ start ∨ f = []) (h2 : m = [] ∨ (start ≤ off + utf8Len f ∧ off + utf8Len f + utf8Len m ≤ stop))
    (h3 : stop ≤ off + utf8Len f + utf8Len m ∨ g = []) (hs : start ≤ stop) :
    Row.ofLine start stop number off (f ++ (m ++ g)) = ⟨number, f, m, g⟩ := by
  have f1 : charsAt (fun i => decide (i < start)) off f = f := by
    rcases h1 with h1 | rfl
    · exact charsAt_all fun i _ _ => by simp; omega
    · rfl
  have f2 : charsAt (fun i => decide (start ≤ i) && decide (i < stop)) off f = [] := by
    rcases h1 with h1 | rfl
    · exact charsAt_none fun i _ _ => by simp; omega
    · rfl
  have f3 : charsAt (fun i => decide (stop ≤ i)) off f = [] := by
    rcases h1 with h1 | rfl
    · exact charsAt_none fun i _ _ => by simp; omega
    · rfl
  have m1 : charsAt (fun i => decide (i < start)) (off + utf8Len f) m = [] := by
    rcases h2 with rfl | h2
    · rfl
    · exact charsAt_none fun i _ _ => by simp; omega
  have m2 : charsAt (fun i => decide (start ≤ i) && decide (i < stop)) (off + utf8Len f) m = m := by
    rcases h2 with rfl | h2
    · rfl
    · exact charsAt_all fun i _ _ => by simp; omega
  have m3 : charsAt (fun i => decide (stop ≤ i)) (off + utf8Len f) m = [] := by
    rcases h2 with rfl | h2
    · rfl
    · exact charsAt_none fun i _ _ => by simp; omega
  have g1 : charsAt (fun i => decide (i < start)) (off + utf8Len f + utf8Len m) g = [] := by
    rcases h3 with h3 | rfl
    · exact charsAt_none fun i _ _ => by simp; omega
    · rfl
  have g2 : charsAt (fun i => decide (start ≤ i) && decide (i < stop)) (off + utf8Len f + utf8Len m) g = [] := by
    rcases h3 with h3 | rfl
    · exact charsAt_none fun i _ _ => by simp; omega
    · rfl
  have g3 : charsAt (fun i => decide (stop ≤ i)) (off + utf8Len f + utf8Len m) g = g := by
    rcases h3 with h3 | rfl
    · exact charsAt_all fun i _ _ => by simp; omega
    · rfl
  unfold Row.ofLine
  simp only [charsAt_append, f1, f2, f3, m1, m2, m3, g1, g2, g3, List.append_nil, List.nil_append]

theorem rowsFrom_append (start stop number off : Nat) (a b : List Text) :
    rowsFrom start stop number off (a ++ b) =
      rowsFrom start stop number off a ++
        rowsFrom start stop (number + a.length) (off + utf8Len a.flatten) b := by
  induction a generalizing number off with
  | nil => simp [rowsFrom]
  | cons l ls ih =>
    simp only [List.cons_append, rowsFrom, ih, List.length_cons, List.flatten_cons, utf8Len_append]
    rw [show number + 1 + ls.length = number + (ls.length + 1) by omega, Nat.add_assoc]

theorem rowsFrom_number {start stop number off : Nat} {ls : List Text} {r : Row}
    (h : r ∈ rowsFrom start stop number off ls) : number ≤ r.number ∧ r.number < number + ls.length := by
  induction ls generalizing number off with
  | nil => simp [rowsFrom] at h
  | cons l ls ih =>
    simp only [rowsFrom, List.mem_cons] at h
    rcases h with rfl | h
    · simp [Row.ofLine]
    · have := ih h
      simp; omega

theorem length_rowsFrom (start stop number off : Nat) (ls : List Text) :
    (rowsFrom start stop number off ls).length = ls.length := by
  induction ls generalizing number off with
  | nil => rfl
  | cons l ls ih => simp [rowsFrom, ih]

/-! ## Where a cut falls among the lines -/

theorem length_splitLines_upto (t : Text) : (splitLines (uptoNewline t)).length = t.count '\n' := by
  suffices h : ∀ r : Text, (splitLines (uptoNewline r.reverse)).length = r.reverse.count '\n' by
    simpa using h t.reverse
  intro r
  induction r with
  | nil => rfl
  | cons c cs ih =>
    by_cases hc : c = '\n'
    · subst hc
      have e : uptoNewline ('\n' :: cs).reverse = cs.reverse ++ ['\n'] := by
        simp [uptoNewline]
      rw [e, ← uptoNewline_append_sinceNewline cs.reverse, List.append_assoc, splitLines_upto,
        List.length_append, ih, splitLines_eq (by simp)]
      have hr := (restOfLine_append (t := ['\n']) (sinceNewline_not_mem cs.reverse)).2
      rw [hr]
      simp [afterLine, splitLines, List.count_append]
    · have e : uptoNewline (c :: cs).reverse = uptoNewline cs.reverse := by
        simp [uptoNewline, hc]
      rw [e, ih]
      simp [List.count_append, hc]

/-- The line on which a cut falls. -/
theorem cut_lines (pre suf : Text) (hne : pre ++ suf ≠ []) :
    ∃ A f g B, splitLines (pre ++ suf) = A ++ (f ++ g) :: B ∧ pre = A.flatten ++ f ∧
      suf = g ++ B.flatten ∧ lineBefore pre = 1 + A.length ∧ (A = [] ∨ f ≠ []) := by
  rcases List.eq_nil_or_concat pre with rfl | ⟨init, c, rfl⟩
  · simp only [List.nil_append] at hne ⊢
    refine ⟨[], [], restOfLine suf, splitLines (afterLine suf), splitLines_eq hne, rfl, ?_, rfl, Or.inl rfl⟩
    rw [splitLines_flatten, restOfLine_append_afterLine]
  · rw [List.concat_eq_append] at hne ⊢
    have hsplit : splitLines (init ++ c :: suf) = splitLines (uptoNewline init) ++
        (sinceNewline init ++ restOfLine (c :: suf)) :: splitLines (afterLine (c :: suf)) := by
      have e : init ++ c :: suf = uptoNewline init ++ (sinceNewline init ++ c :: suf) := by
        rw [← List.append_assoc, uptoNewline_append_sinceNewline]
      rw [e, splitLines_upto, splitLines_eq (t := sinceNewline init ++ c :: suf) (by simp),
        (restOfLine_append (sinceNewline_not_mem init)).1,
        (restOfLine_append (sinceNewline_not_mem init)).2]
    obtain ⟨g, hg, hg2⟩ : ∃ g, restOfLine (c :: suf) = c :: g ∧ suf = g ++ afterLine (c :: suf) := by
      have h := restOfLine_append_afterLine (c :: suf)
      cases hr : restOfLine (c :: suf) with
      | nil => exact absurd hr (restOfLine_ne_nil (by simp))
      | cons d g =>
        rw [hr] at h
        simp only [List.cons_append, List.cons.injEq] at h
        exact ⟨g, by rw [h.1], h.2.symm⟩
    refine ⟨splitLines (uptoNewline init), sinceNewline init ++ [c], g,
      splitLines (afterLine (c :: suf)), ?_, ?_, ?_, ?_, Or.inr (by simp)⟩
    · rw [List.append_assoc, List.singleton_append, hsplit, hg]; simp
    · rw [splitLines_flatten, ← List.append_assoc, uptoNewline_append_sinceNewline]
    · rw [splitLines_flatten]; exact hg2
    · simp [lineBefore, length_splitLines_upto]

theorem enumFrom_append {α : Type} (n : Nat) (a b : List α) :
    enumFrom n (a ++ b) = enumFrom n a ++ enumFrom (n + a.length) b := by
  induction a generalizing n with
  | nil => rfl
  | cons x xs ih =>
    simp only [List.cons_append, enumFrom, ih, List.length_cons]
    rw [show n + 1 + xs.length = n + (xs.length + 1) by omega]

/-- The loop stops at the first line reaching the target. -/
theorem locate_eq (target pos n : Nat) (A : List Text) (l : Text) (rest : List Text)
    (h1 : A = [] ∨ pos + utf8Len A.flatten < target)
    (h2 : pos + utf8Len A.flatten ≤ target)
    (h3 : target ≤ pos + utf8Len A.flatten + utf8Len l) :
    locate target pos (enumFrom n (A ++ l :: rest)) =
      some (n + A.length, some (target - (pos + utf8Len A.flatten)), pos + utf8Len A.flatten,
        enumFrom (n + A.length) (l :: rest)) := by
  induction A generalizing pos n with
  | nil =>
    simp only [List.flatten_nil, utf8Len_nil, Nat.add_zero] at h2 h3 ⊢
    simp only [List.nil_append, enumFrom, locate, List.length_nil, Nat.add_zero]
    rw [if_pos h3, if_pos h2]
  | cons a A ih =>
    simp only [List.flatten_cons, utf8Len_append] at h1 h2 h3 ⊢
    simp only [List.cons_append, enumFrom, locate, List.length_cons]
    have h1' : pos + (utf8Len a + utf8Len A.flatten) < target := by
      rcases h1 with h1 | h1
      · cases h1
      · exact h1
    rw [if_neg (by omega), ih (pos + utf8Len a) (n + 1) (Or.inr (by omega)) (by omega) (by omega)]
    rw [show n + 1 + A.length = n + (A.length + 1) by omega, Nat.add_assoc pos]
    rfl

theorem splitAtB_append (a b : Text) : splitAtB (a ++ b) (utf8Len a) = some (a, b) := by
  simp [splitAtB]

theorem Partition.new_append (line : Nat) (a b : Text) :
    Partition.new line (a ++ b) (utf8Len a) = some ⟨line, visualize a, visualize b⟩ := by
  simp [Partition.new, splitAtB_append]

theorem Partition2.new_append (line : Nat) (a b c : Text) :
    Partition2.new line (a ++ (b ++ c)) (utf8Len a) (utf8Len (a ++ b)) =
      some ⟨line, visualize a, visualize b, visualize c⟩ := by
  unfold Partition2.new
  rw [← List.append_assoc, splitAtB_append]
  simp only [Option.pure_def, Option.bind_eq_bind, Option.bind_some, splitAtB_append]

/-! ## Squeezing -/

theorem squeeze_idem_tail (x : Piece) (l : List Piece) : squeeze (x :: l) = squeeze (x :: squeeze l) := by
  have idem : ∀ l, squeeze (squeeze l) = squeeze l := by
    intro l
    induction l with
    | nil => rfl
    | cons x l ih =>
      cases x with
      | plain a =>
        simp only [squeeze]
        cases hl : squeeze l with
        | nil => simp [squeeze]
        | cons y l' =>
          rw [hl] at ih
          cases y with
          | plain b =>
            simp only
            simp only [squeeze] at ih ⊢
            cases hl' : squeeze l' with
            | nil => rw [hl'] at ih; simp at ih; simp [ih]
            | cons z l'' =>
              rw [hl'] at ih
              cases z with
              | plain d => simp at ih; simp; exact ih
              | span t => simp at ih; simp [ih]
              | marker t => simp at ih; simp [ih]
              | number t => simp at ih; simp [ih]
          | span t => simp only [squeeze] at ih ⊢; rw [ih]
          | marker t => simp only [squeeze] at ih ⊢; rw [ih]
          | number t => simp only [squeeze] at ih ⊢; rw [ih]
      | span t => simp [squeeze, ih]
      | marker t => simp [squeeze, ih]
      | number t => simp [squeeze, ih]
  cases x <;> simp only [squeeze, idem]

theorem squeeze_append (a b : List Piece) : squeeze (a ++ b) = squeeze (a ++ squeeze b) := by
  induction a with
  | nil => exact (by
      have := squeeze_idem_tail (.span []) b
      simp only [squeeze, List.cons.injEq, true_and] at this
      exact this)
  | cons x a ih =>
    rw [List.cons_append, List.cons_append, squeeze_idem_tail x (a ++ b), ih,
      ← squeeze_idem_tail x (a ++ squeeze b)]

theorem squeeze_congr {a a' b b' : List Piece}
    (ha : ∀ l, squeeze (a ++ l) = squeeze (a' ++ l)) (hb : squeeze b = squeeze b') :
    squeeze (a ++ b) = squeeze (a' ++ b') := by
  rw [ha, squeeze_append, hb, ← squeeze_append]

/-! ## The lines shown -/

theorem shown_filter (start stop : Nat) (A S R : List Text) :
    (rowsFrom start stop 1 0 (A ++ (S ++ R))).filter (fun r =>
      decide (1 + A.length ≤ r.number) && decide (r.number ≤ A.length + S.length)) =
      rowsFrom start stop (1 + A.length) (utf8Len A.flatten) S := by
  rw [rowsFrom_append, rowsFrom_append, List.filter_append, List.filter_append]
  rw [List.filter_eq_nil_iff.2, List.filter_eq_self.2, List.filter_eq_nil_iff.2]
  · simp
  · intro r hr
    have := rowsFrom_number hr
    simp; omega
  · intro r hr
    have := rowsFrom_number hr
    simp; omega
  · intro r hr
    have := rowsFrom_number hr
    simp; omega

/-- Rows of lines entirely inside the span. -/
def innerRows : Nat → List Text → List Row
  | _, [] => []
  | n, l :: ls => ⟨n, [], l, []⟩ :: innerRows (n + 1) ls

theorem rowsFrom_inner (start stop n off : Nat) (M : List Text) (h1 : start ≤ off)
    (h2 : off + utf8Len M.flatten ≤ stop) : rowsFrom start stop n off M = innerRows n M := by
  induction M generalizing n off with
  | nil => rfl
  | cons l M ih =>
    simp only [List.flatten_cons, utf8Len_append] at h2
    simp only [rowsFrom, innerRows]
    rw [ih _ _ (by omega) (by omega)]
    congr 1
    have := ofLine_cut n off [] l [] start stop (Or.inr rfl) (Or.inr (by simp; omega)) (Or.inr rfl) (by omega)
    simpa using this

theorem innerRows_append (n : Nat) (a b : List Text) :
    innerRows n (a ++ b) = innerRows n a ++ innerRows (n + a.length) b := by
  induction a generalizing n with
  | nil => rfl
  | cons x xs ih =>
    simp only [List.cons_append, innerRows, ih, List.length_cons]
    rw [show n + 1 + xs.length = n + (xs.length + 1) by omega]

theorem length_innerRows (n : Nat) (a : List Text) : (innerRows n a).length = a.length := by
  induction a generalizing n with
  | nil => rfl
  | cons x xs ih => simp [innerRows, ih]

/-- How the two ends of a span fall among the lines. -/
inductive Falls (pre m suf : Text) : List Text → Prop where
  | one {A f g B} : pre = A.flatten ++ f → suf = g ++ B.flatten → (A = [] ∨ f ≠ []) →
      (A = [] ∨ f ++ m ≠ []) →
      lineBefore pre = 1 + A.length → lineBefore (pre ++ m) = 1 + A.length →
      Falls pre m suf (A ++ (f ++ (m ++ g)) :: B)
  | more {A f g M f' g' B} : pre = A.flatten ++ f → m = g ++ (M.flatten ++ f') → suf = g' ++ B.flatten →
      (A = [] ∨ f ≠ []) → f' ≠ [] → lineBefore pre = 1 + A.length →
      lineBefore (pre ++ m) = 1 + A.length + M.length + 1 →
      Falls pre m suf (A ++ (f ++ g) :: (M ++ (f' ++ g') :: B))

theorem falls (pre m suf : Text) (hne : pre ++ m ++ suf ≠ []) :
    Falls pre m suf (splitLines (pre ++ m ++ suf)) := by
  obtain ⟨A, f, g, B, h1, h2, h3, h4, h5⟩ := cut_lines pre (m ++ suf) (by simpa using hne)
  obtain ⟨A', f', g', B', k1, k2, k3, k4, k5⟩ := cut_lines (pre ++ m) suf hne
  rw [← List.append_assoc] at h1
  have h := h1.symm.trans k1
  rcases List.append_eq_append_iff.1 h with ⟨D, hD, hE⟩ | ⟨D, hD, hE⟩
  · cases D with
    | nil =>
      simp only [List.append_nil, List.nil_append, List.cons.injEq] at hD hE
      obtain ⟨hE1, rfl⟩ := hE
      subst hD
      have hf : f' = f ++ m := by
        rw [h2, List.append_assoc] at k2
        exact (List.append_cancel_left k2).symm
      subst hf
      rw [k1, List.append_assoc]
      exact .one h2 k3 h5 k5 h4 k4
    | cons x M =>
      simp only [List.cons_append, List.cons.injEq] at hE
      obtain ⟨rfl, rfl⟩ := hE
      rw [h1]
      refine .more h2 ?_ k3 h5 ?_ h4 ?_
      · rw [h2, hD] at k2
        simp only [List.flatten_append, List.flatten_cons, List.append_assoc] at k2
        exact List.append_cancel_left (List.append_cancel_left k2)
      · rcases k5 with k5 | k5
        · rw [hD] at k5; simp at k5
        · exact k5
      · rw [k4, hD]; simp; omega
  · cases D with
    | nil =>
      simp only [List.append_nil, List.nil_append, List.cons.injEq] at hD hE
      obtain ⟨hE1, rfl⟩ := hE
      subst hD
      have hf : f' = f ++ m := by
        rw [h2, List.append_assoc] at k2
        exact (List.append_cancel_left k2).symm
      subst hf
      rw [k1, List.append_assoc]
      exact .one h2 k3 h5 k5 h4 k4
    | cons x M =>
      exfalso
      simp only [List.cons_append, List.cons.injEq] at hE
      obtain ⟨rfl, rfl⟩ := hE
      have hf : f ≠ [] := by
        rcases h5 with h5 | h5
        · rw [hD] at h5; simp at h5
        · exact h5
      have hp : utf8Len f ≠ 0 := fun h0 => hf (utf8Len_eq_zero.1 h0)
      have e := congrArg utf8Len k2
      rw [h2, hD] at e
      simp only [List.flatten_append, List.flatten_cons, utf8Len_append] at e
      omega

/-- `input.lines()` of the whole input. -/
theorem whole_lines (s : Str) : Span.new s 0 s.len = some ⟨s, 0, s.len⟩ :=
  Span.new_eq_some.2 ⟨Nat.zero_le _, boundary_zero _, boundary_len _, rfl⟩

end Pest3
