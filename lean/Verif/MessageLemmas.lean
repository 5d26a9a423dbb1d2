import Verif.Summary

/-!
# Error messages: lemmas
-/

namespace Pest3

theorem charIndicesFrom_getElem (i : Nat) : ∀ (a b : Text),
    (charIndicesFrom i (a ++ b))[a.length]? = (b.head?).map fun c => (i + utf8Len a, c)
  | [], [] => rfl
  | [], c :: b => by simp [charIndicesFrom]
  | x :: a, b => by
    have := charIndicesFrom_getElem (i + x.utf8Size) a b
    simp only [List.cons_append, charIndicesFrom, List.length_cons, List.getElem?_cons_succ, this, utf8Len]
    rw [Nat.add_assoc]

/-- The part of the line before the column. -/
theorem line_matched (a b : Text) :
    getTo (a ++ b) (lineRemainedIndex (a ++ b) (1 + a.length)) = some a := by
  have h := charIndicesFrom_getElem 0 a b
  unfold lineRemainedIndex charIndices
  rw [Nat.add_sub_cancel_left, h]
  cases b with
  | nil =>
    simp only [List.head?_nil, Option.map_none, List.append_nil]
    have := getTo_append a []
    rwa [List.append_nil] at this
  | cons c b =>
    simp only [List.head?_cons, Option.map_some, Nat.zero_add]
    exact getTo_append a (c :: b)

theorem collectToMessage_at (sh : Label → Text) {t : Tracker} {pre suf : Text} (h : t.position.At pre suf) :
    t.collectToMessage sh = some (sinceNewline pre ++ "^---".toList ++
      (t.attempts.map (writeMessage sh
        ('\n' :: List.replicate (utf8Len (showNat (1 + pre.count '\n')) + 3) ' '))).flatten) := by
  unfold Tracker.collectToMessage Tracker.finish
  dsimp only
  rw [h.lineCol, h.lineOf]
  simp only
  rw [line_matched (sinceNewline pre) (restOfLine suf)]

theorem collect_valid (sh : Label → Text) {t : Tracker} {pre suf : Text} (h : t.position.At pre suf) :
    t.collect sh = some ⟨t.position, sinceNewline pre ++ "^---".toList ++
      (t.attempts.map (writeMessage sh
        ('\n' :: List.replicate (utf8Len (showNat (1 + pre.count '\n')) + 3) ' '))).flatten⟩ := by
  have hn : Position.new t.position.input t.position.pos = some t.position := by
    unfold Position.new
    rw [h.1, h.2]
    simp
    have h1 := h.1
    have h2 := h.2
    generalize t.position = p at h1 h2
    cases p
    simp only at h2
    simp [h2]
  unfold Tracker.collect
  rw [hn]
  simp only
  rw [collectToMessage_at sh h, hn]

/-! ## Sorting and deduplication -/

theorem vecDedup_mem (l : List Label) (x : Label) : x ∈ vecDedup l ↔ x ∈ l := by
  induction l with
  | nil => simp [vecDedup]
  | cons a l ih =>
    simp only [vecDedup]
    split
    · next h =>
      rw [h] at ih
      have hn : x ∉ l := fun hx => by have := ih.2 hx; cases this
      simp [hn]
    · next b l' h =>
      rw [h] at ih
      split
      · next e => subst e; rw [List.mem_cons (a := x) (b := a) (l := l), ← ih]; simp
      · rw [List.mem_cons, ih, List.mem_cons]

theorem vecDedup_strict {l : List Label} (h : l.Pairwise (· ≤ ·)) : (vecDedup l).Pairwise (· < ·) := by
  induction l with
  | nil => exact .nil
  | cons a l ih =>
    rw [List.pairwise_cons] at h
    have ih := ih h.2
    simp only [vecDedup]
    split
    · exact List.pairwise_cons.2 ⟨by simp, .nil⟩
    · next b l' hb =>
      rw [hb] at ih
      split
      · exact ih
      · next hne =>
        have hab : a < b := by
          have : b ∈ l := (vecDedup_mem l b).1 (by rw [hb]; exact List.mem_cons_self)
          exact Nat.lt_of_le_of_ne (h.1 b this) hne
        refine List.pairwise_cons.2 ⟨?_, ih⟩
        intro x hx
        rcases List.mem_cons.1 hx with rfl | hx
        · exact hab
        · exact Nat.lt_trans hab ((List.pairwise_cons.1 ih).1 x hx)

theorem insertLabel_mem (a x : Label) (l : List Label) : x ∈ insertLabel a l ↔ x = a ∨ x ∈ l := by
  induction l with
  | nil => simp [insertLabel]
  | cons b l ih =>
    simp only [insertLabel]
    split
    · simp
    · rw [List.mem_cons, ih, List.mem_cons, or_left_comm]

theorem insertLabel_sorted {a : Label} {l : List Label} (h : l.Pairwise (· ≤ ·)) :
    (insertLabel a l).Pairwise (· ≤ ·) := by
  induction l with
  | nil => simp [insertLabel]
  | cons b l ih =>
    simp only [insertLabel]
    rw [List.pairwise_cons] at h
    split
    · next hab =>
      refine List.pairwise_cons.2 ⟨?_, List.pairwise_cons.2 h⟩
      intro x hx
      rcases List.mem_cons.1 hx with rfl | hx
      · exact hab
      · exact Nat.le_trans hab (h.1 x hx)
    · next hab =>
      refine List.pairwise_cons.2 ⟨?_, ih h.2⟩
      intro x hx
      rcases (insertLabel_mem a x l).1 hx with rfl | hx
      · exact Nat.le_of_lt (Nat.lt_of_not_le hab)
      · exact h.1 x hx

theorem vecSort_mem (l : List Label) (x : Label) : x ∈ vecSort l ↔ x ∈ l := by
  induction l with
  | nil => simp [vecSort]
  | cons a l ih =>
    simp only [vecSort, List.foldr_cons] at ih ⊢
    rw [insertLabel_mem, ih, List.mem_cons]

theorem vecSort_sorted (l : List Label) : (vecSort l).Pairwise (· ≤ ·) := by
  induction l with
  | nil => exact .nil
  | cons a l ih => exact insertLabel_sorted ih

theorem sortDedup_spec (l : List Label) :
    (sortDedup l).Pairwise (· < ·) ∧ ∀ x, x ∈ sortDedup l ↔ x ∈ l := by
  refine ⟨vecDedup_strict (vecSort_sorted l), fun x => ?_⟩
  unfold sortDedup
  rw [vecDedup_mem, vecSort_mem]

end Pest3
