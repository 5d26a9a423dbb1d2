import Verif.StackRuns

/-!
# The functions of the rules with a stack take the specified texts
-/

namespace Pest3.Stk
open Pest3
open Pest3.Json (strip strip_some one)

theorem isDigit_iff {x : Char} : isDigit x = true ↔ Digit x := by simp [isDigit, Digit]
theorem isLetter_iff {x : Char} : isLetter x = true ↔ Letter x := by simp [isLetter, Letter]
theorem isSpace_iff {x : Char} : isSpace x = true ↔ x = ' ' ∨ x = '$' := by simp [isSpace]

theorem pushC_iff {f : Char → Bool} {s s' : Text} {stk stk' : List Text} : pushC f s stk = some (s', stk') ↔ ∃ x, s = x :: s' ∧ f x = true ∧ stk' = stk ++ [[x]] := by
  cases s with
  | nil => simp [pushC]
  | cons y s =>
    simp only [pushC]
    split
    · rename_i h
      constructor
      · intro k; cases k; exact ⟨y, rfl, h, rfl⟩
      · rintro ⟨x, k, -, rfl⟩; cases k; rfl
    · rename_i h
      refine ⟨fun k => (by cases k), ?_⟩
      rintro ⟨x, k, k2, -⟩; cases k; exact absurd k2 h

theorem take_iff {m s s' : Text} {k k' : List Text} : take m k s = some (s', k') ↔ s = m ++ s' ∧ k' = k := by
  simp only [take, Option.map_eq_some_iff, strip_some]
  constructor
  · rintro ⟨_, h, k⟩; cases k; exact ⟨h, rfl⟩
  · rintro ⟨h, rfl⟩; exact ⟨_, h, rfl⟩

theorem popF_iff {s s' : Text} {stk k : List Text} : popF s stk = some (s', k) ↔ ∃ top, stk = k ++ [top] ∧ s = top ++ s' := by
  simp only [popF, Option.bind_eq_some_iff, take_iff]
  constructor
  · rintro ⟨top, h1, h2, h3⟩
    obtain ⟨l, rfl⟩ := List.getLast?_eq_some_iff.mp h1
    exact ⟨top, by rw [h3]; simp, h2⟩
  · rintro ⟨top, rfl, h⟩
    exact ⟨top, by simp, h, by simp⟩

theorem peekF_iff {s s' : Text} {stk k : List Text} : peekF s stk = some (s', k) ↔ k = stk ∧ ∃ l top, stk = l ++ [top] ∧ s = top ++ s' := by
  simp only [peekF, Option.bind_eq_some_iff, take_iff]
  constructor
  · rintro ⟨top, h1, h2, h3⟩
    obtain ⟨l, rfl⟩ := List.getLast?_eq_some_iff.mp h1
    exact ⟨h3, l, top, rfl, h2⟩
  · rintro ⟨rfl, l, top, rfl, h⟩
    exact ⟨top, by simp, h, rfl⟩

/-- Whether the whole text is taken. -/
def Whole (o : Option (Text × List Text)) : Prop := ∃ k, o = some ([], k)

theorem peek_iff (s : Text) : Whole (peek_F s []) ↔ Top s := by
  unfold Whole peek_F Top
  simp only [Option.bind_eq_some_iff, Prod.exists, pushC_iff, peekF_iff]
  constructor
  · rintro ⟨k, s1, k1, ⟨a, rfl, ha, rfl⟩, s2, k2, ⟨b, rfl, hb, rfl⟩, s3, k3, ⟨rfl, l, top, h1, h2⟩, rfl, l', top', h3, h4⟩
    have e1 := (List.append_inj' h1 rfl).2
    have e2 := (List.append_inj' h3 rfl).2
    cases e1; cases e2
    exact ⟨a, b, isDigit_iff.mp ha, isDigit_iff.mp hb, by rw [h2, h4]; rfl⟩
  · rintro ⟨a, b, ha, hb, rfl⟩
    exact ⟨_, _, _, ⟨a, rfl, isDigit_iff.mpr ha, rfl⟩, _, _, ⟨b, rfl, isDigit_iff.mpr hb, rfl⟩, _, _, ⟨rfl, _, _, rfl, rfl⟩, rfl, _, _, rfl, rfl⟩

theorem peekAll_iff (s : Text) : Whole (peekAllF s []) ↔ Mirror s := by
  unfold Whole peekAllF Mirror
  simp only [Option.bind_eq_some_iff, Prod.exists, pushC_iff, take_iff]
  constructor
  · rintro ⟨k, s1, k1, ⟨a, rfl, ha, rfl⟩, s2, k2, ⟨b, rfl, hb, rfl⟩, h1, -⟩
    exact ⟨a, b, isDigit_iff.mp ha, isDigit_iff.mp hb, by rw [h1]; rfl⟩
  · rintro ⟨a, b, ha, hb, rfl⟩
    exact ⟨_, _, _, ⟨a, rfl, isDigit_iff.mpr ha, rfl⟩, _, _, ⟨b, rfl, isDigit_iff.mpr hb, rfl⟩, rfl, rfl⟩

theorem popAll_iff (s : Text) : Whole (popAllF s []) ↔ Mirror s := by
  unfold Whole popAllF Mirror
  simp only [Option.bind_eq_some_iff, Prod.exists, pushC_iff, take_iff]
  constructor
  · rintro ⟨k, s1, k1, ⟨a, rfl, ha, rfl⟩, s2, k2, ⟨b, rfl, hb, rfl⟩, h1, -⟩
    exact ⟨a, b, isDigit_iff.mp ha, isDigit_iff.mp hb, by rw [h1]; rfl⟩
  · rintro ⟨a, b, ha, hb, rfl⟩
    exact ⟨_, _, _, ⟨a, rfl, isDigit_iff.mpr ha, rfl⟩, _, _, ⟨b, rfl, isDigit_iff.mpr hb, rfl⟩, rfl, rfl⟩

theorem pop_iff (s : Text) : Whole (pop_F s []) ↔ Mirror s := by
  unfold Whole pop_F Mirror
  simp only [Option.bind_eq_some_iff, Prod.exists, pushC_iff, popF_iff]
  constructor
  · rintro ⟨k, s1, k1, ⟨a, rfl, ha, rfl⟩, s2, k2, ⟨b, rfl, hb, rfl⟩, s3, k3, ⟨top, h1, h2⟩, top', h3, h4⟩
    have e1 := List.append_inj' h1 rfl
    rw [← e1.1] at h3
    have e2 := (List.append_inj' h3 rfl).2
    have e3 := e1.2
    cases e3; cases e2
    exact ⟨a, b, isDigit_iff.mp ha, isDigit_iff.mp hb, by rw [h2, h4]; rfl⟩
  · rintro ⟨a, b, ha, hb, rfl⟩
    exact ⟨[], _, _, ⟨a, rfl, isDigit_iff.mpr ha, rfl⟩, _, _, ⟨b, rfl, isDigit_iff.mpr hb, rfl⟩, [a], [[a]], ⟨[b], rfl, rfl⟩, [a], rfl, rfl⟩

theorem popFail_iff (s : Text) : Whole (popFailF s []) ↔ Other s := by
  unfold Whole popFailF Other
  simp only [Option.bind_eq_some_iff, Prod.exists, pushC_iff]
  constructor
  · rintro ⟨k, s1, k1, ⟨a, rfl, ha, rfl⟩, s2, k2, h1, s3, k3, h2, h3⟩
    split at h1
    · cases h1
    · rename_i hp
      cases h1
      obtain ⟨s4, h4, h5⟩ := Option.map_eq_some_iff.mp h2
      cases h5
      obtain ⟨top, h6, h7⟩ := popF_iff.mp h3
      have e := (List.append_inj' h6 rfl).2
      cases e
      cases s1 with
      | nil => cases h4
      | cons b s1 =>
        simp only [one] at h4
        split at h4
        · rename_i hb
          cases h4
          refine ⟨a, b, isDigit_iff.mp ha, isDigit_iff.mp hb, ?_, by rw [h7]; rfl⟩
          rintro rfl
          apply hp
          exact Option.isSome_iff_exists.mpr ⟨(_, []), popF_iff.mpr ⟨[a], rfl, rfl⟩⟩
        · cases h4
  · rintro ⟨a, b, ha, hb, hn, rfl⟩
    refine ⟨[], _, _, ⟨a, rfl, isDigit_iff.mpr ha, rfl⟩, [b, a], [[a]], ?_, [a], [[a]], ?_, popF_iff.mpr ⟨[a], rfl, rfl⟩⟩
    · split
      · rename_i h
        obtain ⟨⟨s', k⟩, h⟩ := Option.isSome_iff_exists.mp h
        obtain ⟨top, h6, h7⟩ := popF_iff.mp h
        have e := (List.append_inj' h6 rfl).2
        cases e
        simp only [List.cons_append, List.nil_append, List.cons.injEq] at h7
        exact absurd h7.1.symm hn
      · rfl
    · simp [one, isDigit_iff.mpr hb]

theorem drop_space {w : Text} {d : Char} {t : Text} (hw : Space w) (hd : isSpace d = false) : (w ++ d :: t).dropWhile isSpace = d :: t := by
  induction w with
  | nil => simp [hd]
  | cons x w ih =>
    have := isSpace_iff.mpr (hw x (by simp))
    simp only [List.cons_append, List.dropWhile_cons, this, if_true]
    exact ih fun y hy => hw y (by simp [hy])

theorem split_space (s : Text) : ∃ w, Space w ∧ s = w ++ s.dropWhile isSpace := by
  induction s with
  | nil => exact ⟨[], by simp [Space], rfl⟩
  | cons x s ih =>
    obtain ⟨w, h1, h2⟩ := ih
    simp only [List.dropWhile_cons]
    split
    · rename_i hx
      refine ⟨x :: w, ?_, by rw [List.cons_append, ← h2]⟩
      intro y hy
      rcases List.mem_cons.mp hy with rfl | hy
      · exact isSpace_iff.mp hx
      · exact h1 y hy
    · exact ⟨[], by simp [Space], rfl⟩

theorem digit_space {x : Char} (h : Digit x) : isSpace x = false := by
  cases hx : isSpace x with
  | false => rfl
  | true =>
    rcases isSpace_iff.mp hx with rfl | rfl
    · exact absurd h (by unfold Digit; decide)
    · exact absurd h (by unfold Digit; decide)

theorem slice_iff (s : Text) : Whole (slice23F s []) ↔ Slice s := by
  unfold Whole slice23F Slice
  simp only [Option.bind_eq_some_iff, Prod.exists, pushC_iff]
  constructor
  · rintro ⟨k, s1, k1, ⟨a, rfl, ha, rfl⟩, s2, k2, ⟨b, rfl, hb, rfl⟩, s3, k3, ⟨c, rfl, hc, rfl⟩, s4, k4, ⟨d, h4, hd, rfl⟩, s5, k5, ⟨e, h5, he, rfl⟩, h6⟩
    obtain ⟨w1, hw1, e1⟩ := split_space s3
    obtain ⟨w2, hw2, e2⟩ := split_space s4
    obtain ⟨w3, hw3, e3⟩ := split_space s5
    have h7 : s5.dropWhile isSpace = [b, c] := by
      have h8 : take [b, c] _ (s5.dropWhile isSpace) = _ := h6
      simpa using (take_iff.mp h8).1
    exact ⟨a, b, c, d, e, w1, w2, w3, isDigit_iff.mp ha, isDigit_iff.mp hb, isDigit_iff.mp hc, isDigit_iff.mp hd, isDigit_iff.mp he, hw1, hw2, hw3, by rw [e1, h4, e2, h5, e3, h7]⟩
  · rintro ⟨a, b, c, d, e, w1, w2, w3, ha, hb, hc, hd, he, hw1, hw2, hw3, rfl⟩
    refine ⟨[[a], [b], [c], [d], [e]], _, _, ⟨a, rfl, isDigit_iff.mpr ha, rfl⟩, _, _, ⟨b, rfl, isDigit_iff.mpr hb, rfl⟩, _, _, ⟨c, rfl, isDigit_iff.mpr hc, rfl⟩,
      _, _, ⟨d, drop_space hw1 (digit_space hd), isDigit_iff.mpr hd, rfl⟩, _, _, ⟨e, drop_space hw2 (digit_space he), isDigit_iff.mpr he, rfl⟩, ?_⟩
    rw [drop_space hw3 (digit_space hb)]
    exact (take_iff (m := [b, c])).mpr ⟨by simp, rfl⟩

/-! ## The repetition -/

/-- No further letter with a comma. -/
def Stop (s : Text) : Prop := ∀ x r, s = x :: ',' :: r → ¬ Letter x

theorem stepF_iff {s s' : Text} {stk stk' : List Text} : stepF s stk = some (s', stk') ↔ ∃ x, Letter x ∧ s = x :: ',' :: s' ∧ stk' = stk ++ [[x]] := by
  unfold stepF
  simp only [Option.bind_eq_some_iff, Prod.exists, pushC_iff, take_iff]
  constructor
  · rintro ⟨s1, k1, ⟨x, rfl, hx, rfl⟩, rfl, rfl⟩; exact ⟨x, isLetter_iff.mp hx, rfl, rfl⟩
  · rintro ⟨x, hx, rfl, rfl⟩; exact ⟨_, _, ⟨x, rfl, isLetter_iff.mpr hx, rfl⟩, rfl, rfl⟩

theorem stepF_none {s : Text} {stk : List Text} : stepF s stk = none ↔ Stop s := by
  constructor
  · intro h x r hs hx
    rw [stepF_iff.mpr ⟨x, hx, hs, rfl⟩] at h; cases h
  · intro h
    cases k : stepF s stk with
    | none => rfl
    | some y =>
      obtain ⟨x, hx, hs, -⟩ := stepF_iff.mp k
      exact absurd hx (h x _ hs)

theorem loop_split (n : Nat) (s : Text) (stk : List Text) (hn : s.length ≤ n) : ∃ l rest, (∀ c ∈ l, Letter c) ∧ s = commas l ++ rest ∧ Stop rest ∧ againR stepF n s stk = (rest, stk ++ l.map fun c => [c]) := by
  induction n generalizing s stk with
  | zero =>
    obtain rfl : s = [] := List.eq_nil_of_length_eq_zero (by omega)
    exact ⟨[], [], by simp, rfl, (fun x r h => by cases h), by simp [againR]⟩
  | succ n ih =>
    simp only [againR]
    cases h : stepF s stk with
    | none => exact ⟨[], s, by simp, rfl, stepF_none.mp h, by simp⟩
    | some y =>
      obtain ⟨s', stk'⟩ := y
      obtain ⟨x, hx, rfl, rfl⟩ := stepF_iff.mp h
      obtain ⟨l, rest, h1, h2, h3, h4⟩ := ih s' (stk ++ [[x]]) (by simp only [List.length_cons] at hn; omega)
      refine ⟨x :: l, rest, ?_, by rw [h2]; rfl, h3, by dsimp only; rw [h4]; simp⟩
      intro c hc
      rcases List.mem_cons.mp hc with rfl | hc
      · exact hx
      · exact h1 c hc

theorem loop_items (l rest : Text) (hl : ∀ c ∈ l, Letter c) (hr : Stop rest) : ∀ (n : Nat) (stk : List Text), (commas l ++ rest).length ≤ n →
    againR stepF n (commas l ++ rest) stk = (rest, stk ++ l.map fun c => [c]) := by
  have h0 : ∀ n stk, againR stepF n rest stk = (rest, stk) := by
    intro n stk
    cases n with
    | zero => rfl
    | succ n => simp [againR, stepF_none.mpr hr]
  induction l with
  | nil => intro n stk _; simpa [commas] using h0 n stk
  | cons x l ih =>
    intro n stk hn
    cases n with
    | zero => simp [commas] at hn
    | succ n =>
      have : stepF (commas (x :: l) ++ rest) stk = some (commas l ++ rest, stk ++ [[x]]) := stepF_iff.mpr ⟨x, hl x (by simp), rfl, rfl⟩
      simp only [againR, this]
      rw [ih (fun c hc => hl c (by simp [hc])) n _ (by simp only [commas, List.cons_append, List.length_cons] at hn; omega)]
      simp

theorem stop_letters {l t : Text} (hl : ∀ c ∈ l, Letter c) (ht : ',' ∉ t) : Stop (l ++ t) := by
  intro x r h _
  have hc : ',' ∈ l ++ t := by rw [h]; simp
  rcases List.mem_append.mp hc with k | k
  · have := hl _ k
    unfold Letter at this
    exact absurd this (by decide)
  · exact ht k

theorem flatten_singles (l : Text) : (l.map fun c => [c]).flatten = l := by
  induction l with
  | nil => rfl
  | cons x l ih => simp [ih]

theorem mutateAll_split (s : Text) : ∃ l rest, (∀ c ∈ l, Letter c) ∧ s = commas l ++ rest ∧ mutateAllF s [] = take l.reverse [] rest := by
  obtain ⟨l, rest, h1, h2, -, h4⟩ := loop_split s.length s [] (Nat.le_refl _)
  refine ⟨l, rest, h1, h2, ?_⟩
  unfold mutateAllF
  rw [h4]
  simp only [Option.bind_some, List.nil_append, ← List.map_reverse, flatten_singles]

theorem mutateAll_items (l t : Text) (hl : ∀ c ∈ l, Letter c) (ht : ',' ∉ t) : mutateAllF (commas l ++ l.reverse ++ t) [] = some (t, []) := by
  unfold mutateAllF
  rw [List.append_assoc, loop_items l (l.reverse ++ t) hl (stop_letters (fun c hc => hl c (by simpa using hc)) ht) _ _ (Nat.le_refl _)]
  simp only [Option.bind_some, List.nil_append, ← List.map_reverse, flatten_singles]
  exact take_iff.mpr ⟨rfl, rfl⟩

theorem mutateAll_iff (s : Text) : Whole (mutateAllF s []) ↔ Back s := by
  constructor
  · rintro ⟨k, h⟩
    obtain ⟨l, rest, h1, h2, h3⟩ := mutateAll_split s
    rw [h3] at h
    have := (take_iff.mp h).1
    exact ⟨l, h1, by rw [h2, this, List.append_nil]⟩
  · rintro ⟨l, hl, rfl⟩
    have := mutateAll_items l [] hl (by simp)
    rw [List.append_nil] at this
    exact ⟨_, this⟩

theorem willFail_iff (s : Text) : Whole (willFailF s []) ↔ ∃ t, Back t ∧ s = t ++ ['F', 'A', 'I', 'L'] := by
  unfold Whole willFailF
  simp only [Option.bind_eq_some_iff, Prod.exists, take_iff]
  constructor
  · rintro ⟨k, s1, k1, h, rfl, -⟩
    obtain ⟨l, rest, h1, h2, h3⟩ := mutateAll_split s
    rw [h3] at h
    have := (take_iff.mp h).1
    exact ⟨_, ⟨l, h1, rfl⟩, by rw [h2, this]; simp⟩
  · rintro ⟨t, ⟨l, hl, rfl⟩, rfl⟩
    exact ⟨_, _, _, mutateAll_items l _ hl (by decide), rfl, rfl⟩

theorem resume_iff (s : Text) : Whole (resumeF s []) ↔ Back s ∨ ∃ t, Back t ∧ s = t ++ ['F', 'A', 'I', 'L'] := by
  unfold resumeF
  constructor
  · rintro ⟨k, h⟩
    cases h1 : willFailF s [] with
    | some y =>
      rw [h1] at h
      cases h
      exact .inr ((willFail_iff s).mp ⟨k, h1⟩)
    | none =>
      rw [h1] at h
      exact .inl ((mutateAll_iff s).mp ⟨k, h⟩)
  · rintro (h | h)
    · obtain ⟨k, h⟩ := (mutateAll_iff s).mpr h
      refine ⟨k, ?_⟩
      unfold willFailF
      rw [h]
      rfl
    · obtain ⟨k, h⟩ := (willFail_iff s).mpr h
      exact ⟨k, by rw [h]; rfl⟩

theorem mutate_iff (s : Text) : Whole (mutateF s []) ↔ LastThree s := by
  unfold Whole mutateF
  constructor
  · rintro ⟨k, h⟩
    obtain ⟨l, rest, h1, h2, -, h4⟩ := loop_split s.length s [] (Nat.le_refl _)
    rw [h4] at h
    simp only [Option.bind_some, List.nil_append, Option.bind_eq_some_iff, Prod.exists, popF_iff] at h
    obtain ⟨s1, k1, ⟨z, e1, r1⟩, s2, k2, ⟨y, e2, r2⟩, x, e3, r3⟩ := h
    rw [e2, e3] at e1
    obtain ⟨l3, c3, rfl, e4, e5⟩ := List.map_eq_append_iff.mp e1
    obtain ⟨l2, c2, rfl, e6, e7⟩ := List.map_eq_append_iff.mp e4
    obtain ⟨l1, c1, rfl, e8, e9⟩ := List.map_eq_append_iff.mp e6
    obtain ⟨z', rfl, rfl⟩ : ∃ z', c3 = [z'] ∧ z = [z'] := by
      cases c3 with
      | nil => cases e5
      | cons a c => cases c with
        | nil => simp only [List.map_cons, List.map_nil, List.cons.injEq, and_true] at e5; exact ⟨a, rfl, e5.symm⟩
        | cons => simp at e5
    obtain ⟨y', rfl, rfl⟩ : ∃ z', c2 = [z'] ∧ y = [z'] := by
      cases c2 with
      | nil => cases e7
      | cons a c => cases c with
        | nil => simp only [List.map_cons, List.map_nil, List.cons.injEq, and_true] at e7; exact ⟨a, rfl, e7.symm⟩
        | cons => simp at e7
    obtain ⟨x', rfl, rfl⟩ : ∃ z', c1 = [z'] ∧ x = [z'] := by
      cases c1 with
      | nil => cases e9
      | cons a c => cases c with
        | nil => simp only [List.map_cons, List.map_nil, List.cons.injEq, and_true] at e9; exact ⟨a, rfl, e9.symm⟩
        | cons => simp at e9
    refine ⟨l1, x', y', z', by simpa using h1, ?_⟩
    rw [h2, r1, r2, r3]
    simp
  · rintro ⟨l, x, y, z, hl, rfl⟩
    refine ⟨l.map fun c => [c], ?_⟩
    have hs : Stop [z, y, x] := by
      have := stop_letters (l := [z, y, x]) (t := []) (fun c hc => hl c (by simp at hc ⊢; rcases hc with h | h | h <;> simp [h])) (by simp)
      simpa using this
    rw [loop_items (l ++ [x, y, z]) [z, y, x] hl hs _ _ (Nat.le_refl _)]
    simp only [Option.bind_some, List.nil_append, Option.bind_eq_some_iff, Prod.exists, popF_iff]
    exact ⟨[y, x], (l.map fun c => [c]) ++ [[x], [y]], ⟨[z], by simp, rfl⟩, [x], (l.map fun c => [c]) ++ [[x]], ⟨[y], by simp, rfl⟩, [x], rfl, rfl⟩

theorem checkpoint_iff (s : Text) : Whole (checkpointF s []) ↔ s = ['a', 'b', 'a'] ∨ s = ['b'] ∨ s = ['a'] := by
  constructor
  · rintro ⟨k, h⟩
    unfold checkpointF at h
    simp only [Option.bind_eq_some_iff, Prod.exists, take_iff] at h
    obtain ⟨s1, k1, ⟨e1, rfl⟩, s2, k2, h2, h3⟩ := h
    cases (show s = s1 from e1)
    unfold endF at h3
    split at h3
    · rename_i h4
      subst h4
      unfold pickF at h2
      rcases Option.or_eq_some_iff.mp h2 with h | ⟨-, h⟩
      · simp only [Option.bind_eq_some_iff, Prod.exists, take_iff, popF_iff] at h
        obtain ⟨_, _, ⟨rfl, rfl⟩, _, _, ⟨rfl, rfl⟩, top, h5, rfl⟩ := h
        have e := (List.append_inj' h5 rfl).2
        cases e
        exact .inl rfl
      · rcases Option.or_eq_some_iff.mp h with h | ⟨-, h⟩
        · simp only [Option.bind_eq_some_iff, Prod.exists, take_iff, dropF] at h
          obtain ⟨_, _, h5, rfl, rfl⟩ := h
          cases h5
          exact .inr (.inl rfl)
        · simp only [Option.bind_eq_some_iff, Prod.exists, take_iff, popF_iff] at h
          obtain ⟨_, _, ⟨top, h5, rfl⟩, rfl, rfl⟩ := h
          have e := (List.append_inj' h5 rfl).2
          cases e
          exact .inr (.inr rfl)
    · cases h3
  · rintro (rfl | rfl | rfl)
    · exact ⟨_, rfl⟩
    · exact ⟨_, rfl⟩
    · exact ⟨_, rfl⟩

end Pest3.Stk
