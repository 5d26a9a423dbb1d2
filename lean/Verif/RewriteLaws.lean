import Verif.RewriteLemmas

namespace Pest3.Gen
open Pest3

/-! ## Leaves -/

section
variable {u : Unicode} {root : Module} {p : List Name} {ρ : List (Name × Clo)} {c : Cfg} {o : Option (Cfg × Toks)}

theorem r_str {s : Text} : Result u root (.expr (.mk p ρ (.str s))) c o ↔
    (∃ rest, c.suf = s ++ rest ∧ o = some (⟨c.pre ++ s, rest, c.stk⟩, [])) ∨ (¬ s <+: c.suf ∧ o = none) := by
  rw [r_literal (l := .str s) rfl]
  unfold leafOut leafSpec eatText
  constructor
  · rintro ⟨r, ⟨m, stk, rest, h1, h2, rfl⟩ | ⟨h1, rfl⟩, rfl⟩
    · by_cases h : s <+: c.suf
      · simp [h] at h1
        obtain ⟨rfl, rfl⟩ := h1
        exact .inl ⟨rest, h2, rfl⟩
      · simp [h] at h1
    · by_cases h : s <+: c.suf
      · simp [h] at h1
      · exact .inr ⟨h, rfl⟩
  · rintro (⟨rest, h, rfl⟩ | ⟨h, rfl⟩)
    · exact ⟨_, .inl ⟨s, c.stk, rest, by simp [h], h, rfl⟩, rfl⟩
    · exact ⟨none, .inr ⟨by simp [h], rfl⟩, rfl⟩

theorem r_empty : Result u root (.expr (.mk p ρ (.str []))) c o ↔ o = some (c, []) := by
  rw [r_str]
  constructor
  · rintro (⟨rest, h, rfl⟩ | ⟨h, rfl⟩)
    · simp only [List.nil_append] at h
      simp [← h]
    · simp at h
  · rintro rfl
    exact .inl ⟨c.suf, by simp, by simp⟩

/-! ## Repetitions -/

theorem r_unit_shift {a : Clo} {t : Trivia} {i : Nat} (hi : i ≠ 0 ∨ t = .none) (c : Cfg) (o : Option (Cfg × Toks)) :
    Result u root (.unit a p t (i + 1)) c o ↔ Result u root (.unit a p t i) c o := by
  cases i with
  | zero =>
    rcases hi with hi | rfl
    · exact absurd rfl hi
    · rw [r_unitS, r_unit0]
      constructor
      · rintro (⟨h, -⟩ | ⟨c1, h, h'⟩)
        · cases h with | triviaRule h1 h2 => cases h2
        · cases h with
          | triviaNone => exact h'
          | triviaRule h1 h2 => cases h2
      · exact fun h => .inr ⟨c, .triviaNone, h⟩
  | succ i => rw [r_unitS, r_unitS]

theorem r_reps_shift {a : Clo} {t : Trivia} (min max : Nat) : ∀ n i c o, i ≠ 0 ∨ t = .none → max ≤ i + n →
    (Result u root (.reps a p t (min + 1) (max + 1) (i + 1)) c o ↔ Result u root (.reps a p t min max i) c o) := by
  intro n
  induction n with
  | zero =>
    intro i c o hi hn
    rw [r_reps, r_reps]
    constructor
    · rintro (⟨-, rfl⟩ | ⟨h, -⟩)
      · exact .inl ⟨by omega, rfl⟩
      · omega
    · rintro (⟨-, rfl⟩ | ⟨h, -⟩)
      · exact .inl ⟨by omega, rfl⟩
      · omega
  | succ n ih =>
    intro i c o hi hn
    have hr : ∀ c o, Result u root (.reps a p t (min + 1) (max + 1) (i + 1 + 1)) c o ↔ Result u root (.reps a p t min max (i + 1)) c o :=
      fun c o => ih _ c o (.inl (by omega)) (by omega)
    rw [r_reps, r_reps]
    simp only [hr, r_unit_shift hi, Nat.add_lt_add_iff_right, Nat.add_le_add_iff_right]

/-- One item more. -/
theorem r_reps_more {a : Expr} {t : Trivia} {min max : Nat} (hmin : min ≠ 0 ∨ t = .none) (hmax : 0 < max) (c : Cfg) (o : Option (Cfg × Toks)) :
    Result u root (.reps (.mk p ρ a) p t (min + 1) (max + 1) 0) c o ↔
      (Result u root (.expr (.mk p ρ a)) c none ∧ o = none) ∨ ∃ c1 F, Result u root (.expr (.mk p ρ a)) c (some (c1, F)) ∧
      ((Meaning u root (.trivia p t) c1 none ∧ o = none) ∨ ∃ c2 o', Meaning u root (.trivia p t) c1 (some c2) ∧ Result u root (.reps (.mk p ρ a) p t min max 0) c2 o' ∧
        o = after F o') := by
  have rest : ∀ c1 o', Result u root (.reps (.mk p ρ a) p t (min + 1) (max + 1) 1) c1 o' ↔
      (Meaning u root (.trivia p t) c1 none ∧ o' = none) ∨ ∃ c2, Meaning u root (.trivia p t) c1 (some c2) ∧ Result u root (.reps (.mk p ρ a) p t min max 0) c2 o' := by
    intro c1 o'
    rcases hmin with hmin | rfl
    · have hr : ∀ c o, Result u root (.reps (.mk p ρ a) p t (min + 1) (max + 1) (1 + 1)) c o ↔ Result u root (.reps (.mk p ρ a) p t min max (0 + 1)) c o :=
        fun c o => r_reps_shift min max max 1 c o (.inl (by omega)) (by omega)
      rw [r_reps]
      simp only [hr]
      constructor
      · rintro (⟨h, -⟩ | ⟨-, ⟨c3, F, o2, h1, h2, rfl⟩ | ⟨h1, ⟨-, rfl⟩ | ⟨h, -⟩⟩⟩)
        · omega
        · rcases r_unitS.mp h1 with ⟨-, h⟩ | ⟨c2, h3, h4⟩
          · cases h
          · exact .inr ⟨c2, h3, r_reps.mpr (.inr ⟨hmax, .inl ⟨c3, F, o2, r_unit0.mpr h4, h2, rfl⟩⟩)⟩
        · rcases r_unitS.mp h1 with ⟨h, -⟩ | ⟨c2, h3, h4⟩
          · exact .inl ⟨h, rfl⟩
          · exact .inr ⟨c2, h3, r_reps.mpr (.inr ⟨hmax, .inr ⟨r_unit0.mpr h4, .inl ⟨by omega, rfl⟩⟩⟩)⟩
        · omega
      · rintro (⟨h, rfl⟩ | ⟨c2, h3, h⟩)
        · exact .inr ⟨by omega, .inr ⟨r_unitS.mpr (.inl ⟨h, rfl⟩), .inl ⟨by omega, rfl⟩⟩⟩
        · rcases r_reps.mp h with ⟨h, -⟩ | ⟨-, ⟨c4, F, o2, h1, h2, rfl⟩ | ⟨h1, ⟨-, rfl⟩ | ⟨h, -⟩⟩⟩
          · omega
          · exact .inr ⟨by omega, .inl ⟨c4, F, o2, r_unitS.mpr (.inr ⟨c2, h3, r_unit0.mp h1⟩), h2, rfl⟩⟩
          · exact .inr ⟨by omega, .inr ⟨r_unitS.mpr (.inr ⟨c2, h3, r_unit0.mp h1⟩), .inl ⟨by omega, rfl⟩⟩⟩
          · omega
    · rw [r_reps_shift min max max 0 c1 o' (.inr rfl) (by omega)]
      constructor
      · exact fun h => .inr ⟨c1, .triviaNone, h⟩
      · rintro (⟨h, -⟩ | ⟨c2, h, h'⟩)
        · cases h with | triviaRule h1 h2 => cases h2
        · cases h with
          | triviaNone => exact h'
          | triviaRule h1 h2 => cases h2
  rw [r_reps]
  constructor
  · rintro (⟨h, -⟩ | ⟨-, ⟨c3, F, o2, h1, h2, rfl⟩ | ⟨h1, ⟨-, rfl⟩ | ⟨h, -⟩⟩⟩)
    · omega
    · rcases (rest _ _).mp h2 with ⟨h, rfl⟩ | ⟨c2, h, h'⟩
      · exact .inr ⟨c3, F, r_unit0.mp h1, .inl ⟨h, rfl⟩⟩
      · exact .inr ⟨c3, F, r_unit0.mp h1, .inr ⟨c2, o2, h, h', rfl⟩⟩
    · exact .inl ⟨r_unit0.mp h1, rfl⟩
    · omega
  · rintro (⟨h, rfl⟩ | ⟨c1, F, h1, ⟨h2, rfl⟩ | ⟨c2, o', h2, h3, rfl⟩⟩)
    · exact .inr ⟨by omega, .inr ⟨r_unit0.mpr h, .inl ⟨by omega, rfl⟩⟩⟩
    · exact .inr ⟨by omega, .inl ⟨c1, F, none, r_unit0.mpr h1, (rest _ _).mpr (.inl ⟨h2, rfl⟩), rfl⟩⟩
    · exact .inr ⟨by omega, .inl ⟨c1, F, o', r_unit0.mpr h1, (rest _ _).mpr (.inr ⟨c2, h2, h3⟩), rfl⟩⟩

/-- At most one item. -/
theorem r_reps_one {a : Expr} {t : Trivia} {min : Nat} (c : Cfg) (o : Option (Cfg × Toks)) :
    Result u root (.reps (.mk p ρ a) p t min 1 0) c o ↔
      (∃ x, Result u root (.expr (.mk p ρ a)) c (some x) ∧ o = some x) ∨ Result u root (.expr (.mk p ρ a)) c none ∧ ((min = 0 ∧ o = some (c, [])) ∨ (0 < min ∧ o = none)) := by
  have rest : ∀ c o, Result u root (.reps (.mk p ρ a) p t min 1 (0 + 1)) c o ↔ o = some (c, []) := by
    intro c o
    rw [r_reps]
    constructor
    · rintro (⟨-, h⟩ | ⟨h, -⟩)
      · exact h
      · omega
    · exact fun h => .inl ⟨by omega, h⟩
  rw [r_reps]
  simp only [rest, r_unit0]
  constructor
  · rintro (⟨h, -⟩ | ⟨-, ⟨c1, F, o', h1, rfl, rfl⟩ | ⟨h1, ⟨h, rfl⟩ | ⟨h, rfl⟩⟩⟩)
    · omega
    · exact .inl ⟨_, h1, by simp [after]⟩
    · exact .inr ⟨h1, .inr ⟨h, rfl⟩⟩
    · exact .inr ⟨h1, .inl ⟨by omega, rfl⟩⟩
  · rintro (⟨⟨c1, F⟩, h1, rfl⟩ | ⟨h1, ⟨rfl, rfl⟩ | ⟨h, rfl⟩⟩)
    · exact .inr ⟨by omega, .inl ⟨c1, F, _, h1, rfl, by simp [after]⟩⟩
    · exact .inr ⟨by omega, .inr ⟨h1, .inr ⟨by omega, rfl⟩⟩⟩
    · exact .inr ⟨by omega, .inr ⟨h1, .inl ⟨h, rfl⟩⟩⟩

end
end Pest3.Gen
