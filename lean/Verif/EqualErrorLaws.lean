import Verif.EqualErrorLemmas

namespace Pest3.Gen
open Pest3

section
variable {u : Unicode} {root : Module} {rank : RuleVal → Label} {f : Bool} {p : List Name} {ρ : List (Name × Clo)} {c : Cfg} {o : Option Cfg} {es : List Ev}

theorem t_empty : Tries u root rank f (.expr (.mk p ρ (.str []))) c o es ↔ o = some c ∧ es = [] := by
  rw [t_literal (l := .str []) rfl, m_literal (l := .str []) rfl]
  simp only [leafOut, leafSpec, eatText, List.nil_prefix, if_true]
  constructor
  · rintro ⟨⟨m, stk, rest, h1, h2, rfl⟩ | ⟨h, -⟩, rfl⟩
    · simp at h1
      obtain ⟨rfl, rfl⟩ := h1
      simp at h2
      simp [← h2]
    · simp at h
  · rintro ⟨rfl, rfl⟩
    exact ⟨.inl ⟨[], c.stk, c.suf, rfl, rfl, by simp⟩, rfl⟩

theorem t_unit_shift {a : Clo} {t : Trivia} {i : Nat} (hi : i ≠ 0 ∨ t = .none) (c : Cfg) (o : Option Cfg) (es : List Ev) :
    Tries u root rank f (.unit a p t (i + 1)) c o es ↔ Tries u root rank f (.unit a p t i) c o es := by
  cases i with
  | zero =>
    rcases hi with hi | rfl
    · exact absurd rfl hi
    · rw [t_unitS, t_unit0]
      simp only [t_triviaNone]
      constructor
      · rintro (⟨⟨h, -⟩, -⟩ | ⟨c1, es1, es2, ⟨h, rfl⟩, h', rfl⟩)
        · cases h
        · cases h; exact h'
      · exact fun h => .inr ⟨c, [], es, ⟨rfl, rfl⟩, h, rfl⟩
  | succ i => rw [t_unitS, t_unitS]

theorem t_reps_shift {a : Clo} {t : Trivia} (min max : Nat) : ∀ n i c o es, i ≠ 0 ∨ t = .none → max ≤ i + n →
    (Tries u root rank f (.reps a p t (min + 1) (max + 1) (i + 1)) c o es ↔ Tries u root rank f (.reps a p t min max i) c o es) := by
  intro n
  induction n with
  | zero =>
    intro i c o es hi hn
    rw [t_reps, t_reps]
    constructor
    · rintro (⟨-, h⟩ | ⟨h, -⟩)
      · exact .inl ⟨by omega, h⟩
      · omega
    · rintro (⟨-, h⟩ | ⟨h, -⟩)
      · exact .inl ⟨by omega, h⟩
      · omega
  | succ n ih =>
    intro i c o es hi hn
    have hr : ∀ c o es, Tries u root rank f (.reps a p t (min + 1) (max + 1) (i + 1 + 1)) c o es ↔ Tries u root rank f (.reps a p t min max (i + 1)) c o es :=
      fun c o es => ih _ c o es (.inl (by omega)) (by omega)
    rw [t_reps, t_reps]
    simp only [hr, t_unit_shift hi, Nat.add_lt_add_iff_right, Nat.add_le_add_iff_right]

/-- One item more. -/
theorem t_reps_more {a : Expr} {t : Trivia} {min max : Nat} (hmin : min ≠ 0 ∨ t = .none) (hmax : 0 < max) (c : Cfg) (o : Option Cfg) (es : List Ev) :
    Tries u root rank f (.reps (.mk p ρ a) p t (min + 1) (max + 1) 0) c o es ↔
      (Tries u root rank f (.expr (.mk p ρ a)) c none es ∧ o = none) ∨ ∃ c1 es1, Tries u root rank f (.expr (.mk p ρ a)) c (some c1) es1 ∧
      ((∃ es2, Tries u root rank f (.trivia p t) c1 none es2 ∧ o = none ∧ es = es1 ++ es2) ∨ ∃ c2 es2 es3, Tries u root rank f (.trivia p t) c1 (some c2) es2 ∧
        Tries u root rank f (.reps (.mk p ρ a) p t min max 0) c2 o es3 ∧ es = es1 ++ (es2 ++ es3)) := by
  have rest : ∀ c1 o es, Tries u root rank f (.reps (.mk p ρ a) p t (min + 1) (max + 1) 1) c1 o es ↔
      (Tries u root rank f (.trivia p t) c1 none es ∧ o = none) ∨
      ∃ c2 es2 es3, Tries u root rank f (.trivia p t) c1 (some c2) es2 ∧ Tries u root rank f (.reps (.mk p ρ a) p t min max 0) c2 o es3 ∧ es = es2 ++ es3 := by
    intro c1 o es
    rcases hmin with hmin | rfl
    · have hr : ∀ c o es, Tries u root rank f (.reps (.mk p ρ a) p t (min + 1) (max + 1) (1 + 1)) c o es ↔ Tries u root rank f (.reps (.mk p ρ a) p t min max (0 + 1)) c o es :=
        fun c o es => t_reps_shift min max max 1 c o es (.inl (by omega)) (by omega)
      rw [t_reps]
      simp only [hr]
      constructor
      · rintro (⟨h, -⟩ | ⟨-, ⟨c3, es1, es2, h1, h2, rfl⟩ | ⟨h1, ⟨-, rfl⟩ | ⟨h, -⟩⟩⟩)
        · omega
        · rcases t_unitS.mp h1 with ⟨-, h⟩ | ⟨c2, es3, es4, h3, h4, rfl⟩
          · cases h
          · exact .inr ⟨c2, es3, es4 ++ es2, h3, t_reps.mpr (.inr ⟨hmax, .inl ⟨c3, es4, es2, t_unit0.mpr h4, h2, rfl⟩⟩), by rw [List.append_assoc]⟩
        · rcases t_unitS.mp h1 with ⟨h, -⟩ | ⟨c2, es3, es4, h3, h4, rfl⟩
          · exact .inl ⟨h, rfl⟩
          · exact .inr ⟨c2, es3, es4, h3, t_reps.mpr (.inr ⟨hmax, .inr ⟨t_unit0.mpr h4, .inl ⟨by omega, rfl⟩⟩⟩), rfl⟩
        · omega
      · rintro (⟨h, rfl⟩ | ⟨c2, es2, es3, h3, h, rfl⟩)
        · exact .inr ⟨by omega, .inr ⟨t_unitS.mpr (.inl ⟨h, rfl⟩), .inl ⟨by omega, rfl⟩⟩⟩
        · rcases t_reps.mp h with ⟨h, -⟩ | ⟨-, ⟨c4, es4, es5, h1, h2, rfl⟩ | ⟨h1, ⟨-, rfl⟩ | ⟨h, -⟩⟩⟩
          · omega
          · exact .inr ⟨by omega, .inl ⟨c4, es2 ++ es4, es5, t_unitS.mpr (.inr ⟨c2, es2, es4, h3, t_unit0.mp h1, rfl⟩), h2, by rw [List.append_assoc]⟩⟩
          · exact .inr ⟨by omega, .inr ⟨t_unitS.mpr (.inr ⟨c2, es2, es3, h3, t_unit0.mp h1, rfl⟩), .inl ⟨by omega, rfl⟩⟩⟩
          · omega
    · rw [t_reps_shift min max max 0 c1 o es (.inr rfl) (by omega)]
      simp only [t_triviaNone]
      constructor
      · exact fun h => .inr ⟨c1, [], es, ⟨rfl, rfl⟩, h, rfl⟩
      · rintro (⟨⟨h, -⟩, -⟩ | ⟨c2, es2, es3, ⟨h, rfl⟩, h', rfl⟩)
        · cases h
        · cases h; exact h'
  rw [t_reps]
  simp only [rest, t_unit0]
  constructor
  · rintro (⟨h, -⟩ | ⟨-, ⟨c3, es1, es2, h1, ⟨h, rfl⟩ | ⟨c2, es3, es4, h, h', rfl⟩, rfl⟩ | ⟨h1, ⟨-, rfl⟩ | ⟨h, -⟩⟩⟩)
    · omega
    · exact .inr ⟨c3, es1, h1, .inl ⟨es2, h, rfl, rfl⟩⟩
    · exact .inr ⟨c3, es1, h1, .inr ⟨c2, es3, es4, h, h', rfl⟩⟩
    · exact .inl ⟨h1, rfl⟩
    · omega
  · rintro (⟨h, rfl⟩ | ⟨c1, es1, h1, ⟨es2, h2, rfl, rfl⟩ | ⟨c2, es2, es3, h2, h3, rfl⟩⟩)
    · exact .inr ⟨by omega, .inr ⟨h, .inl ⟨by omega, rfl⟩⟩⟩
    · exact .inr ⟨by omega, .inl ⟨c1, es1, es2, h1, .inl ⟨h2, rfl⟩, rfl⟩⟩
    · exact .inr ⟨by omega, .inl ⟨c1, es1, es2 ++ es3, h1, .inr ⟨c2, es2, es3, h2, h3, rfl⟩, rfl⟩⟩

/-- At most one item. -/
theorem t_reps_one {a : Expr} {t : Trivia} {min : Nat} (c : Cfg) (o : Option Cfg) (es : List Ev) :
    Tries u root rank f (.reps (.mk p ρ a) p t min 1 0) c o es ↔
      (∃ x, Tries u root rank f (.expr (.mk p ρ a)) c (some x) es ∧ o = some x) ∨
      Tries u root rank f (.expr (.mk p ρ a)) c none es ∧ ((min = 0 ∧ o = some c) ∨ (0 < min ∧ o = none)) := by
  have rest : ∀ c o es, Tries u root rank f (.reps (.mk p ρ a) p t min 1 (0 + 1)) c o es ↔ o = some c ∧ es = [] := by
    intro c o es
    rw [t_reps]
    constructor
    · rintro (⟨-, h⟩ | ⟨h, -⟩)
      · exact h
      · omega
    · exact fun h => .inl ⟨by omega, h⟩
  rw [t_reps]
  simp only [rest, t_unit0]
  constructor
  · rintro (⟨h, -⟩ | ⟨-, ⟨c1, es1, es2, h1, ⟨rfl, rfl⟩, rfl⟩ | ⟨h1, ⟨h, rfl⟩ | ⟨h, rfl⟩⟩⟩)
    · omega
    · rw [List.append_nil]; exact .inl ⟨_, h1, rfl⟩
    · exact .inr ⟨h1, .inr ⟨h, rfl⟩⟩
    · exact .inr ⟨h1, .inl ⟨by omega, rfl⟩⟩
  · rintro (⟨c1, h1, rfl⟩ | ⟨h1, ⟨rfl, rfl⟩ | ⟨h, rfl⟩⟩)
    · exact .inr ⟨by omega, .inl ⟨c1, es, [], h1, ⟨rfl, rfl⟩, by rw [List.append_nil]⟩⟩
    · exact .inr ⟨by omega, .inr ⟨h1, .inr ⟨by omega, rfl⟩⟩⟩
    · exact .inr ⟨by omega, .inr ⟨h1, .inl ⟨h, rfl⟩⟩⟩

end
end Pest3.Gen
