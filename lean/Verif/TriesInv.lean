import Verif.AttemptLemmas
import Verif.MeaningInv

/-!
# What each operator tries, as equivalences; that there is one list of events for every match
-/

namespace Pest3.Gen
open Pest3

section
variable {u : Unicode} {root : Module} {rank : RuleVal → Label} {f : Bool} {p : List Name} {ρ : List (Name × Clo)} {c : Cfg} {o : Option Cfg} {es : List Ev}

theorem t_literal {e : Expr} {l : Leaf} (he : literal e = some l) : Tries u root rank f (.expr (.mk p ρ e)) c o es ↔ Meaning u root (.expr (.mk p ρ e)) c o ∧ es = [] := by
  constructor
  · intro h
    refine ⟨h.meaning, ?_⟩
    cases e <;> simp only [literal, reduceCtorEq, Option.some.injEq] at he <;> subst he <;> cases h with
    | literal => rfl
    | builtinOk h1 => cases h1
    | builtinFail h1 => cases h1
    | rep h1 => cases h1
  · rintro ⟨h, rfl⟩
    exact .literal he h

theorem t_seq {l r : Expr} {t : Trivia} : Tries u root rank f (.expr (.mk p ρ (.seq l r t))) c o es ↔
    (Tries u root rank f (.expr (.mk p ρ l)) c none es ∧ o = none) ∨ ∃ c1 es1, Tries u root rank f (.expr (.mk p ρ l)) c (some c1) es1 ∧
      ((∃ es2, Tries u root rank f (.trivia p t) c1 none es2 ∧ o = none ∧ es = es1 ++ es2) ∨
        ∃ c2 es2 es3, Tries u root rank f (.trivia p t) c1 (some c2) es2 ∧ Tries u root rank f (.expr (.mk p ρ r)) c2 o es3 ∧ es = es1 ++ (es2 ++ es3)) := by
  constructor
  · intro h
    cases h with
    | literal h1 => cases h1
    | builtinOk h1 => cases h1
    | builtinFail h1 => cases h1
    | rep h1 => cases h1
    | seq h1 h2 h3 => exact .inr ⟨_, _, h1, .inr ⟨_, _, _, h2, h3, rfl⟩⟩
    | seqFail h1 => exact .inl ⟨h1, rfl⟩
    | seqTriviaFail h1 h2 => exact .inr ⟨_, _, h1, .inl ⟨_, h2, rfl, rfl⟩⟩
  · rintro (⟨h1, rfl⟩ | ⟨c1, es1, h1, ⟨es2, h2, rfl, rfl⟩ | ⟨c2, es2, es3, h2, h3, rfl⟩⟩)
    · exact .seqFail h1
    · exact .seqTriviaFail h1 h2
    · exact .seq h1 h2 h3

theorem t_choice {l r : Expr} : Tries u root rank f (.expr (.mk p ρ (.choice l r))) c o es ↔
    (∃ c1, Tries u root rank f (.expr (.mk p ρ l)) c (some c1) es ∧ o = some c1) ∨
    ∃ es1 es2, Tries u root rank f (.expr (.mk p ρ l)) c none es1 ∧ Tries u root rank f (.expr (.mk p ρ r)) c o es2 ∧ es = es1 ++ es2 := by
  constructor
  · intro h
    cases h with
    | literal h1 => cases h1
    | builtinOk h1 => cases h1
    | builtinFail h1 => cases h1
    | rep h1 => cases h1
    | choiceL h1 => exact .inl ⟨_, h1, rfl⟩
    | choiceR h1 h2 => exact .inr ⟨_, _, h1, h2, rfl⟩
  · rintro (⟨c1, h1, rfl⟩ | ⟨es1, es2, h1, h2, rfl⟩)
    · exact .choiceL h1
    · exact .choiceR h1 h2

theorem t_opt {e : Expr} : Tries u root rank f (.expr (.mk p ρ (.opt e))) c o es ↔
    (∃ c1, Tries u root rank f (.expr (.mk p ρ e)) c (some c1) es ∧ o = some c1) ∨ (Tries u root rank f (.expr (.mk p ρ e)) c none es ∧ o = some c) := by
  constructor
  · intro h
    cases h with
    | literal h1 => cases h1
    | builtinOk h1 => cases h1
    | builtinFail h1 => cases h1
    | rep h1 => cases h1
    | optSome h1 => exact .inl ⟨_, h1, rfl⟩
    | optNone h1 => exact .inr ⟨h1, rfl⟩
  · rintro (⟨c1, h1, rfl⟩ | ⟨h1, rfl⟩)
    · exact .optSome h1
    · exact .optNone h1

theorem t_pos {e : Expr} : Tries u root rank f (.expr (.mk p ρ (.pos e))) c o es ↔
    (∃ c1, Tries u root rank true (.expr (.mk p ρ e)) c (some c1) es ∧ o = some c) ∨ (Tries u root rank true (.expr (.mk p ρ e)) c none es ∧ o = none) := by
  constructor
  · intro h
    cases h with
    | literal h1 => cases h1
    | builtinOk h1 => cases h1
    | builtinFail h1 => cases h1
    | rep h1 => cases h1
    | posOk h1 => exact .inl ⟨_, h1, rfl⟩
    | posFail h1 => exact .inr ⟨h1, rfl⟩
  · rintro (⟨c1, h1, rfl⟩ | ⟨h1, rfl⟩)
    · exact .posOk h1
    · exact .posFail h1

theorem t_neg {e : Expr} : Tries u root rank f (.expr (.mk p ρ (.neg e))) c o es ↔
    (∃ c1, Tries u root rank false (.expr (.mk p ρ e)) c (some c1) es ∧ o = none) ∨ (Tries u root rank false (.expr (.mk p ρ e)) c none es ∧ o = some c) := by
  constructor
  · intro h
    cases h with
    | literal h1 => cases h1
    | builtinOk h1 => cases h1
    | builtinFail h1 => cases h1
    | rep h1 => cases h1
    | negFail h1 => exact .inl ⟨_, h1, rfl⟩
    | negOk h1 => exact .inr ⟨h1, rfl⟩
  · rintro (⟨c1, h1, rfl⟩ | ⟨h1, rfl⟩)
    · exact .negFail h1
    · exact .negOk h1

theorem t_separated {e : Expr} {t : Trivia} : Tries u root rank f (.expr (.mk p ρ (.separated e t))) c o es ↔ Tries u root rank f (.expr (.mk p ρ e)) c o es := by
  constructor
  · intro h
    cases h with
    | literal h1 => cases h1
    | builtinOk h1 => cases h1
    | builtinFail h1 => cases h1
    | rep h1 => cases h1
    | separated h => exact h
  · exact .separated

theorem t_rep {e e' : Expr} {min max : Nat} (he : repetition e = some (e', min, max)) : Tries u root rank f (.expr (.mk p ρ e)) c o es ↔
    Tries u root rank f (.reps (.mk p ρ e') p (sepTrivia e') min max 0) c o es := by
  constructor
  · intro h
    cases e <;> simp only [repetition, reduceCtorEq] at he <;> cases h with
    | literal h1 => cases h1
    | builtinOk h1 => cases h1
    | builtinFail h1 => cases h1
    | rep h1 h2 => cases he; cases h1; exact h2
  · exact .rep he

theorem t_unit0 {e : Clo} {t : Trivia} : Tries u root rank f (.unit e p t 0) c o es ↔ Tries u root rank f (.expr e) c o es := by
  constructor
  · intro h; cases h with | unitFirst h => exact h
  · exact .unitFirst

theorem t_unitS {e : Clo} {t : Trivia} {i : Nat} : Tries u root rank f (.unit e p t (i + 1)) c o es ↔
    (Tries u root rank f (.trivia p t) c none es ∧ o = none) ∨
    ∃ c1 es1 es2, Tries u root rank f (.trivia p t) c (some c1) es1 ∧ Tries u root rank f (.expr e) c1 o es2 ∧ es = es1 ++ es2 := by
  constructor
  · intro h
    cases h with
    | unitNext h1 h2 => exact .inr ⟨_, _, _, h1, h2, rfl⟩
    | unitTriviaFail h1 => exact .inl ⟨h1, rfl⟩
  · rintro (⟨h1, rfl⟩ | ⟨c1, es1, es2, h1, h2, rfl⟩)
    · exact .unitTriviaFail h1
    · exact .unitNext h1 h2

theorem t_reps {e : Clo} {t : Trivia} {min max i : Nat} : Tries u root rank f (.reps e p t min max i) c o es ↔
    (max ≤ i ∧ o = some c ∧ es = []) ∨ i < max ∧
      ((∃ c1 es1 es2, Tries u root rank f (.unit e p t i) c (some c1) es1 ∧ Tries u root rank f (.reps e p t min max (i + 1)) c1 o es2 ∧ es = es1 ++ es2) ∨
      (Tries u root rank f (.unit e p t i) c none es ∧ ((i < min ∧ o = none) ∨ (min ≤ i ∧ o = some c)))) := by
  constructor
  · intro h
    cases h with
    | repsMax h1 => exact .inl ⟨h1, rfl, rfl⟩
    | repsMore h1 h2 h3 => exact .inr ⟨h1, .inl ⟨_, _, _, h2, h3, rfl⟩⟩
    | repsFew h1 h2 h3 => exact .inr ⟨h1, .inr ⟨h2, .inl ⟨h3, rfl⟩⟩⟩
    | repsStop h1 h2 h3 => exact .inr ⟨h1, .inr ⟨h2, .inr ⟨h3, rfl⟩⟩⟩
  · rintro (⟨h1, rfl, rfl⟩ | ⟨h1, ⟨c1, es1, es2, h2, h3, rfl⟩ | ⟨h2, ⟨h3, rfl⟩ | ⟨h3, rfl⟩⟩⟩)
    · exact .repsMax h1
    · exact .repsMore h1 h2 h3
    · exact .repsFew h1 h2 h3
    · exact .repsStop h1 h2 h3

theorem t_triviaNone : Tries u root rank f (.trivia p .none) c o es ↔ o = some c ∧ es = [] := by
  constructor
  · intro h
    cases h with
    | triviaNone => exact ⟨rfl, rfl⟩
    | triviaRule h1 h2 => exact absurd h2 triviaRule_none
  · rintro ⟨rfl, rfl⟩
    exact .triviaNone

/-- The events of a leaf. -/
def leafTries (l : Leaf) (c : Cfg) (o : Option Cfg) : List Ev := if o.isSome then [] else leafEvents l c

theorem t_builtin {e : Expr} {q full : List Name} {l : Leaf} (h1 : plainRef e = some q) (h2 : NotParam ρ q) (h3 : target u root p q = some (.builtin full))
    (h4 : builtinLeaf u full = some l) (h : Tries u root rank f (.expr (.mk p ρ e)) c o es) : es = leafTries l c o := by
  rcases plainRef_cases h1 with rfl | rfl <;> cases h1
  · cases h with
    | literal k1 => cases k1
    | builtinOk k1 k2 k3 k4 => rfl
    | builtinFail k1 k2 k3 k4 =>
      cases k1
      rw [h3] at k3; cases k3
      rw [h4] at k4; cases k4
      rfl
    | rep k1 => cases k1
    | param k1 => exact (h2.lookup k1).elim
    | rule k1 k2 => rw [h3] at k2; cases k2
  · cases h with
    | literal k1 => cases k1
    | builtinOk k1 k2 k3 k4 => rfl
    | builtinFail k1 k2 k3 k4 =>
      cases k1
      rw [h3] at k3; cases k3
      rw [h4] at k4; cases k4
      rfl
    | rep k1 => cases k1
    | call k1 k2 => rw [h3] at k2; cases k2

end

/-- There is one list of events for every match, successful or not. -/
theorem Tries.det {u : Unicode} {root : Module} {rank : RuleVal → Label} {f : Bool} {it : SItem} {c : Cfg} {o : Option Cfg} {es : List Ev} (h : Tries u root rank f it c o es) :
    ∀ o' es', Tries u root rank f it c o' es' → o = o' ∧ es = es' := by
  suffices key : ∀ o' es', Tries u root rank f it c o' es' → es = es' from fun o' es' h' => ⟨h.meaning.det _ h'.meaning, key o' es' h'⟩
  induction h with
  | literal h1 h2 => intro o' es' h'; exact ((t_literal h1).mp h').2.symm
  | builtinOk h1 h2 h3 h4 h5 =>
    intro o' es' h'
    cases h5.det _ h'.meaning
    exact (t_builtin h1 h2 h3 h4 h').symm
  | builtinFail h1 h2 h3 h4 h5 =>
    intro o' es' h'
    cases h5.det _ h'.meaning
    exact (t_builtin h1 h2 h3 h4 h').symm
  | sliceOk h1 =>
    intro o' es' h'
    cases h1.det _ h'.meaning
    cases h' with
    | literal k1 => cases k1
    | builtinOk k1 => cases k1
    | rep k1 => cases k1
    | sliceOk => rfl
  | sliceFail h1 h2 =>
    intro o' es' h'
    cases h2.det _ h'.meaning
    cases h' with
    | literal k1 => cases k1
    | builtinFail k1 => cases k1
    | rep k1 => cases k1
    | sliceFail k1 => rw [h1, k1]
  | pushOk h1 h2 h3 ih =>
    intro o' es' h'
    cases h' with
    | literal k1 => cases k1
    | builtinOk k1 => cases k1
    | builtinFail k1 => cases k1
    | rep k1 => cases k1
    | pushOk _ _ k => exact ih _ _ k
    | pushFail _ _ k => exact ih _ _ k
    | call _ k2 => rw [h2] at k2; cases k2
  | pushFail h1 h2 h3 ih =>
    intro o' es' h'
    cases h' with
    | literal k1 => cases k1
    | builtinOk k1 => cases k1
    | builtinFail k1 => cases k1
    | rep k1 => cases k1
    | pushOk _ _ k => exact ih _ _ k
    | pushFail _ _ k => exact ih _ _ k
    | call _ k2 => rw [h2] at k2; cases k2
  | param h1 h2 ih =>
    intro o' es' h'
    cases h' with
    | literal k1 => cases k1
    | builtinOk k1 k2 => cases k1; exact (k2.lookup h1).elim
    | builtinFail k1 k2 => cases k1; exact (k2.lookup h1).elim
    | rep k1 => cases k1
    | param k1 k2 =>
      rw [h1] at k1; cases k1
      exact ih _ _ k2
    | rule k1 => exact (k1.lookup h1).elim
  | rule h1 h2 h3 h4 ih =>
    intro o' es' h'
    have ho := h'.meaning
    cases h' with
    | literal k1 => cases k1
    | builtinOk k1 k2 k3 => cases k1; rw [h2] at k3; cases k3
    | builtinFail k1 k2 k3 => cases k1; rw [h2] at k3; cases k3
    | rep k1 => cases k1
    | param k1 => exact (h1.lookup k1).elim
    | rule k1 k2 k3 k4 =>
      rw [h2] at k2; cases k2
      cases h4.meaning.det _ k4.meaning
      rw [ih _ _ k4]
  | call h1 h2 h3 h4 ih =>
    intro o' es' h'
    cases h' with
    | literal k1 => cases k1
    | @builtinOk _ _ _ _ q' _ _ _ _ k1 k2 k3 =>
      rcases plainRef_cases k1 with k | k <;> cases k
      rw [h2] at k3; cases k3
    | builtinFail k1 k2 k3 =>
      rcases plainRef_cases k1 with k | k <;> cases k
      rw [h2] at k3; cases k3
    | rep k1 => cases k1
    | pushOk _ k2 => rw [h2] at k2; cases k2
    | pushFail _ k2 => rw [h2] at k2; cases k2
    | call k1 k2 k3 k4 =>
      rw [h2] at k2; cases k2
      cases h4.meaning.det _ k4.meaning
      rw [ih _ _ k4]
  | posOk h ih => intro o' es' h'; rcases t_pos.mp h' with ⟨c1, k1, rfl⟩ | ⟨k1, rfl⟩ <;> exact ih _ _ k1
  | posFail h ih => intro o' es' h'; rcases t_pos.mp h' with ⟨c1, k1, rfl⟩ | ⟨k1, rfl⟩ <;> exact ih _ _ k1
  | negOk h ih => intro o' es' h'; rcases t_neg.mp h' with ⟨c1, k1, rfl⟩ | ⟨k1, rfl⟩ <;> exact ih _ _ k1
  | negFail h ih => intro o' es' h'; rcases t_neg.mp h' with ⟨c1, k1, rfl⟩ | ⟨k1, rfl⟩ <;> exact ih _ _ k1
  | seq h1 h2 h3 ih1 ih2 ih3 =>
    intro o' es' h'
    rcases t_seq.mp h' with ⟨k1, -⟩ | ⟨c1, es1, k1, ⟨es2, k2, -, rfl⟩ | ⟨c2, es2, es3, k2, k3, rfl⟩⟩
    · cases h1.meaning.det _ k1.meaning
    · cases h1.meaning.det _ k1.meaning
      cases h2.meaning.det _ k2.meaning
    · cases h1.meaning.det _ k1.meaning
      cases h2.meaning.det _ k2.meaning
      rw [ih1 _ _ k1, ih2 _ _ k2, ih3 _ _ k3]
  | seqFail h1 ih1 =>
    intro o' es' h'
    rcases t_seq.mp h' with ⟨k1, -⟩ | ⟨c1, es1, k1, -⟩
    · exact ih1 _ _ k1
    · cases h1.meaning.det _ k1.meaning
  | seqTriviaFail h1 h2 ih1 ih2 =>
    intro o' es' h'
    rcases t_seq.mp h' with ⟨k1, -⟩ | ⟨c1, es1, k1, ⟨es2, k2, -, rfl⟩ | ⟨c2, es2, es3, k2, k3, rfl⟩⟩
    · cases h1.meaning.det _ k1.meaning
    · cases h1.meaning.det _ k1.meaning
      rw [ih1 _ _ k1, ih2 _ _ k2]
    · cases h1.meaning.det _ k1.meaning
      cases h2.meaning.det _ k2.meaning
  | choiceL h1 ih =>
    intro o' es' h'
    rcases t_choice.mp h' with ⟨c1, k1, -⟩ | ⟨es1, es2, k1, -, rfl⟩
    · exact ih _ _ k1
    · cases h1.meaning.det _ k1.meaning
  | choiceR h1 h2 ih1 ih2 =>
    intro o' es' h'
    rcases t_choice.mp h' with ⟨c1, k1, -⟩ | ⟨es1, es2, k1, k2, rfl⟩
    · cases h1.meaning.det _ k1.meaning
    · rw [ih1 _ _ k1, ih2 _ _ k2]
  | optSome h ih => intro o' es' h'; rcases t_opt.mp h' with ⟨c1, k1, rfl⟩ | ⟨k1, rfl⟩ <;> exact ih _ _ k1
  | optNone h ih => intro o' es' h'; rcases t_opt.mp h' with ⟨c1, k1, rfl⟩ | ⟨k1, rfl⟩ <;> exact ih _ _ k1
  | rep h1 h2 ih => intro o' es' h'; exact ih _ _ ((t_rep h1).mp h')
  | separated h ih => intro o' es' h'; exact ih _ _ (t_separated.mp h')
  | triviaNone => intro o' es' h'; exact (t_triviaNone.mp h').2.symm
  | triviaRule h1 h2 h3 ih =>
    intro o' es' h'
    cases h' with
    | triviaNone => exact absurd h2 triviaRule_none
    | triviaRule k1 k2 k3 =>
      rw [h1] at k1; cases k1
      rw [h2] at k2; cases k2
      exact ih _ _ k3
  | unitFirst h ih => intro o' es' h'; exact ih _ _ (t_unit0.mp h')
  | unitNext h1 h2 ih1 ih2 =>
    intro o' es' h'
    rcases t_unitS.mp h' with ⟨k1, -⟩ | ⟨c1, es1, es2, k1, k2, rfl⟩
    · cases h1.meaning.det _ k1.meaning
    · cases h1.meaning.det _ k1.meaning
      rw [ih1 _ _ k1, ih2 _ _ k2]
  | unitTriviaFail h1 ih1 =>
    intro o' es' h'
    rcases t_unitS.mp h' with ⟨k1, -⟩ | ⟨c1, es1, es2, k1, k2, rfl⟩
    · exact ih1 _ _ k1
    · cases h1.meaning.det _ k1.meaning
  | repsMax h1 =>
    intro o' es' h'
    rcases t_reps.mp h' with ⟨-, -, rfl⟩ | ⟨h, -⟩
    · rfl
    · omega
  | repsMore h1 h2 h3 ih1 ih2 =>
    intro o' es' h'
    rcases t_reps.mp h' with ⟨h, -⟩ | ⟨-, ⟨c1, es1, es2, k1, k2, rfl⟩ | ⟨k1, -⟩⟩
    · omega
    · cases h2.meaning.det _ k1.meaning
      rw [ih1 _ _ k1, ih2 _ _ k2]
    · cases h2.meaning.det _ k1.meaning
  | repsFew h1 h2 h3 ih =>
    intro o' es' h'
    rcases t_reps.mp h' with ⟨h, -⟩ | ⟨-, ⟨c1, es1, es2, k1, k2, rfl⟩ | ⟨k1, -⟩⟩
    · omega
    · cases h2.meaning.det _ k1.meaning
    · exact ih _ _ k1
  | repsStop h1 h2 h3 ih =>
    intro o' es' h'
    rcases t_reps.mp h' with ⟨h, -⟩ | ⟨-, ⟨c1, es1, es2, k1, k2, rfl⟩ | ⟨k1, -⟩⟩
    · omega
    · cases h2.meaning.det _ k1.meaning
    · exact ih _ _ k1

end Pest3.Gen
