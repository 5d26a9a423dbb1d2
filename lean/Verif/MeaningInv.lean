import Verif.ForestLemmas

/-!
# What each operator means, as equivalences
-/

namespace Pest3.Gen
open Pest3

section
variable {u : Unicode} {root : Module} {p : List Name} {ρ : List (Name × Clo)} {c : Cfg} {o : Option Cfg}

/-- The result of a leaf. -/
def leafOut (l : Leaf) (c : Cfg) (o : Option Cfg) : Prop :=
  (∃ m stk rest, leafSpec l c = some (m, stk) ∧ c.suf = m ++ rest ∧ o = some ⟨c.pre ++ m, rest, stk⟩) ∨ (leafSpec l c = none ∧ o = none)

theorem leafOut_det {l : Leaf} {o' : Option Cfg} (h : leafOut l c o) (h' : leafOut l c o') : o = o' := by
  rcases h with ⟨m, stk, rest, h1, h2, rfl⟩ | ⟨h1, rfl⟩ <;> rcases h' with ⟨m', stk', rest', k1, k2, rfl⟩ | ⟨k1, rfl⟩
  · rw [h1] at k1
    cases k1
    rw [h2] at k2
    rw [List.append_cancel_left k2]
  · rw [h1] at k1; cases k1
  · rw [h1] at k1; cases k1
  · rfl

theorem m_literal {e : Expr} {l : Leaf} (he : literal e = some l) : Meaning u root (.expr (.mk p ρ e)) c o ↔ leafOut l c o := by
  constructor
  · intro h
    cases e <;> simp only [literal, reduceCtorEq, Option.some.injEq] at he <;> subst he <;> cases h with
    | literalOk h1 h2 h3 => cases h1; exact .inl ⟨_, _, _, h2, h3, rfl⟩
    | literalFail h1 h2 => cases h1; exact .inr ⟨h2, rfl⟩
    | builtinOk h1 => cases h1
    | builtinFail h1 => cases h1
    | rep h1 => cases h1
  · rintro (⟨m, stk, rest, h1, h2, rfl⟩ | ⟨h1, rfl⟩)
    · exact .literalOk he h1 h2
    · exact .literalFail he h1

theorem m_seq {l r : Expr} {t : Trivia} : Meaning u root (.expr (.mk p ρ (.seq l r t))) c o ↔
    (Meaning u root (.expr (.mk p ρ l)) c none ∧ o = none) ∨ ∃ c1, Meaning u root (.expr (.mk p ρ l)) c (some c1) ∧
      ((Meaning u root (.trivia p t) c1 none ∧ o = none) ∨ ∃ c2, Meaning u root (.trivia p t) c1 (some c2) ∧ Meaning u root (.expr (.mk p ρ r)) c2 o) := by
  constructor
  · intro h
    cases h with
    | literalOk h1 => cases h1
    | literalFail h1 => cases h1
    | builtinOk h1 => cases h1
    | builtinFail h1 => cases h1
    | rep h1 => cases h1
    | seq h1 h2 h3 => exact .inr ⟨_, h1, .inr ⟨_, h2, h3⟩⟩
    | seqFail h1 => exact .inl ⟨h1, rfl⟩
    | seqTriviaFail h1 h2 => exact .inr ⟨_, h1, .inl ⟨h2, rfl⟩⟩
  · rintro (⟨h1, rfl⟩ | ⟨c1, h1, ⟨h2, rfl⟩ | ⟨c2, h2, h3⟩⟩)
    · exact .seqFail h1
    · exact .seqTriviaFail h1 h2
    · exact .seq h1 h2 h3

theorem m_choice {l r : Expr} : Meaning u root (.expr (.mk p ρ (.choice l r))) c o ↔
    (∃ c1, Meaning u root (.expr (.mk p ρ l)) c (some c1) ∧ o = some c1) ∨ (Meaning u root (.expr (.mk p ρ l)) c none ∧ Meaning u root (.expr (.mk p ρ r)) c o) := by
  constructor
  · intro h
    cases h with
    | literalOk h1 => cases h1
    | literalFail h1 => cases h1
    | builtinOk h1 => cases h1
    | builtinFail h1 => cases h1
    | rep h1 => cases h1
    | choiceL h1 => exact .inl ⟨_, h1, rfl⟩
    | choiceR h1 h2 => exact .inr ⟨h1, h2⟩
  · rintro (⟨c1, h1, rfl⟩ | ⟨h1, h2⟩)
    · exact .choiceL h1
    · exact .choiceR h1 h2

theorem m_opt {e : Expr} : Meaning u root (.expr (.mk p ρ (.opt e))) c o ↔
    (∃ c1, Meaning u root (.expr (.mk p ρ e)) c (some c1) ∧ o = some c1) ∨ (Meaning u root (.expr (.mk p ρ e)) c none ∧ o = some c) := by
  constructor
  · intro h
    cases h with
    | literalOk h1 => cases h1
    | literalFail h1 => cases h1
    | builtinOk h1 => cases h1
    | builtinFail h1 => cases h1
    | rep h1 => cases h1
    | optSome h1 => exact .inl ⟨_, h1, rfl⟩
    | optNone h1 => exact .inr ⟨h1, rfl⟩
  · rintro (⟨c1, h1, rfl⟩ | ⟨h1, rfl⟩)
    · exact .optSome h1
    · exact .optNone h1

theorem m_pos {e : Expr} : Meaning u root (.expr (.mk p ρ (.pos e))) c o ↔
    (∃ c1, Meaning u root (.expr (.mk p ρ e)) c (some c1) ∧ o = some c) ∨ (Meaning u root (.expr (.mk p ρ e)) c none ∧ o = none) := by
  constructor
  · intro h
    cases h with
    | literalOk h1 => cases h1
    | literalFail h1 => cases h1
    | builtinOk h1 => cases h1
    | builtinFail h1 => cases h1
    | rep h1 => cases h1
    | posOk h1 => exact .inl ⟨_, h1, rfl⟩
    | posFail h1 => exact .inr ⟨h1, rfl⟩
  · rintro (⟨c1, h1, rfl⟩ | ⟨h1, rfl⟩)
    · exact .posOk h1
    · exact .posFail h1

theorem m_neg {e : Expr} : Meaning u root (.expr (.mk p ρ (.neg e))) c o ↔
    (∃ c1, Meaning u root (.expr (.mk p ρ e)) c (some c1) ∧ o = none) ∨ (Meaning u root (.expr (.mk p ρ e)) c none ∧ o = some c) := by
  constructor
  · intro h
    cases h with
    | literalOk h1 => cases h1
    | literalFail h1 => cases h1
    | builtinOk h1 => cases h1
    | builtinFail h1 => cases h1
    | rep h1 => cases h1
    | negFail h1 => exact .inl ⟨_, h1, rfl⟩
    | negOk h1 => exact .inr ⟨h1, rfl⟩
  · rintro (⟨c1, h1, rfl⟩ | ⟨h1, rfl⟩)
    · exact .negFail h1
    · exact .negOk h1

theorem m_separated {e : Expr} {t : Trivia} : Meaning u root (.expr (.mk p ρ (.separated e t))) c o ↔ Meaning u root (.expr (.mk p ρ e)) c o := by
  constructor
  · intro h
    cases h with
    | literalOk h1 => cases h1
    | literalFail h1 => cases h1
    | builtinOk h1 => cases h1
    | builtinFail h1 => cases h1
    | rep h1 => cases h1
    | separated h => exact h
  · exact .separated

theorem m_rep {e e' : Expr} {min max : Nat} (he : repetition e = some (e', min, max)) : Meaning u root (.expr (.mk p ρ e)) c o ↔
    Meaning u root (.reps (.mk p ρ e') p (sepTrivia e') min max 0) c o := by
  constructor
  · intro h
    cases e <;> simp only [repetition, reduceCtorEq] at he <;> cases h with
    | literalOk h1 => cases h1
    | literalFail h1 => cases h1
    | builtinOk h1 => cases h1
    | builtinFail h1 => cases h1
    | rep h1 h2 => cases he; cases h1; exact h2
  · exact .rep he

theorem m_unit0 {e : Clo} {t : Trivia} : Meaning u root (.unit e p t 0) c o ↔ Meaning u root (.expr e) c o := by
  constructor
  · intro h; cases h with | unitFirst h => exact h
  · exact .unitFirst

theorem m_unitS {e : Clo} {t : Trivia} {i : Nat} : Meaning u root (.unit e p t (i + 1)) c o ↔
    (Meaning u root (.trivia p t) c none ∧ o = none) ∨ ∃ c1, Meaning u root (.trivia p t) c (some c1) ∧ Meaning u root (.expr e) c1 o := by
  constructor
  · intro h
    cases h with
    | unitNext h1 h2 => exact .inr ⟨_, h1, h2⟩
    | unitTriviaFail h1 => exact .inl ⟨h1, rfl⟩
  · rintro (⟨h1, rfl⟩ | ⟨c1, h1, h2⟩)
    · exact .unitTriviaFail h1
    · exact .unitNext h1 h2

theorem m_reps {e : Clo} {t : Trivia} {min max i : Nat} : Meaning u root (.reps e p t min max i) c o ↔
    (max ≤ i ∧ o = some c) ∨ i < max ∧ ((∃ c1, Meaning u root (.unit e p t i) c (some c1) ∧ Meaning u root (.reps e p t min max (i + 1)) c1 o) ∨
      (Meaning u root (.unit e p t i) c none ∧ ((i < min ∧ o = none) ∨ (min ≤ i ∧ o = some c)))) := by
  constructor
  · intro h
    cases h with
    | repsMax h1 => exact .inl ⟨h1, rfl⟩
    | repsMore h1 h2 h3 => exact .inr ⟨h1, .inl ⟨_, h2, h3⟩⟩
    | repsFew h1 h2 h3 => exact .inr ⟨h1, .inr ⟨h2, .inl ⟨h3, rfl⟩⟩⟩
    | repsStop h1 h2 h3 => exact .inr ⟨h1, .inr ⟨h2, .inr ⟨h3, rfl⟩⟩⟩
  · rintro (⟨h1, rfl⟩ | ⟨h1, ⟨c1, h2, h3⟩ | ⟨h2, ⟨h3, rfl⟩ | ⟨h3, rfl⟩⟩⟩)
    · exact .repsMax h1
    · exact .repsMore h1 h2 h3
    · exact .repsFew h1 h2 h3
    · exact .repsStop h1 h2 h3

/-! ## A match has one result -/

theorem slice_det {q : List Name} {range : Meta.MetaRange Int} (h : Meaning u root (.expr (.mk p ρ (.slice q range))) c o) :
    leafOut (match range.stop with
        | some b => Leaf.slice2 (range.start.getD 0) b
        | none => Leaf.slice1 (range.start.getD 0)) c o := by
  cases h with
  | literalOk h1 => cases h1
  | literalFail h1 => cases h1
  | builtinOk h1 => cases h1
  | builtinFail h1 => cases h1
  | rep h1 => cases h1
  | sliceOk _ _ h3 h4 h5 => subst h3; exact .inl ⟨_, _, _, h4, h5, rfl⟩
  | sliceFail _ _ h3 h4 => subst h3; exact .inr ⟨h4, rfl⟩

theorem plainRef_literal {e : Expr} {q : List Name} (h : plainRef e = some q) : literal e = none ∧ repetition e = none := by
  cases e <;> simp_all [plainRef, literal, repetition]

theorem m_slice {q : List Name} {range : Meta.MetaRange Int} : Meaning u root (.expr (.mk p ρ (.slice q range))) c o ↔
    NotParam ρ q ∧ target u root p q = some (.builtin peekPath) ∧ leafOut (match range.stop with
        | some b => Leaf.slice2 (range.start.getD 0) b
        | none => Leaf.slice1 (range.start.getD 0)) c o := by
  constructor
  · intro h
    refine ⟨?_, ?_, slice_det h⟩ <;> cases h with
    | literalOk h1 => cases h1
    | literalFail h1 => cases h1
    | builtinOk h1 => cases h1
    | builtinFail h1 => cases h1
    | rep h1 => cases h1
    | sliceOk h1 h2 => assumption
    | sliceFail h1 h2 => assumption
  · rintro ⟨h1, h2, ⟨m, stk, rest, h3, h4, rfl⟩ | ⟨h3, rfl⟩⟩
    · exact .sliceOk h1 h2 rfl h3 h4
    · exact .sliceFail h1 h2 rfl h3

theorem m_path {q : List Name} : Meaning u root (.expr (.mk p ρ (.path q))) c o ↔
    (∃ x e, q = [x] ∧ lookupClo x ρ = some e ∧ Meaning u root (.expr e) c o) ∨ (NotParam ρ q ∧
      ((∃ full l, target u root p q = some (.builtin full) ∧ builtinLeaf u full = some l ∧ leafOut l c o) ∨
        ∃ p' r, target u root p q = some (.rule p' r) ∧ r.args = [] ∧ Meaning u root (.expr (.mk p' [] r.node)) c o)) := by
  constructor
  · intro h
    cases h with
    | literalOk h1 => cases h1
    | literalFail h1 => cases h1
    | builtinOk h1 h2 h3 h4 h5 h6 => cases h1; exact .inr ⟨h2, .inl ⟨_, _, h3, h4, .inl ⟨_, _, _, h5, h6, rfl⟩⟩⟩
    | builtinFail h1 h2 h3 h4 h5 => cases h1; exact .inr ⟨h2, .inl ⟨_, _, h3, h4, .inr ⟨h5, rfl⟩⟩⟩
    | rep h1 => cases h1
    | param h1 h2 => exact .inl ⟨_, _, rfl, h1, h2⟩
    | rule h1 h2 h3 h4 => exact .inr ⟨h1, .inr ⟨_, _, h2, h3, h4⟩⟩
  · rintro (⟨x, e, rfl, h1, h2⟩ | ⟨h1, ⟨full, l, h2, h3, ⟨m, stk, rest, h4, h5, rfl⟩ | ⟨h4, rfl⟩⟩ | ⟨p', r, h2, h3, h4⟩⟩)
    · exact .param h1 h2
    · exact .builtinOk rfl h1 h2 h3 h4 h5
    · exact .builtinFail rfl h1 h2 h3 h4
    · exact .rule h1 h2 h3 h4

/-- The result of `push`. -/
def pushOut (c : Cfg) (o o' : Option Cfg) : Prop :=
  (∃ m rest stk, o = some ⟨c.pre ++ m, rest, stk⟩ ∧ o' = some ⟨c.pre ++ m, rest, stk ++ [m]⟩) ∨ (o = none ∧ o' = none)

theorem pushOut_det {a b : Option Cfg} (h : pushOut c o a) (h' : pushOut c o b) : a = b := by
  rcases h with ⟨m, rest, stk, rfl, rfl⟩ | ⟨rfl, rfl⟩ <;> rcases h' with ⟨m', rest', stk', h1, rfl⟩ | ⟨h1, rfl⟩
  · simp only [Option.some.injEq, Cfg.mk.injEq, List.append_cancel_left_eq] at h1
    obtain ⟨rfl, rfl, rfl⟩ := h1
    rfl
  · cases h1
  · cases h1
  · rfl

theorem m_call {q : List Name} {args : List Expr} : Meaning u root (.expr (.mk p ρ (.call q args))) c o ↔ NotParam ρ q ∧
    ((∃ full l, args = [] ∧ target u root p q = some (.builtin full) ∧ builtinLeaf u full = some l ∧ leafOut l c o) ∨
      (∃ e o', args = [e] ∧ target u root p q = some (.builtin pushPath) ∧ Meaning u root (.expr (.mk p ρ e)) c o' ∧ pushOut c o' o) ∨
      ∃ p' r, target u root p q = some (.rule p' r) ∧ r.args.length = args.length ∧
        Meaning u root (.expr (.mk p' (r.args.zip (args.map (Clo.mk p ρ))) r.node)) c o) := by
  constructor
  · intro h
    cases h with
    | literalOk h1 => cases h1
    | literalFail h1 => cases h1
    | builtinOk h1 h2 h3 h4 h5 h6 =>
      cases args with
      | nil => cases h1; exact ⟨h2, .inl ⟨_, _, rfl, h3, h4, .inl ⟨_, _, _, h5, h6, rfl⟩⟩⟩
      | cons => cases h1
    | builtinFail h1 h2 h3 h4 h5 =>
      cases args with
      | nil => cases h1; exact ⟨h2, .inl ⟨_, _, rfl, h3, h4, .inr ⟨h5, rfl⟩⟩⟩
      | cons => cases h1
    | rep h1 => cases h1
    | pushOk h1 h2 h3 => exact ⟨h1, .inr (.inl ⟨_, _, rfl, h2, h3, .inl ⟨_, _, _, rfl, rfl⟩⟩)⟩
    | pushFail h1 h2 h3 => exact ⟨h1, .inr (.inl ⟨_, _, rfl, h2, h3, .inr ⟨rfl, rfl⟩⟩)⟩
    | call h1 h2 h3 h4 => exact ⟨h1, .inr (.inr ⟨_, _, h2, h3, h4⟩)⟩
  · rintro ⟨h1, ⟨full, l, rfl, h2, h3, ⟨m, stk, rest, h4, h5, rfl⟩ | ⟨h4, rfl⟩⟩ | ⟨e, o', rfl, h2, h3, ⟨m, rest, stk, rfl, rfl⟩ | ⟨rfl, rfl⟩⟩ | ⟨p', r, h2, h3, h4⟩⟩
    · exact .builtinOk rfl h1 h2 h3 h4 h5
    · exact .builtinFail rfl h1 h2 h3 h4
    · exact .pushOk h1 h2 h3
    · exact .pushFail h1 h2 h3
    · exact .call h1 h2 h3 h4

theorem m_trivia {t : Trivia} : Meaning u root (.trivia p t) c o ↔
    (t = .none ∧ o = some c) ∨ ∃ m r, modAt root p = some m ∧ triviaRule m t = some r ∧ Meaning u root (.expr (.mk p [] r.node)) c o := by
  constructor
  · intro h
    cases h with
    | triviaNone => exact .inl ⟨rfl, rfl⟩
    | triviaRule h1 h2 h3 => exact .inr ⟨_, _, h1, h2, h3⟩
  · rintro (⟨rfl, rfl⟩ | ⟨m, r, h1, h2, h3⟩)
    · exact .triviaNone
    · exact .triviaRule h1 h2 h3

end

theorem NotParam.lookup {ρ : List (Name × Clo)} {x : Name} {e : Clo} (h : NotParam ρ [x]) (h' : lookupClo x ρ = some e) : False := by
  rw [h x rfl] at h'
  cases h'

theorem triviaRule_none {m : Module} {r : Rule} : triviaRule m .none ≠ some r := nofun

theorem plainRef_cases {e : Expr} {q : List Name} (h : plainRef e = some q) : e = .path q ∨ e = .call q [] := by
  cases e with
  | path => cases h; exact .inl rfl
  | call _ args => cases args with
    | nil => cases h; exact .inr rfl
    | cons => cases h
  | _ => cases h

theorem builtin_out {u : Unicode} {root : Module} {p : List Name} {ρ : List (Name × Clo)} {c : Cfg} {o : Option Cfg} {e : Expr} {q full : List Name}
    {l : Leaf} (h1 : plainRef e = some q) (h2 : NotParam ρ q) (h3 : target u root p q = some (.builtin full)) (h4 : builtinLeaf u full = some l)
    (h : Meaning u root (.expr (.mk p ρ e)) c o) : leafOut l c o := by
  rcases plainRef_cases h1 with rfl | rfl
  · rcases m_path.mp h with ⟨x, e, rfl, k1, -⟩ | ⟨-, ⟨full', l', k1, k2, k3⟩ | ⟨p', r, k1, -⟩⟩
    · exact (h2.lookup k1).elim
    · rw [h3] at k1; cases k1
      rw [h4] at k2; cases k2
      exact k3
    · rw [h3] at k1; cases k1
  · obtain ⟨-, ⟨full', l', -, k1, k2, k3⟩ | ⟨e, o'', k0, -⟩ | ⟨p', r, k1, -⟩⟩ := m_call.mp h
    · rw [h3] at k1; cases k1
      rw [h4] at k2; cases k2
      exact k3
    · cases k0
    · rw [h3] at k1; cases k1

/-- What an expression matches, and whether it does, is determined. -/
theorem Meaning.det {u : Unicode} {root : Module} {it : SItem} {c : Cfg} {o : Option Cfg} (h : Meaning u root it c o) :
    ∀ o', Meaning u root it c o' → o = o' := by
  induction h with
  | literalOk h1 h2 h3 => intro o' h'; exact leafOut_det (.inl ⟨_, _, _, h2, h3, rfl⟩) ((m_literal h1).mp h')
  | literalFail h1 h2 => intro o' h'; exact leafOut_det (.inr ⟨h2, rfl⟩) ((m_literal h1).mp h')
  | @builtinOk p ρ e q full l c m stk rest h1 h2 h3 h4 h5 h6 =>
    intro o' h'
    exact leafOut_det (.inl ⟨_, _, _, h5, h6, rfl⟩) (builtin_out h1 h2 h3 h4 h')
  | @builtinFail p ρ e q full l c h1 h2 h3 h4 h5 =>
    intro o' h'
    exact leafOut_det (.inr ⟨h5, rfl⟩) (builtin_out h1 h2 h3 h4 h')
  | sliceOk h1 h2 h3 h4 h5 => intro o' h'; subst h3; exact leafOut_det (.inl ⟨_, _, _, h4, h5, rfl⟩) (m_slice.mp h').2.2
  | sliceFail h1 h2 h3 h4 => intro o' h'; subst h3; exact leafOut_det (.inr ⟨h4, rfl⟩) (m_slice.mp h').2.2
  | pushOk h1 h2 h3 ih =>
    intro o' h'
    obtain ⟨-, ⟨full', l', k0, -⟩ | ⟨e, o'', k0, -, k1, k2⟩ | ⟨p', r, k1, -⟩⟩ := m_call.mp h'
    · cases k0
    · cases k0
      rw [← ih _ k1] at k2
      exact pushOut_det (.inl ⟨_, _, _, rfl, rfl⟩) k2
    · rw [h2] at k1; cases k1
  | pushFail h1 h2 h3 ih =>
    intro o' h'
    obtain ⟨-, ⟨full', l', k0, -⟩ | ⟨e, o'', k0, -, k1, k2⟩ | ⟨p', r, k1, -⟩⟩ := m_call.mp h'
    · cases k0
    · cases k0
      rw [← ih _ k1] at k2
      exact pushOut_det (.inr ⟨rfl, rfl⟩) k2
    · rw [h2] at k1; cases k1
  | param h1 h2 ih =>
    intro o' h'
    rcases m_path.mp h' with ⟨x, e, k0, k1, k2⟩ | ⟨k1, -⟩
    · cases k0
      rw [h1] at k1; cases k1
      exact ih _ k2
    · exact (k1.lookup h1).elim
  | rule h1 h2 h3 h4 ih =>
    intro o' h'
    rcases m_path.mp h' with ⟨x, e, rfl, k1, -⟩ | ⟨-, ⟨full', l', k1, -⟩ | ⟨p', r, k1, -, k2⟩⟩
    · exact (h1.lookup k1).elim
    · rw [h2] at k1; cases k1
    · rw [h2] at k1; cases k1
      exact ih _ k2
  | call h1 h2 h3 h4 ih =>
    intro o' h'
    obtain ⟨-, ⟨full', l', -, k1, -⟩ | ⟨e, o'', -, k1, -⟩ | ⟨p', r, k1, -, k2⟩⟩ := m_call.mp h'
    · rw [h2] at k1; cases k1
    · rw [h2] at k1; cases k1
    · rw [h2] at k1; cases k1
      exact ih _ k2
  | posOk _ ih =>
    intro o' h'
    rcases m_pos.mp h' with ⟨c1, k1, rfl⟩ | ⟨k1, rfl⟩
    · rfl
    · cases ih _ k1
  | posFail _ ih =>
    intro o' h'
    rcases m_pos.mp h' with ⟨c1, k1, rfl⟩ | ⟨k1, rfl⟩
    · cases ih _ k1
    · rfl
  | negOk _ ih =>
    intro o' h'
    rcases m_neg.mp h' with ⟨c1, k1, rfl⟩ | ⟨k1, rfl⟩
    · cases ih _ k1
    · rfl
  | negFail _ ih =>
    intro o' h'
    rcases m_neg.mp h' with ⟨c1, k1, rfl⟩ | ⟨k1, rfl⟩
    · rfl
    · cases ih _ k1
  | seq _ _ _ ih1 ih2 ih3 =>
    intro o' h'
    rcases m_seq.mp h' with ⟨k1, rfl⟩ | ⟨c1, k1, ⟨k2, rfl⟩ | ⟨c2, k2, k3⟩⟩
    · cases ih1 _ k1
    · cases ih1 _ k1
      cases ih2 _ k2
    · cases ih1 _ k1
      cases ih2 _ k2
      exact ih3 _ k3
  | seqFail _ ih1 =>
    intro o' h'
    rcases m_seq.mp h' with ⟨k1, rfl⟩ | ⟨c1, k1, -⟩
    · rfl
    · cases ih1 _ k1
  | seqTriviaFail _ _ ih1 ih2 =>
    intro o' h'
    rcases m_seq.mp h' with ⟨k1, rfl⟩ | ⟨c1, k1, ⟨k2, rfl⟩ | ⟨c2, k2, k3⟩⟩
    · rfl
    · rfl
    · cases ih1 _ k1
      cases ih2 _ k2
  | choiceL _ ih =>
    intro o' h'
    rcases m_choice.mp h' with ⟨c1, k1, rfl⟩ | ⟨k1, k2⟩
    · exact ih _ k1
    · cases ih _ k1
  | choiceR _ _ ih1 ih2 =>
    intro o' h'
    rcases m_choice.mp h' with ⟨c1, k1, rfl⟩ | ⟨k1, k2⟩
    · cases ih1 _ k1
    · exact ih2 _ k2
  | optSome _ ih =>
    intro o' h'
    rcases m_opt.mp h' with ⟨c1, k1, rfl⟩ | ⟨k1, rfl⟩
    · exact ih _ k1
    · cases ih _ k1
  | optNone _ ih =>
    intro o' h'
    rcases m_opt.mp h' with ⟨c1, k1, rfl⟩ | ⟨k1, rfl⟩
    · cases ih _ k1
    · rfl
  | rep h1 _ ih => intro o' h'; exact ih _ ((m_rep h1).mp h')
  | separated _ ih => intro o' h'; exact ih _ (m_separated.mp h')
  | triviaNone =>
    intro o' h'
    rcases m_trivia.mp h' with ⟨-, rfl⟩ | ⟨m, r, -, k, -⟩
    · rfl
    · exact (triviaRule_none k).elim
  | triviaRule h1 h2 _ ih =>
    intro o' h'
    rcases m_trivia.mp h' with ⟨rfl, rfl⟩ | ⟨m, r, k1, k2, k3⟩
    · exact (triviaRule_none h2).elim
    · rw [h1] at k1; cases k1
      rw [h2] at k2; cases k2
      exact ih _ k3
  | unitFirst _ ih => intro o' h'; exact ih _ (m_unit0.mp h')
  | unitNext _ _ ih1 ih2 =>
    intro o' h'
    rcases m_unitS.mp h' with ⟨k1, rfl⟩ | ⟨c1, k1, k2⟩
    · cases ih1 _ k1
    · cases ih1 _ k1
      exact ih2 _ k2
  | unitTriviaFail _ ih =>
    intro o' h'
    rcases m_unitS.mp h' with ⟨k1, rfl⟩ | ⟨c1, k1, k2⟩
    · rfl
    · cases ih _ k1
  | repsMax h1 =>
    intro o' h'
    rcases m_reps.mp h' with ⟨-, rfl⟩ | ⟨k, -⟩
    · rfl
    · omega
  | repsMore h1 _ _ ih1 ih2 =>
    intro o' h'
    rcases m_reps.mp h' with ⟨k, -⟩ | ⟨-, ⟨c1, k1, k2⟩ | ⟨k1, -⟩⟩
    · omega
    · cases ih1 _ k1
      exact ih2 _ k2
    · cases ih1 _ k1
  | repsFew h1 _ h3 ih1 =>
    intro o' h'
    rcases m_reps.mp h' with ⟨k, -⟩ | ⟨-, ⟨c1, k1, k2⟩ | ⟨k1, ⟨-, rfl⟩ | ⟨k, -⟩⟩⟩
    · omega
    · cases ih1 _ k1
    · rfl
    · omega
  | repsStop h1 _ h3 ih1 =>
    intro o' h'
    rcases m_reps.mp h' with ⟨k, -⟩ | ⟨-, ⟨c1, k1, k2⟩ | ⟨k1, ⟨k, -⟩ | ⟨-, rfl⟩⟩⟩
    · omega
    · cases ih1 _ k1
    · omega
    · rfl

end Pest3.Gen
