import Verif.MeaningInv

/-!
# What each operator matches with which tokens, as equivalences
-/

namespace Pest3.Gen
open Pest3

/-- What is shown is what is matched. -/
theorem Shows.meaning {u : Unicode} {root : Module} {it : SItem} {c c' : Cfg} {F : List (Pair RuleVal)} (h : Shows u root it c c' F) :
    Meaning u root it c (some c') := by
  induction h with
  | literal _ h => exact h
  | builtin _ _ _ _ h => exact h
  | slice h => exact h
  | push h1 h2 _ ih => exact .pushOk h1 h2 ih
  | param h1 _ ih => exact .param h1 ih
  | rule h1 h2 h3 _ ih => exact .rule h1 h2 h3 ih
  | call h1 h2 h3 _ ih => exact .call h1 h2 h3 ih
  | pos h => exact h
  | neg h => exact h
  | seq _ h _ ih1 ih2 => exact .seq ih1 h ih2
  | choiceL _ ih => exact .choiceL ih
  | choiceR h _ ih => exact .choiceR h ih
  | optSome _ ih => exact .optSome ih
  | optNone h => exact .optNone h
  | rep h _ ih => exact .rep h ih
  | separated _ ih => exact .separated ih
  | unitFirst _ ih => exact .unitFirst ih
  | unitNext h _ ih => exact .unitNext h ih
  | repsMax h => exact .repsMax h
  | repsMore h _ _ ih1 ih2 => exact .repsMore h ih1 ih2
  | repsStop h1 h2 h3 => exact .repsStop h1 h2 h3

/-- The result with tokens: failure, or where the match ends and which tokens it has. -/
def Result (u : Unicode) (root : Module) (it : SItem) (c : Cfg) : Option (Cfg × List (Pair RuleVal)) → Prop
  | none => Meaning u root it c none
  | some (c', F) => Shows u root it c c' F

abbrev Toks := List (Pair RuleVal)

/-- Tokens before those of the result. -/
def after (F : Toks) (o : Option (Cfg × Toks)) : Option (Cfg × Toks) := o.map fun x => (x.1, F ++ x.2)

theorem after_nil (o : Option (Cfg × Toks)) : after [] o = o := by cases o <;> rfl

theorem after_after (F G : Toks) (o : Option (Cfg × Toks)) : after F (after G o) = after (F ++ G) o := by
  cases o with
  | none => rfl
  | some x => simp [after]

section
variable {u : Unicode} {root : Module} {p : List Name} {ρ : List (Name × Clo)} {c : Cfg} {o : Option (Cfg × Toks)}

theorem Result.meaning {it : SItem} (h : Result u root it c o) : Meaning u root it c (o.map Prod.fst) := by
  cases o with
  | none => exact h
  | some x => exact Shows.meaning h

theorem Result.of {it : SItem} {r : Option Cfg} (h : Meaning u root it c r) (ht : ∀ p t, it ≠ .trivia p t) : ∃ o, Result u root it c o ∧ r = o.map Prod.fst := by
  cases r with
  | none => exact ⟨none, h, rfl⟩
  | some c' =>
    obtain ⟨F, hF⟩ := meaning_shows h _ rfl ht
    exact ⟨some (c', F), hF, rfl⟩

theorem r_literal {e : Expr} {l : Leaf} (he : literal e = some l) : Result u root (.expr (.mk p ρ e)) c o ↔
    ∃ r, leafOut l c r ∧ o = r.map (·, []) := by
  constructor
  · intro h
    refine ⟨o.map Prod.fst, (m_literal he).mp h.meaning, ?_⟩
    cases o with
    | none => rfl
    | some x =>
      obtain ⟨c', F⟩ := x
      cases e <;> simp only [literal, reduceCtorEq] at he <;> cases h with
      | literal => rfl
      | builtin h1 => cases h1
      | rep h1 => cases h1
  · rintro ⟨r, h, rfl⟩
    have := (m_literal (u := u) (root := root) (p := p) (ρ := ρ) he).mpr h
    cases r with
    | none => exact this
    | some c' => exact .literal he this

theorem r_seq {l r : Expr} {t : Trivia} : Result u root (.expr (.mk p ρ (.seq l r t))) c o ↔
    (Result u root (.expr (.mk p ρ l)) c none ∧ o = none) ∨ ∃ c1 F, Result u root (.expr (.mk p ρ l)) c (some (c1, F)) ∧
      ((Meaning u root (.trivia p t) c1 none ∧ o = none) ∨ ∃ c2 o', Meaning u root (.trivia p t) c1 (some c2) ∧ Result u root (.expr (.mk p ρ r)) c2 o' ∧
        o = after F o') := by
  constructor
  · intro h
    cases o with
    | none =>
      rcases m_seq.mp h with ⟨h1, -⟩ | ⟨c1, h1, h2⟩
      · exact .inl ⟨h1, rfl⟩
      · obtain ⟨F, hF⟩ := meaning_shows h1 _ rfl (by simp)
        refine .inr ⟨c1, F, hF, ?_⟩
        rcases h2 with ⟨h2, -⟩ | ⟨c2, h2, h3⟩
        · exact .inl ⟨h2, rfl⟩
        · exact .inr ⟨c2, none, h2, h3, rfl⟩
    | some x =>
      obtain ⟨c', F⟩ := x
      cases h with
      | literal h1 => cases h1
      | builtin h1 => cases h1
      | rep h1 => cases h1
      | seq h1 h2 h3 => exact .inr ⟨_, _, h1, .inr ⟨_, some (_, _), h2, h3, rfl⟩⟩
  · rintro (⟨h1, rfl⟩ | ⟨c1, F, h1, ⟨h2, rfl⟩ | ⟨c2, o', h2, h3, rfl⟩⟩)
    · exact .seqFail h1
    · exact .seqTriviaFail (Shows.meaning h1) h2
    · cases o' with
      | none => exact .seq (Shows.meaning h1) h2 h3
      | some x => exact .seq h1 h2 h3

theorem r_choice {l r : Expr} : Result u root (.expr (.mk p ρ (.choice l r))) c o ↔
    (∃ x, Result u root (.expr (.mk p ρ l)) c (some x) ∧ o = some x) ∨ (Result u root (.expr (.mk p ρ l)) c none ∧ Result u root (.expr (.mk p ρ r)) c o) := by
  constructor
  · intro h
    cases o with
    | none =>
      rcases m_choice.mp h with ⟨c1, h1, k⟩ | ⟨h1, h2⟩
      · cases k
      · exact .inr ⟨h1, h2⟩
    | some x =>
      obtain ⟨c', F⟩ := x
      cases h with
      | literal h1 => cases h1
      | builtin h1 => cases h1
      | rep h1 => cases h1
      | choiceL h1 => exact .inl ⟨(c', F), h1, rfl⟩
      | choiceR h1 h2 => exact .inr ⟨h1, h2⟩
  · rintro (⟨x, h1, rfl⟩ | ⟨h1, h2⟩)
    · exact .choiceL h1
    · cases o with
      | none => exact .choiceR h1 h2
      | some x => exact .choiceR h1 h2

theorem r_opt {e : Expr} : Result u root (.expr (.mk p ρ (.opt e))) c o ↔
    (∃ x, Result u root (.expr (.mk p ρ e)) c (some x) ∧ o = some x) ∨ (Result u root (.expr (.mk p ρ e)) c none ∧ o = some (c, [])) := by
  constructor
  · intro h
    cases o with
    | none => rcases m_opt.mp h with ⟨c1, h1, k⟩ | ⟨h1, k⟩ <;> cases k
    | some x =>
      obtain ⟨c', F⟩ := x
      cases h with
      | literal h1 => cases h1
      | builtin h1 => cases h1
      | rep h1 => cases h1
      | optSome h1 => exact .inl ⟨(c', F), h1, rfl⟩
      | optNone h1 => exact .inr ⟨h1, rfl⟩
  · rintro (⟨x, h1, rfl⟩ | ⟨h1, rfl⟩)
    · exact .optSome h1
    · exact .optNone h1

theorem r_pos {e : Expr} : Result u root (.expr (.mk p ρ (.pos e))) c o ↔
    (∃ x, Result u root (.expr (.mk p ρ e)) c (some x) ∧ o = some (c, [])) ∨ (Result u root (.expr (.mk p ρ e)) c none ∧ o = none) := by
  constructor
  · intro h
    have hm := h.meaning
    rcases m_pos.mp hm with ⟨c1, h1, k⟩ | ⟨h1, k⟩
    · obtain ⟨F, hF⟩ := meaning_shows h1 _ rfl (by simp)
      cases o with
      | none => cases k
      | some x =>
        obtain ⟨c', G⟩ := x
        cases k
        refine .inl ⟨(c1, F), hF, ?_⟩
        cases h with
        | literal k => cases k
        | builtin k => cases k
        | rep k => cases k
        | pos => rfl
    · cases o with
      | none => exact .inr ⟨h1, rfl⟩
      | some x => cases k
  · rintro (⟨x, h1, rfl⟩ | ⟨h1, rfl⟩)
    · exact .pos (.posOk (Shows.meaning h1))
    · exact .posFail h1

theorem r_neg {e : Expr} : Result u root (.expr (.mk p ρ (.neg e))) c o ↔
    (∃ x, Result u root (.expr (.mk p ρ e)) c (some x) ∧ o = none) ∨ (Result u root (.expr (.mk p ρ e)) c none ∧ o = some (c, [])) := by
  constructor
  · intro h
    have hm := h.meaning
    rcases m_neg.mp hm with ⟨c1, h1, k⟩ | ⟨h1, k⟩
    · obtain ⟨F, hF⟩ := meaning_shows h1 _ rfl (by simp)
      cases o with
      | none => exact .inl ⟨(c1, F), hF, rfl⟩
      | some x => cases k
    · cases o with
      | none => cases k
      | some x =>
        obtain ⟨c', G⟩ := x
        cases k
        refine .inr ⟨h1, ?_⟩
        cases h with
        | literal k => cases k
        | builtin k => cases k
        | rep k => cases k
        | neg => rfl
  · rintro (⟨x, h1, rfl⟩ | ⟨h1, rfl⟩)
    · exact .negFail (Shows.meaning h1)
    · exact .neg (.negOk h1)

theorem r_separated {e : Expr} {t : Trivia} : Result u root (.expr (.mk p ρ (.separated e t))) c o ↔ Result u root (.expr (.mk p ρ e)) c o := by
  cases o with
  | none => exact m_separated
  | some x =>
    obtain ⟨c', F⟩ := x
    constructor
    · intro h
      cases h with
      | literal h1 => cases h1
      | builtin h1 => cases h1
      | rep h1 => cases h1
      | separated h => exact h
    · exact .separated

theorem r_rep {e e' : Expr} {min max : Nat} (he : repetition e = some (e', min, max)) : Result u root (.expr (.mk p ρ e)) c o ↔
    Result u root (.reps (.mk p ρ e') p (sepTrivia e') min max 0) c o := by
  cases o with
  | none => exact m_rep he
  | some x =>
    obtain ⟨c', F⟩ := x
    constructor
    · intro h
      cases e <;> simp only [repetition, reduceCtorEq] at he <;> cases h with
      | literal h1 => cases h1
      | builtin h1 => cases h1
      | rep h1 h2 => cases he; cases h1; exact h2
    · exact .rep he

theorem r_unit0 {e : Clo} {t : Trivia} : Result u root (.unit e p t 0) c o ↔ Result u root (.expr e) c o := by
  cases o with
  | none => exact m_unit0
  | some x =>
    constructor
    · intro h; cases h with | unitFirst h => exact h
    · exact .unitFirst

theorem r_unitS {e : Clo} {t : Trivia} {i : Nat} : Result u root (.unit e p t (i + 1)) c o ↔
    (Meaning u root (.trivia p t) c none ∧ o = none) ∨ ∃ c1, Meaning u root (.trivia p t) c (some c1) ∧ Result u root (.expr e) c1 o := by
  cases o with
  | none => simpa [Result] using m_unitS (o := none)
  | some x =>
    constructor
    · intro h; cases h with | unitNext h1 h2 => exact .inr ⟨_, h1, h2⟩
    · rintro (⟨_, h⟩ | ⟨c1, h1, h2⟩)
      · cases h
      · exact .unitNext h1 h2

theorem r_reps {e : Clo} {t : Trivia} {min max i : Nat} : Result u root (.reps e p t min max i) c o ↔
    (max ≤ i ∧ o = some (c, [])) ∨ i < max ∧ ((∃ c1 F o', Result u root (.unit e p t i) c (some (c1, F)) ∧ Result u root (.reps e p t min max (i + 1)) c1 o' ∧ o = after F o') ∨
      (Result u root (.unit e p t i) c none ∧ ((i < min ∧ o = none) ∨ (min ≤ i ∧ o = some (c, []))))) := by
  constructor
  · intro h
    cases o with
    | none =>
      rcases m_reps.mp h with ⟨-, k⟩ | ⟨h1, ⟨c1, h2, h3⟩ | ⟨h2, h3⟩⟩
      · cases k
      · obtain ⟨F, hF⟩ := meaning_shows h2 _ rfl (by simp)
        exact .inr ⟨h1, .inl ⟨c1, F, none, hF, h3, rfl⟩⟩
      · rcases h3 with ⟨h3, -⟩ | ⟨h3, k⟩
        · exact .inr ⟨h1, .inr ⟨h2, .inl ⟨h3, rfl⟩⟩⟩
        · cases k
    | some x =>
      obtain ⟨c', F⟩ := x
      cases h with
      | repsMax h1 => exact .inl ⟨h1, rfl⟩
      | repsMore h1 h2 h3 => exact .inr ⟨h1, .inl ⟨_, _, some (_, _), h2, h3, rfl⟩⟩
      | repsStop h1 h2 h3 => exact .inr ⟨h1, .inr ⟨h2, .inr ⟨h3, rfl⟩⟩⟩
  · rintro (⟨h1, rfl⟩ | ⟨h1, ⟨c1, F, o', h2, h3, rfl⟩ | ⟨h2, ⟨h3, rfl⟩ | ⟨h3, rfl⟩⟩⟩)
    · exact .repsMax h1
    · cases o' with
      | none => exact .repsMore h1 (Shows.meaning h2) h3
      | some x => exact .repsMore h1 h2 h3
    · exact .repsFew h1 h2 h3
    · exact .repsStop h1 h2 h3

theorem r_slice {q : List Name} {range : Meta.MetaRange Int} : Result u root (.expr (.mk p ρ (.slice q range))) c o ↔
    NotParam ρ q ∧ target u root p q = some (.builtin peekPath) ∧ ∃ r, leafOut (match range.stop with
        | some b => Leaf.slice2 (range.start.getD 0) b
        | none => Leaf.slice1 (range.start.getD 0)) c r ∧ o = r.map (·, []) := by
  constructor
  · intro h
    obtain ⟨h1, h2, h3⟩ := m_slice.mp h.meaning
    refine ⟨h1, h2, _, h3, ?_⟩
    cases o with
    | none => rfl
    | some x =>
      obtain ⟨c', F⟩ := x
      cases h with
      | literal h1 => cases h1
      | builtin h1 => cases h1
      | rep h1 => cases h1
      | slice => rfl
  · rintro ⟨h1, h2, r, h3, rfl⟩
    have := m_slice.mpr ⟨h1, h2, h3⟩
    cases r with
    | none => exact this
    | some c' => exact .slice this

/-- The result of applying a rule. -/
def within (p : List Name) (r : Rule) (c : Cfg) (o : Option (Cfg × Toks)) : Option (Cfg × Toks) := o.map fun x => (x.1, tokens p r c x.1 x.2)

theorem r_path {q : List Name} : Result u root (.expr (.mk p ρ (.path q))) c o ↔
    (∃ x e, q = [x] ∧ lookupClo x ρ = some e ∧ Result u root (.expr e) c o) ∨ (NotParam ρ q ∧
      ((∃ full l r, target u root p q = some (.builtin full) ∧ builtinLeaf u full = some l ∧ leafOut l c r ∧ o = r.map (·, [])) ∨
        ∃ p' r o', target u root p q = some (.rule p' r) ∧ r.args = [] ∧ Result u root (.expr (.mk p' [] r.node)) c o' ∧ o = within p' r c o')) := by
  constructor
  · intro h
    cases o with
    | none =>
      rcases m_path.mp h with ⟨x, e, h0, h1, h2⟩ | ⟨h1, ⟨full, l, h2, h3, h4⟩ | ⟨p', r, h2, h3, h4⟩⟩
      · exact .inl ⟨x, e, h0, h1, h2⟩
      · exact .inr ⟨h1, .inl ⟨full, l, none, h2, h3, h4, rfl⟩⟩
      · exact .inr ⟨h1, .inr ⟨p', r, none, h2, h3, h4, rfl⟩⟩
    | some x =>
      obtain ⟨c', F⟩ := x
      cases h with
      | literal h1 => cases h1
      | builtin h1 h2 h3 h4 h5 => cases h1; exact .inr ⟨h2, .inl ⟨_, _, some c', h3, h4, builtin_out rfl h2 h3 h4 h5, rfl⟩⟩
      | rep h1 => cases h1
      | param h1 h2 => exact .inl ⟨_, _, rfl, h1, h2⟩
      | rule h1 h2 h3 h4 => exact .inr ⟨h1, .inr ⟨_, _, some (_, _), h2, h3, h4, rfl⟩⟩
  · rintro (⟨x, e, rfl, h1, h2⟩ | ⟨h1, ⟨full, l, r, h2, h3, h4, rfl⟩ | ⟨p', r, o', h2, h3, h4, rfl⟩⟩)
    · cases o with
      | none => exact .param h1 h2
      | some x => exact .param h1 h2
    · have := m_path.mpr (.inr ⟨h1, .inl ⟨full, l, h2, h3, h4⟩⟩)
      cases r with
      | none => exact this
      | some c' => exact .builtin rfl h1 h2 h3 this
    · cases o' with
      | none => exact .rule h1 h2 h3 h4
      | some x => exact .rule h1 h2 h3 h4

/-- The result of `push`, with tokens. -/
def pushOutT (c : Cfg) (o o' : Option (Cfg × Toks)) : Prop :=
  (∃ m rest stk F, o = some (⟨c.pre ++ m, rest, stk⟩, F) ∧ o' = some (⟨c.pre ++ m, rest, stk ++ [m]⟩, F)) ∨ (o = none ∧ o' = none)

theorem r_call {q : List Name} {args : List Expr} : Result u root (.expr (.mk p ρ (.call q args))) c o ↔ NotParam ρ q ∧
    ((∃ full l r, args = [] ∧ target u root p q = some (.builtin full) ∧ builtinLeaf u full = some l ∧ leafOut l c r ∧ o = r.map (·, [])) ∨
      (∃ e o', args = [e] ∧ target u root p q = some (.builtin pushPath) ∧ Result u root (.expr (.mk p ρ e)) c o' ∧ pushOutT c o' o) ∨
      ∃ p' r o', target u root p q = some (.rule p' r) ∧ r.args.length = args.length ∧
        Result u root (.expr (.mk p' (r.args.zip (args.map (Clo.mk p ρ))) r.node)) c o' ∧ o = within p' r c o') := by
  constructor
  · intro h
    cases o with
    | none =>
      obtain ⟨h1, ⟨full, l, h0, h2, h3, h4⟩ | ⟨e, o', h0, h2, h3, ⟨m, rest, stk, -, k⟩ | ⟨rfl, -⟩⟩ | ⟨p', r, h2, h3, h4⟩⟩ := m_call.mp h
      · exact ⟨h1, .inl ⟨full, l, none, h0, h2, h3, h4, rfl⟩⟩
      · cases k
      · exact ⟨h1, .inr (.inl ⟨e, none, h0, h2, h3, .inr ⟨rfl, rfl⟩⟩)⟩
      · exact ⟨h1, .inr (.inr ⟨p', r, none, h2, h3, h4, rfl⟩)⟩
    | some x =>
      obtain ⟨c', F⟩ := x
      cases h with
      | literal h1 => cases h1
      | builtin h1 h2 h3 h4 h5 =>
        cases args with
        | nil => cases h1; exact ⟨h2, .inl ⟨_, _, some c', rfl, h3, h4, builtin_out rfl h2 h3 h4 h5, rfl⟩⟩
        | cons => cases h1
      | rep h1 => cases h1
      | push h1 h2 h3 => exact ⟨h1, .inr (.inl ⟨_, some (_, _), rfl, h2, h3, .inl ⟨_, _, _, _, rfl, rfl⟩⟩)⟩
      | call h1 h2 h3 h4 => exact ⟨h1, .inr (.inr ⟨_, _, some (_, _), h2, h3, h4, rfl⟩)⟩
  · rintro ⟨h1, ⟨full, l, r, rfl, h2, h3, h4, rfl⟩ | ⟨e, o', rfl, h2, h3, ⟨m, rest, stk, F, rfl, rfl⟩ | ⟨rfl, rfl⟩⟩ | ⟨p', r, o', h2, h3, h4, rfl⟩⟩
    · have := m_call.mpr ⟨h1, .inl ⟨full, l, rfl, h2, h3, h4⟩⟩
      cases r with
      | none => exact this
      | some c' => exact .builtin rfl h1 h2 h3 this
    · exact .push h1 h2 h3
    · exact .pushFail h1 h2 h3
    · cases o' with
      | none => exact .call h1 h2 h3 h4
      | some x => exact .call h1 h2 h3 h4

end

theorem Shows.det {u : Unicode} {root : Module} {it : SItem} {c c' : Cfg} {F : Toks} (h : Shows u root it c c' F) :
    ∀ o, Result u root it c o → o = some (c', F) := by
  have clash : ∀ {it : SItem} {c c' : Cfg}, Meaning u root it c (some c') → Meaning u root it c none → False := fun h h' => by cases h.det _ h'
  induction h with
  | literal h1 h2 =>
    intro o h'
    obtain ⟨r, k, rfl⟩ := (r_literal h1).mp h'
    rw [← h2.det _ ((m_literal h1).mpr k)]
    rfl
  | builtin h1 h2 h3 h4 h5 =>
    intro o h'
    have k := builtin_out h1 h2 h3 h4 h5
    rcases plainRef_cases h1 with rfl | rfl
    · rcases r_path.mp h' with ⟨x, e, rfl, k1, -⟩ | ⟨-, ⟨full', l', r, k1, k2, k3, rfl⟩ | ⟨p', r, o', k1, -⟩⟩
      · exact (h2.lookup k1).elim
      · rw [h3] at k1; cases k1
        rw [h4] at k2; cases k2
        rw [← leafOut_det k k3]; rfl
      · rw [h3] at k1; cases k1
    · obtain ⟨-, ⟨full', l', r, -, k1, k2, k3, rfl⟩ | ⟨e, o'', k0, -⟩ | ⟨p', r, o', k1, -⟩⟩ := r_call.mp h'
      · rw [h3] at k1; cases k1
        rw [h4] at k2; cases k2
        rw [← leafOut_det k k3]; rfl
      · cases k0
      · rw [h3] at k1; cases k1
  | slice h =>
    intro o h'
    obtain ⟨-, -, k⟩ := m_slice.mp h
    obtain ⟨-, -, r, k', rfl⟩ := r_slice.mp h'
    rw [← leafOut_det k k']; rfl
  | push h1 h2 _ ih =>
    intro o h'
    obtain ⟨-, ⟨full', l', r, k0, -⟩ | ⟨e, o'', k0, -, k1, k2⟩ | ⟨p', r, o', k1, -⟩⟩ := r_call.mp h'
    · cases k0
    · cases k0
      cases ih _ k1
      rcases k2 with ⟨m, rest, stk, F, k2, rfl⟩ | ⟨k2, -⟩
      · simp only [Option.some.injEq, Prod.mk.injEq, Cfg.mk.injEq, List.append_cancel_left_eq] at k2
        obtain ⟨⟨rfl, rfl, rfl⟩, rfl⟩ := k2
        rfl
      · cases k2
    · rw [h2] at k1; cases k1
  | param h1 _ ih =>
    intro o h'
    rcases r_path.mp h' with ⟨x, e, k0, k1, k2⟩ | ⟨k1, -⟩
    · cases k0
      rw [h1] at k1; cases k1
      exact ih _ k2
    · exact (k1.lookup h1).elim
  | rule h1 h2 h3 _ ih =>
    intro o h'
    rcases r_path.mp h' with ⟨x, e, rfl, k1, -⟩ | ⟨-, ⟨full', l', r, k1, -⟩ | ⟨p', r, o', k1, -, k2, rfl⟩⟩
    · exact (h1.lookup k1).elim
    · rw [h2] at k1; cases k1
    · rw [h2] at k1; cases k1
      rw [ih _ k2]; rfl
  | call h1 h2 h3 _ ih =>
    intro o h'
    obtain ⟨-, ⟨full', l', r, -, k1, -⟩ | ⟨e, o'', -, k1, -⟩ | ⟨p', r, o', k1, -, k2, rfl⟩⟩ := r_call.mp h'
    · rw [h2] at k1; cases k1
    · rw [h2] at k1; cases k1
    · rw [h2] at k1; cases k1
      rw [ih _ k2]; rfl
  | pos h =>
    intro o h'
    rcases r_pos.mp h' with ⟨x, -, rfl⟩ | ⟨k, -⟩
    · rcases m_pos.mp h with ⟨_, -, k⟩ | ⟨-, k⟩
      · cases k; rfl
      · cases k
    · exact (clash h (.posFail k)).elim
  | neg h =>
    intro o h'
    rcases r_neg.mp h' with ⟨x, k, -⟩ | ⟨k, rfl⟩
    · exact (clash h (.negFail (Shows.meaning k))).elim
    · rcases m_neg.mp h with ⟨_, -, k⟩ | ⟨-, k⟩
      · cases k
      · cases k; rfl
  | seq h1 h2 h3 ih1 ih2 =>
    intro o h'
    rcases r_seq.mp h' with ⟨k1, -⟩ | ⟨c1, F, k1, ⟨k2, -⟩ | ⟨c2, o', k2, k3, rfl⟩⟩
    · cases ih1 _ k1
    · cases ih1 _ k1
      exact (clash h2 k2).elim
    · cases ih1 _ k1
      cases h2.det _ k2
      rw [ih2 _ k3]; rfl
  | choiceL _ ih =>
    intro o h'
    rcases r_choice.mp h' with ⟨x, k, rfl⟩ | ⟨k, -⟩
    · exact ih _ k
    · cases ih _ k
  | choiceR h1 _ ih =>
    intro o h'
    rcases r_choice.mp h' with ⟨x, k, rfl⟩ | ⟨-, k⟩
    · exact (clash (Shows.meaning k) h1).elim
    · exact ih _ k
  | optSome _ ih =>
    intro o h'
    rcases r_opt.mp h' with ⟨x, k, rfl⟩ | ⟨k, -⟩
    · exact ih _ k
    · cases ih _ k
  | optNone h1 =>
    intro o h'
    rcases r_opt.mp h' with ⟨x, k, rfl⟩ | ⟨-, rfl⟩
    · exact (clash (Shows.meaning k) h1).elim
    · rfl
  | rep h1 _ ih => intro o h'; exact ih _ ((r_rep h1).mp h')
  | separated _ ih => intro o h'; exact ih _ (r_separated.mp h')
  | unitFirst _ ih => intro o h'; exact ih _ (r_unit0.mp h')
  | unitNext h1 _ ih =>
    intro o h'
    rcases r_unitS.mp h' with ⟨k, -⟩ | ⟨c1, k1, k2⟩
    · exact (clash h1 k).elim
    · cases h1.det _ k1
      exact ih _ k2
  | repsMax h1 =>
    intro o h'
    rcases r_reps.mp h' with ⟨-, rfl⟩ | ⟨k, -⟩
    · rfl
    · omega
  | repsMore h1 _ _ ih1 ih2 =>
    intro o h'
    rcases r_reps.mp h' with ⟨k, -⟩ | ⟨-, ⟨c1, F, o', k1, k2, rfl⟩ | ⟨k1, -⟩⟩
    · omega
    · cases ih1 _ k1
      rw [ih2 _ k2]; rfl
    · cases ih1 _ k1
  | repsStop h1 h2 h3 =>
    intro o h'
    rcases r_reps.mp h' with ⟨k, -⟩ | ⟨-, ⟨c1, F, o', k1, k2, rfl⟩ | ⟨k1, ⟨k, -⟩ | ⟨-, rfl⟩⟩⟩
    · omega
    · exact (clash (Shows.meaning k1) h2).elim
    · omega
    · rfl

/-- What an expression matches and which tokens this has is determined. -/
theorem Result.det {u : Unicode} {root : Module} {it : SItem} {c : Cfg} {o o' : Option (Cfg × Toks)} (h : Result u root it c o) (h' : Result u root it c o') :
    o = o' := by
  cases o with
  | some x => exact (Shows.det h _ h').symm
  | none => cases o' with
    | some x => exact Shows.det h' _ h
    | none => rfl

end Pest3.Gen
