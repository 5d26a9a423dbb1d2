import Verif.RewriteSpec
import Verif.ShowsInv

namespace Pest3.Gen
open Pest3

/-! ## Doing the same -/

section
variable {u : Unicode} {root : Module} {p ps : List Name} {e e' e'' : Expr}

theorem sameAt_iff : SameAt u root p ps e e' ↔ sepTrivia e = sepTrivia e' ∧
    ∀ ρ, ρ.map Prod.fst = ps → ∀ c o, Result u root (.expr (.mk p ρ e)) c o ↔ Result u root (.expr (.mk p ρ e')) c o := by
  constructor
  · rintro ⟨⟨h0, h1⟩, h2⟩
    refine ⟨h0, fun ρ hρ c o => ?_⟩
    cases o with
    | none => exact h1 ρ hρ c none
    | some x => exact h2 ρ hρ c _ _
  · rintro ⟨h0, h1⟩
    refine ⟨⟨h0, fun ρ hρ c o => ⟨fun h => ?_, fun h => ?_⟩⟩, fun ρ hρ c c' F => h1 ρ hρ c (some (c', F))⟩
    · obtain ⟨o', k, rfl⟩ := Result.of h (by simp)
      exact ((h1 ρ hρ c o').mp k).meaning
    · obtain ⟨o', k, rfl⟩ := Result.of h (by simp)
      exact ((h1 ρ hρ c o').mpr k).meaning

theorem AgreesAt.refl : AgreesAt u root p ps e e := ⟨rfl, fun _ _ _ _ => .rfl⟩
theorem AgreesAt.symm (h : AgreesAt u root p ps e e') : AgreesAt u root p ps e' e := ⟨h.1.symm, fun ρ hρ c o => (h.2 ρ hρ c o).symm⟩
theorem AgreesAt.trans (h : AgreesAt u root p ps e e') (h' : AgreesAt u root p ps e' e'') : AgreesAt u root p ps e e'' :=
  ⟨h.1.trans h'.1, fun ρ hρ c o => (h.2 ρ hρ c o).trans (h'.2 ρ hρ c o)⟩
theorem SameAt.refl : SameAt u root p ps e e := ⟨.refl, fun _ _ _ _ _ => .rfl⟩
theorem SameAt.symm (h : SameAt u root p ps e e') : SameAt u root p ps e' e := ⟨h.1.symm, fun ρ hρ c c' F => (h.2 ρ hρ c c' F).symm⟩
theorem SameAt.trans (h : SameAt u root p ps e e') (h' : SameAt u root p ps e' e'') : SameAt u root p ps e e'' :=
  ⟨h.1.trans h'.1, fun ρ hρ c c' F => (h.2 ρ hρ c c' F).trans (h'.2 ρ hρ c c' F)⟩

/-! ## Operators -/

theorem sepTrivia_rep {z : Expr} {w : Expr × Nat × Nat} (h : Gen.repetition z = some w) : sepTrivia z = .none := by
  cases z <;> first | rfl | cases h

theorem m_reps_congr {a b : Clo} (h : ∀ c o, Meaning u root (.expr a) c o ↔ Meaning u root (.expr b) c o) (t : Trivia) (min max : Nat) :
    ∀ n i c o, max ≤ i + n → (Meaning u root (.reps a p t min max i) c o ↔ Meaning u root (.reps b p t min max i) c o) := by
  intro n
  induction n with
  | zero =>
    intro i c o hn
    rw [m_reps, m_reps]
    constructor <;> rintro (h | ⟨h, -⟩) <;> first | exact .inl h | omega
  | succ n ih =>
    intro i c o hn
    have hu : ∀ c o, Meaning u root (.unit a p t i) c o ↔ Meaning u root (.unit b p t i) c o := by
      intro c o
      cases i with
      | zero => rw [m_unit0, m_unit0]; exact h c o
      | succ i => simp only [m_unitS, h]
    have hr : ∀ c o, Meaning u root (.reps a p t min max (i + 1)) c o ↔ Meaning u root (.reps b p t min max (i + 1)) c o := fun c o => ih _ c o (by omega)
    rw [m_reps, m_reps]
    simp only [hu, hr]

theorem r_reps_congr {a b : Clo} (h : ∀ c o, Result u root (.expr a) c o ↔ Result u root (.expr b) c o) (t : Trivia) (min max : Nat) :
    ∀ n i c o, max ≤ i + n → (Result u root (.reps a p t min max i) c o ↔ Result u root (.reps b p t min max i) c o) := by
  intro n
  induction n with
  | zero =>
    intro i c o hn
    rw [r_reps, r_reps]
    constructor <;> rintro (h | ⟨h, -⟩) <;> first | exact .inl h | omega
  | succ n ih =>
    intro i c o hn
    have hu : ∀ c o, Result u root (.unit a p t i) c o ↔ Result u root (.unit b p t i) c o := by
      intro c o
      cases i with
      | zero => rw [r_unit0, r_unit0]; exact h c o
      | succ i => simp only [r_unitS, h]
    have hr : ∀ c o, Result u root (.reps a p t min max (i + 1)) c o ↔ Result u root (.reps b p t min max (i + 1)) c o := fun c o => ih _ c o (by omega)
    rw [r_reps, r_reps]
    simp only [hu, hr]

variable {x x' y y' : Expr}

theorem AgreesAt.seq (h : AgreesAt u root p ps x x') (k : AgreesAt u root p ps y y') (t : Trivia) : AgreesAt u root p ps (.seq x y t) (.seq x' y' t) :=
  ⟨rfl, fun ρ hρ c o => by simp only [m_seq, h.2 ρ hρ, k.2 ρ hρ]⟩
theorem AgreesAt.choice (h : AgreesAt u root p ps x x') (k : AgreesAt u root p ps y y') : AgreesAt u root p ps (.choice x y) (.choice x' y') :=
  ⟨rfl, fun ρ hρ c o => by simp only [m_choice, h.2 ρ hρ, k.2 ρ hρ]⟩
theorem AgreesAt.opt (h : AgreesAt u root p ps x x') : AgreesAt u root p ps (.opt x) (.opt x') :=
  ⟨rfl, fun ρ hρ c o => by simp only [m_opt, h.2 ρ hρ]⟩
theorem AgreesAt.pos (h : AgreesAt u root p ps x x') : AgreesAt u root p ps (.pos x) (.pos x') :=
  ⟨rfl, fun ρ hρ c o => by simp only [m_pos, h.2 ρ hρ]⟩
theorem AgreesAt.neg (h : AgreesAt u root p ps x x') : AgreesAt u root p ps (.neg x) (.neg x') :=
  ⟨rfl, fun ρ hρ c o => by simp only [m_neg, h.2 ρ hρ]⟩
theorem AgreesAt.separated (h : AgreesAt u root p ps x x') (t : Trivia) : AgreesAt u root p ps (.separated x t) (.separated x' t) :=
  ⟨rfl, fun ρ hρ c o => by simp only [m_separated, h.2 ρ hρ]⟩
theorem AgreesAt.repetition (h : AgreesAt u root p ps x x') {z z' : Expr} {min max : Nat} (hz : Gen.repetition z = some (x, min, max))
    (hz' : Gen.repetition z' = some (x', min, max)) : AgreesAt u root p ps z z' := by
  refine ⟨?_, fun ρ hρ c o => ?_⟩
  · rw [sepTrivia_rep hz, sepTrivia_rep hz']
  · rw [m_rep hz, m_rep hz', h.1]
    exact m_reps_congr (h.2 ρ hρ) _ _ _ max 0 c o (by omega)
theorem AgreesAt.rep (h : AgreesAt u root p ps x x') : AgreesAt u root p ps (.rep x) (.rep x') := h.repetition rfl rfl
theorem AgreesAt.repOnce (h : AgreesAt u root p ps x x') : AgreesAt u root p ps (.repOnce x) (.repOnce x') := h.repetition rfl rfl
theorem AgreesAt.repRange (h : AgreesAt u root p ps x x') (r : Meta.MetaRange Nat) : AgreesAt u root p ps (.repRange x r) (.repRange x' r) := h.repetition rfl rfl

theorem SameAt.sep (h : SameAt u root p ps x x') : sepTrivia x = sepTrivia x' := h.1.1
theorem SameAt.result (h : SameAt u root p ps x x') {ρ : List (Name × Clo)} (hρ : ρ.map Prod.fst = ps) (c : Cfg) (o : Option (Cfg × Toks)) :
    Result u root (.expr (.mk p ρ x)) c o ↔ Result u root (.expr (.mk p ρ x')) c o := (sameAt_iff.mp h).2 ρ hρ c o

theorem SameAt.seq (h : SameAt u root p ps x x') (k : SameAt u root p ps y y') (t : Trivia) : SameAt u root p ps (.seq x y t) (.seq x' y' t) :=
  sameAt_iff.mpr ⟨rfl, fun ρ hρ c o => by simp only [r_seq, h.result hρ, k.result hρ]⟩
theorem SameAt.choice (h : SameAt u root p ps x x') (k : SameAt u root p ps y y') : SameAt u root p ps (.choice x y) (.choice x' y') :=
  sameAt_iff.mpr ⟨rfl, fun ρ hρ c o => by simp only [r_choice, h.result hρ, k.result hρ]⟩
theorem SameAt.opt (h : SameAt u root p ps x x') : SameAt u root p ps (.opt x) (.opt x') :=
  sameAt_iff.mpr ⟨rfl, fun ρ hρ c o => by simp only [r_opt, h.result hρ]⟩
theorem SameAt.pos (h : SameAt u root p ps x x') : SameAt u root p ps (.pos x) (.pos x') :=
  sameAt_iff.mpr ⟨rfl, fun ρ hρ c o => by simp only [r_pos, h.result hρ]⟩
theorem SameAt.neg (h : SameAt u root p ps x x') : SameAt u root p ps (.neg x) (.neg x') :=
  sameAt_iff.mpr ⟨rfl, fun ρ hρ c o => by simp only [r_neg, h.result hρ]⟩
theorem SameAt.separated (h : SameAt u root p ps x x') (t : Trivia) : SameAt u root p ps (.separated x t) (.separated x' t) :=
  sameAt_iff.mpr ⟨rfl, fun ρ hρ c o => by simp only [r_separated, h.result hρ]⟩
theorem SameAt.repetition (h : SameAt u root p ps x x') {z z' : Expr} {min max : Nat} (hz : Gen.repetition z = some (x, min, max))
    (hz' : Gen.repetition z' = some (x', min, max)) : SameAt u root p ps z z' := by
  refine sameAt_iff.mpr ⟨?_, fun ρ hρ c o => ?_⟩
  · rw [sepTrivia_rep hz, sepTrivia_rep hz']
  · rw [r_rep hz, r_rep hz', h.sep]
    exact r_reps_congr (h.result hρ) _ _ _ max 0 c o (by omega)
theorem SameAt.rep (h : SameAt u root p ps x x') : SameAt u root p ps (.rep x) (.rep x') := h.repetition rfl rfl
theorem SameAt.repOnce (h : SameAt u root p ps x x') : SameAt u root p ps (.repOnce x) (.repOnce x') := h.repetition rfl rfl
theorem SameAt.repRange (h : SameAt u root p ps x x') (r : Meta.MetaRange Nat) : SameAt u root p ps (.repRange x r) (.repRange x' r) := h.repetition rfl rfl

end

/-! ## Arguments -/

mutual
/-- Closures that are the same up to closures in them that are related by `S`. -/
inductive CloLe (S : Clo → Clo → Prop) : Clo → Clo → Prop
  | same {a b} : S a b → CloLe S a b
  | mk {p ρ ρ' e} : EnvLe S ρ ρ' → CloLe S (.mk p ρ e) (.mk p ρ' e)
inductive EnvLe (S : Clo → Clo → Prop) : List (Name × Clo) → List (Name × Clo) → Prop
  | nil : EnvLe S [] []
  | cons {x a b ρ ρ'} : CloLe S a b → EnvLe S ρ ρ' → EnvLe S ((x, a) :: ρ) ((x, b) :: ρ')
end

section
variable {S : Clo → Clo → Prop}

theorem EnvLe.lookup {ρ ρ' : List (Name × Clo)} (h : EnvLe S ρ ρ') (x : Name) :
    (lookupClo x ρ = none ∧ lookupClo x ρ' = none) ∨ ∃ a b, lookupClo x ρ = some a ∧ lookupClo x ρ' = some b ∧ CloLe S a b := by
  induction ρ generalizing ρ' with
  | nil => cases h; exact .inl ⟨rfl, rfl⟩
  | cons z ρ ih =>
    cases h with
    | @cons y a b _ ρ' h1 h2 =>
      by_cases hy : y = x
      · exact .inr ⟨a, b, by simp [lookupClo, hy], by simp [lookupClo, hy], h1⟩
      · simpa [lookupClo, hy] using ih h2

theorem EnvLe.notParam {ρ ρ' : List (Name × Clo)} (h : EnvLe S ρ ρ') {q : List Name} (hq : NotParam ρ q) : NotParam ρ' q := by
  intro x hx
  rcases h.lookup x with ⟨-, h⟩ | ⟨a, b, h1, -⟩
  · exact h
  · rw [hq x hx] at h1; cases h1

theorem EnvLe.param {ρ ρ' : List (Name × Clo)} (h : EnvLe S ρ ρ') {x : Name} {a : Clo} (hx : lookupClo x ρ = some a) : ∃ b, lookupClo x ρ' = some b ∧ CloLe S a b := by
  rcases h.lookup x with ⟨h1, -⟩ | ⟨a', b, h1, h2, h3⟩
  · rw [hx] at h1; cases h1
  · rw [hx] at h1; cases h1
    exact ⟨b, h2, h3⟩

theorem EnvLe.zip {p : List Name} {ρ ρ' : List (Name × Clo)} (h : EnvLe S ρ ρ') (names : List Name) (args : List Expr) :
    EnvLe S (names.zip (args.map (Clo.mk p ρ))) (names.zip (args.map (Clo.mk p ρ'))) := by
  induction names generalizing args with
  | nil => exact .nil
  | cons x names ih => cases args with
    | nil => exact .nil
    | cons e args => exact .cons (.mk h) (ih args)

/-- Items with such closures. -/
inductive ItemLe (S : Clo → Clo → Prop) : SItem → SItem → Prop
  | expr {a b} : CloLe S a b → ItemLe S (.expr a) (.expr b)
  | trivia {p t} : ItemLe S (.trivia p t) (.trivia p t)
  | unit {a b p t i} : CloLe S a b → ItemLe S (.unit a p t i) (.unit b p t i)
  | reps {a b p t min max i} : CloLe S a b → ItemLe S (.reps a p t min max i) (.reps b p t min max i)

variable {u : Unicode} {root : Module}

theorem meaning_le (hS : ∀ a b, S a b → ∀ c o, Meaning u root (.expr a) c o → Meaning u root (.expr b) c o) {it : SItem} {c : Cfg} {o : Option Cfg}
    (h : Meaning u root it c o) : ∀ it', ItemLe S it it' → Meaning u root it' c o := by
  induction h with
  | literalOk h1 h2 h3 =>
    rintro _ (h | _); cases h with
    | same h => exact hS _ _ h _ _ (.literalOk h1 h2 h3)
    | mk h => exact .literalOk h1 h2 h3
  | literalFail h1 h2 =>
    rintro _ (h | _); cases h with
    | same h => exact hS _ _ h _ _ (.literalFail h1 h2)
    | mk h => exact .literalFail h1 h2
  | builtinOk h1 h2 h3 h4 h5 h6 =>
    rintro _ (h | _); cases h with
    | same h => exact hS _ _ h _ _ (.builtinOk h1 h2 h3 h4 h5 h6)
    | mk h => exact .builtinOk h1 (h.notParam h2) h3 h4 h5 h6
  | builtinFail h1 h2 h3 h4 h5 =>
    rintro _ (h | _); cases h with
    | same h => exact hS _ _ h _ _ (.builtinFail h1 h2 h3 h4 h5)
    | mk h => exact .builtinFail h1 (h.notParam h2) h3 h4 h5
  | sliceOk h1 h2 h3 h4 h5 =>
    rintro _ (h | _); cases h with
    | same h => exact hS _ _ h _ _ (.sliceOk h1 h2 h3 h4 h5)
    | mk h => exact .sliceOk (h.notParam h1) h2 h3 h4 h5
  | sliceFail h1 h2 h3 h4 =>
    rintro _ (h | _); cases h with
    | same h => exact hS _ _ h _ _ (.sliceFail h1 h2 h3 h4)
    | mk h => exact .sliceFail (h.notParam h1) h2 h3 h4
  | pushOk h1 h2 h3 ih =>
    rintro _ (h | _); cases h with
    | same h => exact hS _ _ h _ _ (.pushOk h1 h2 h3)
    | mk h => exact .pushOk (h.notParam h1) h2 (ih _ (.expr (.mk h)))
  | pushFail h1 h2 h3 ih =>
    rintro _ (h | _); cases h with
    | same h => exact hS _ _ h _ _ (.pushFail h1 h2 h3)
    | mk h => exact .pushFail (h.notParam h1) h2 (ih _ (.expr (.mk h)))
  | param h1 h2 ih =>
    rintro _ (h | _); cases h with
    | same h => exact hS _ _ h _ _ (.param h1 h2)
    | mk h =>
      obtain ⟨b, k1, k2⟩ := h.param h1
      exact .param k1 (ih _ (.expr k2))
  | rule h1 h2 h3 h4 ih =>
    rintro _ (h | _); cases h with
    | same h => exact hS _ _ h _ _ (.rule h1 h2 h3 h4)
    | mk h => exact .rule (h.notParam h1) h2 h3 h4
  | call h1 h2 h3 h4 ih =>
    rintro _ (h | _); cases h with
    | same h => exact hS _ _ h _ _ (.call h1 h2 h3 h4)
    | mk h => exact .call (h.notParam h1) h2 h3 (ih _ (.expr (.mk (h.zip _ _))))
  | posOk h1 ih =>
    rintro _ (h | _); cases h with
    | same h => exact hS _ _ h _ _ (.posOk h1)
    | mk h => exact .posOk (ih _ (.expr (.mk h)))
  | posFail h1 ih =>
    rintro _ (h | _); cases h with
    | same h => exact hS _ _ h _ _ (.posFail h1)
    | mk h => exact .posFail (ih _ (.expr (.mk h)))
  | negOk h1 ih =>
    rintro _ (h | _); cases h with
    | same h => exact hS _ _ h _ _ (.negOk h1)
    | mk h => exact .negOk (ih _ (.expr (.mk h)))
  | negFail h1 ih =>
    rintro _ (h | _); cases h with
    | same h => exact hS _ _ h _ _ (.negFail h1)
    | mk h => exact .negFail (ih _ (.expr (.mk h)))
  | seq h1 h2 h3 ih1 ih2 ih3 =>
    rintro _ (h | _); cases h with
    | same h => exact hS _ _ h _ _ (.seq h1 h2 h3)
    | mk h => exact .seq (ih1 _ (.expr (.mk h))) h2 (ih3 _ (.expr (.mk h)))
  | seqFail h1 ih =>
    rintro _ (h | _); cases h with
    | same h => exact hS _ _ h _ _ (.seqFail h1)
    | mk h => exact .seqFail (ih _ (.expr (.mk h)))
  | seqTriviaFail h1 h2 ih =>
    rintro _ (h | _); cases h with
    | same h => exact hS _ _ h _ _ (.seqTriviaFail h1 h2)
    | mk h => exact .seqTriviaFail (ih _ (.expr (.mk h))) h2
  | choiceL h1 ih =>
    rintro _ (h | _); cases h with
    | same h => exact hS _ _ h _ _ (.choiceL h1)
    | mk h => exact .choiceL (ih _ (.expr (.mk h)))
  | choiceR h1 h2 ih1 ih2 =>
    rintro _ (h | _); cases h with
    | same h => exact hS _ _ h _ _ (.choiceR h1 h2)
    | mk h => exact .choiceR (ih1 _ (.expr (.mk h))) (ih2 _ (.expr (.mk h)))
  | optSome h1 ih =>
    rintro _ (h | _); cases h with
    | same h => exact hS _ _ h _ _ (.optSome h1)
    | mk h => exact .optSome (ih _ (.expr (.mk h)))
  | optNone h1 ih =>
    rintro _ (h | _); cases h with
    | same h => exact hS _ _ h _ _ (.optNone h1)
    | mk h => exact .optNone (ih _ (.expr (.mk h)))
  | rep h1 h2 ih =>
    rintro _ (h | _); cases h with
    | same h => exact hS _ _ h _ _ (.rep h1 h2)
    | mk h => exact .rep h1 (ih _ (.reps (.mk h)))
  | separated h1 ih =>
    rintro _ (h | _); cases h with
    | same h => exact hS _ _ h _ _ (.separated h1)
    | mk h => exact .separated (ih _ (.expr (.mk h)))
  | triviaNone => intro it' h; cases h; exact .triviaNone
  | triviaRule h1 h2 h3 => intro it' h; cases h; exact .triviaRule h1 h2 h3
  | unitFirst h ih => intro it' h'; cases h' with | unit h' => exact .unitFirst (ih _ (.expr h'))
  | unitNext h1 h2 ih1 ih2 => intro it' h'; cases h' with | unit h' => exact .unitNext h1 (ih2 _ (.expr h'))
  | unitTriviaFail h1 => intro it' h'; cases h' with | unit h' => exact .unitTriviaFail h1
  | repsMax h1 => intro it' h'; cases h' with | reps h' => exact .repsMax h1
  | repsMore h1 h2 h3 ih1 ih2 => intro it' h'; cases h' with | reps h' => exact .repsMore h1 (ih1 _ (.unit h')) (ih2 _ (.reps h'))
  | repsFew h1 h2 h3 ih => intro it' h'; cases h' with | reps h' => exact .repsFew h1 (ih _ (.unit h')) h3
  | repsStop h1 h2 h3 ih => intro it' h'; cases h' with | reps h' => exact .repsStop h1 (ih _ (.unit h')) h3

theorem shows_le (hS : ∀ a b, S a b → ∀ c o, Meaning u root (.expr a) c o → Meaning u root (.expr b) c o)
    (hT : ∀ a b, S a b → ∀ c c' F, Shows u root (.expr a) c c' F → Shows u root (.expr b) c c' F) {it : SItem} {c c' : Cfg} {F : Toks}
    (h : Shows u root it c c' F) : ∀ it', ItemLe S it it' → Shows u root it' c c' F := by
  have go := fun {it c o} h {it'} => meaning_le (u := u) (root := root) (it := it) (c := c) (o := o) hS h it'
  induction h with
  | literal h1 h2 =>
    rintro _ (h | _); cases h with
    | same h => exact hT _ _ h _ _ _ (.literal h1 h2)
    | mk h => exact .literal h1 (go h2 (.expr (.mk h)))
  | builtin h1 h2 h3 h4 h5 =>
    rintro _ (h | _); cases h with
    | same h => exact hT _ _ h _ _ _ (.builtin h1 h2 h3 h4 h5)
    | mk h => exact .builtin h1 (h.notParam h2) h3 h4 (go h5 (.expr (.mk h)))
  | slice h1 =>
    rintro _ (h | _); cases h with
    | same h => exact hT _ _ h _ _ _ (.slice h1)
    | mk h => exact .slice (go h1 (.expr (.mk h)))
  | push h1 h2 h3 ih =>
    rintro _ (h | _); cases h with
    | same h => exact hT _ _ h _ _ _ (.push h1 h2 h3)
    | mk h => exact .push (h.notParam h1) h2 (ih _ (.expr (.mk h)))
  | param h1 h2 ih =>
    rintro _ (h | _); cases h with
    | same h => exact hT _ _ h _ _ _ (.param h1 h2)
    | mk h =>
      obtain ⟨b, k1, k2⟩ := h.param h1
      exact .param k1 (ih _ (.expr k2))
  | rule h1 h2 h3 h4 ih =>
    rintro _ (h | _); cases h with
    | same h => exact hT _ _ h _ _ _ (.rule h1 h2 h3 h4)
    | mk h => exact .rule (h.notParam h1) h2 h3 h4
  | call h1 h2 h3 h4 ih =>
    rintro _ (h | _); cases h with
    | same h => exact hT _ _ h _ _ _ (.call h1 h2 h3 h4)
    | mk h => exact .call (h.notParam h1) h2 h3 (ih _ (.expr (.mk (h.zip _ _))))
  | pos h1 =>
    rintro _ (h | _); cases h with
    | same h => exact hT _ _ h _ _ _ (.pos h1)
    | mk h => exact .pos (go h1 (.expr (.mk h)))
  | neg h1 =>
    rintro _ (h | _); cases h with
    | same h => exact hT _ _ h _ _ _ (.neg h1)
    | mk h => exact .neg (go h1 (.expr (.mk h)))
  | seq h1 h2 h3 ih1 ih3 =>
    rintro _ (h | _); cases h with
    | same h => exact hT _ _ h _ _ _ (.seq h1 h2 h3)
    | mk h => exact .seq (ih1 _ (.expr (.mk h))) h2 (ih3 _ (.expr (.mk h)))
  | choiceL h1 ih =>
    rintro _ (h | _); cases h with
    | same h => exact hT _ _ h _ _ _ (.choiceL h1)
    | mk h => exact .choiceL (ih _ (.expr (.mk h)))
  | choiceR h1 h2 ih2 =>
    rintro _ (h | _); cases h with
    | same h => exact hT _ _ h _ _ _ (.choiceR h1 h2)
    | mk h => exact .choiceR (go h1 (.expr (.mk h))) (ih2 _ (.expr (.mk h)))
  | optSome h1 ih =>
    rintro _ (h | _); cases h with
    | same h => exact hT _ _ h _ _ _ (.optSome h1)
    | mk h => exact .optSome (ih _ (.expr (.mk h)))
  | optNone h1 =>
    rintro _ (h | _); cases h with
    | same h => exact hT _ _ h _ _ _ (.optNone h1)
    | mk h => exact .optNone (go h1 (.expr (.mk h)))
  | rep h1 h2 ih =>
    rintro _ (h | _); cases h with
    | same h => exact hT _ _ h _ _ _ (.rep h1 h2)
    | mk h => exact .rep h1 (ih _ (.reps (.mk h)))
  | separated h1 ih =>
    rintro _ (h | _); cases h with
    | same h => exact hT _ _ h _ _ _ (.separated h1)
    | mk h => exact .separated (ih _ (.expr (.mk h)))
  | unitFirst h ih => intro it' h'; cases h' with | unit h' => exact .unitFirst (ih _ (.expr h'))
  | unitNext h1 h2 ih2 => intro it' h'; cases h' with | unit h' => exact .unitNext h1 (ih2 _ (.expr h'))
  | repsMax h1 => intro it' h'; cases h' with | reps h' => exact .repsMax h1
  | repsMore h1 h2 h3 ih1 ih2 => intro it' h'; cases h' with | reps h' => exact .repsMore h1 (ih1 _ (.unit h')) (ih2 _ (.reps h'))
  | repsStop h1 h2 h3 => intro it' h'; cases h' with | reps h' => exact .repsStop h1 (go h2 (.unit h')) h3

end

/-! ## Calls -/

/-- Arguments one by one. -/
inductive ArgsBy (R : Expr → Expr → Prop) : List Expr → List Expr → Prop
  | nil : ArgsBy R [] []
  | cons {x x' xs xs'} : R x x' → ArgsBy R xs xs' → ArgsBy R (x :: xs) (x' :: xs')

theorem ArgsBy.length {R : Expr → Expr → Prop} {xs xs' : List Expr} (h : ArgsBy R xs xs') : xs.length = xs'.length := by
  induction h with
  | nil => rfl
  | cons _ _ ih => simp [ih]

theorem ArgsBy.mono {R R' : Expr → Expr → Prop} (hR : ∀ x y, R x y → R' x y) {xs xs' : List Expr} (h : ArgsBy R xs xs') : ArgsBy R' xs xs' := by
  induction h with
  | nil => exact .nil
  | cons h _ ih => exact .cons (hR _ _ h) ih

theorem ArgsBy.flip {R : Expr → Expr → Prop} {xs xs' : List Expr} (h : ArgsBy R xs xs') : ArgsBy (fun x y => R y x) xs' xs := by
  induction h with
  | nil => exact .nil
  | cons h _ ih => exact .cons h ih

theorem ArgsBy.zip {R : Expr → Expr → Prop} {S : Clo → Clo → Prop} {p : List Name} {ρ : List (Name × Clo)} (hR : ∀ x y, R x y → S (.mk p ρ x) (.mk p ρ y))
    {xs xs' : List Expr} (h : ArgsBy R xs xs') (names : List Name) : EnvLe S (names.zip (xs.map (Clo.mk p ρ))) (names.zip (xs'.map (Clo.mk p ρ))) := by
  induction h generalizing names with
  | nil => cases names <;> exact .nil
  | cons h _ ih => cases names with
    | nil => exact .nil
    | cons n names => exact .cons (.same (hR _ _ h)) (ih names)

section
variable {u : Unicode} {root : Module} {p ps : List Name}

theorem call_le {ρ : List (Name × Clo)} {xs xs' : List Expr}
    (h : ArgsBy (fun x y => ∀ c o, Meaning u root (.expr (.mk p ρ x)) c o → Meaning u root (.expr (.mk p ρ y)) c o) xs xs') (q : List Name) (c : Cfg) (o : Option Cfg)
    (hm : Meaning u root (.expr (.mk p ρ (.call q xs))) c o) : Meaning u root (.expr (.mk p ρ (.call q xs'))) c o := by
  have key := fun names => h.zip (S := fun a b => ∀ c o, Meaning u root (.expr a) c o → Meaning u root (.expr b) c o) (fun x y k => k) names
  cases hm with
  | literalOk h1 => cases h1
  | literalFail h1 => cases h1
  | rep h1 => cases h1
  | builtinOk h1 h2 h3 h4 h5 h6 => cases xs with
    | nil => cases h; exact .builtinOk h1 h2 h3 h4 h5 h6
    | cons => cases h1
  | builtinFail h1 h2 h3 h4 h5 => cases xs with
    | nil => cases h; exact .builtinFail h1 h2 h3 h4 h5
    | cons => cases h1
  | pushOk h1 h2 h3 => cases h with | cons k k' => cases k'; exact .pushOk h1 h2 (k _ _ h3)
  | pushFail h1 h2 h3 => cases h with | cons k k' => cases k'; exact .pushFail h1 h2 (k _ _ h3)
  | call h1 h2 h3 h4 => exact .call h1 h2 (h3.trans h.length) (meaning_le (fun a b h => h) h4 _ (.expr (.mk (key _))))

theorem call_shows_le {ρ : List (Name × Clo)} {xs xs' : List Expr}
    (h : ArgsBy (fun x y => (∀ c o, Meaning u root (.expr (.mk p ρ x)) c o → Meaning u root (.expr (.mk p ρ y)) c o) ∧
      ∀ c c' F, Shows u root (.expr (.mk p ρ x)) c c' F → Shows u root (.expr (.mk p ρ y)) c c' F) xs xs') (q : List Name) (c c' : Cfg) (F : Toks)
    (hm : Shows u root (.expr (.mk p ρ (.call q xs))) c c' F) : Shows u root (.expr (.mk p ρ (.call q xs'))) c c' F := by
  have key := fun names => h.zip (S := fun a b => (∀ c o, Meaning u root (.expr a) c o → Meaning u root (.expr b) c o) ∧
      ∀ c c' F, Shows u root (.expr a) c c' F → Shows u root (.expr b) c c' F) (fun x y k => k) names
  cases hm with
  | literal h1 => cases h1
  | rep h1 => cases h1
  | builtin h1 h2 h3 h4 h5 => cases xs with
    | nil => cases h; exact .builtin h1 h2 h3 h4 h5
    | cons => cases h1
  | push h1 h2 h3 => cases h with | cons k k' => cases k'; exact .push h1 h2 (k.2 _ _ _ h3)
  | call h1 h2 h3 h4 => exact .call h1 h2 (h3.trans h.length) (shows_le (fun a b h => h.1) (fun a b h => h.2) h4 _ (.expr (.mk (key _))))

theorem AgreesAt.call {xs xs' : List Expr} (h : ArgsBy (AgreesAt u root p ps) xs xs') (q : List Name) : AgreesAt u root p ps (.call q xs) (.call q xs') :=
  ⟨rfl, fun ρ hρ c o => ⟨call_le (h.mono fun x y k c o => (k.2 ρ hρ c o).mp) q c o, call_le (h.flip.mono fun x y k c o => (k.2 ρ hρ c o).mpr) q c o⟩⟩

theorem SameAt.call {xs xs' : List Expr} (h : ArgsBy (SameAt u root p ps) xs xs') (q : List Name) : SameAt u root p ps (.call q xs) (.call q xs') :=
  ⟨.call (h.mono fun x y k => k.1) q, fun ρ hρ c c' F =>
    ⟨call_shows_le (h.mono fun x y k => ⟨fun c o => (k.1.2 ρ hρ c o).mp, fun c c' F => (k.2 ρ hρ c c' F).mp⟩) q c c' F,
      call_shows_le (h.flip.mono fun x y k => ⟨fun c o => (k.1.2 ρ hρ c o).mpr, fun c c' F => (k.2 ρ hρ c c' F).mpr⟩) q c c' F⟩⟩

end

/-! ## Grammars with exchanged expressions -/

section
variable {E : List Name → List Name → Expr → Expr → Prop}

theorem RulesAlike.flip {p : List Name} {rs rs' : List Rule} (h : RulesAlike E p rs rs') : RulesAlike (fun p ps e e' => E p ps e' e) p rs' rs := by
  induction rs generalizing rs' with
  | nil => cases h; exact .nil
  | cons r rs ih =>
    cases h with
    | cons h1 h2 => exact .cons ⟨h1.name.symm, h1.args.symm, h1.silent.symm, fun k => h1.args ▸ h1.trivia (h1.name ▸ k), h1.args ▸ h1.node⟩ (ih h2)

mutual
theorem Alike.flip : ∀ {p : List Name} {m m' : Module}, Alike E p m m' → Alike (fun p ps e e' => E p ps e' e) p m' m
  | _, _, _, .mk h1 h2 => .mk h1.flip h2.flip
theorem ImportsAlike.flip : ∀ {p : List Name} {is is' : List Import}, ImportsAlike E p is is' → ImportsAlike (fun p ps e e' => E p ps e' e) p is' is
  | _, _, _, .nil => .nil
  | _, _, _, .builtin h => .builtin h.flip
  | _, _, _, .file h1 h2 => .file h1.flip h2.flip
end

theorem RulesAlike.find {p : List Name} {rs rs' : List Rule} (h : RulesAlike E p rs rs') (x : Name) :
    (findRule rs x = none ∧ findRule rs' x = none) ∨ ∃ r r', findRule rs x = some r ∧ findRule rs' x = some r' ∧ RuleAlike E p r r' := by
  induction rs generalizing rs' with
  | nil => cases h; exact .inl ⟨rfl, rfl⟩
  | cons r rs ih =>
    cases h with
    | @cons _ _ r' _ rs' h1 h2 =>
      by_cases hx : r.name = x
      · exact .inr ⟨r, r', by simp [findRule, hx], by simp [findRule, h1.name, hx], h1⟩
      · simpa [findRule, h1.name, hx] using ih h2

theorem ImportsAlike.find {p : List Name} {is is' : List Import} (h : ImportsAlike E p is is') (x : Name) :
    (is.find? (fun i => i.name = x) = none ∧ is'.find? (fun i => i.name = x) = none) ∨
    (∃ y src, is.find? (fun i => i.name = x) = some (.builtin y src) ∧ is'.find? (fun i => i.name = x) = some (.builtin y src)) ∨
    ∃ m m', is.find? (fun i => i.name = x) = some (.file x m) ∧ is'.find? (fun i => i.name = x) = some (.file x m') ∧ Alike E (p ++ [x]) m m' := by
  induction is generalizing is' with
  | nil => cases h; exact .inl ⟨rfl, rfl⟩
  | cons i is ih =>
    cases h with
    | @builtin _ y src _ is' h =>
      by_cases hx : y = x
      · exact .inr (.inl ⟨y, src, by simp [Import.name, hx], by simp [Import.name, hx]⟩)
      · simpa [Import.name, hx] using ih h
    | @file _ y m m' _ is' h1 h2 =>
      by_cases hx : y = x
      · subst hx
        exact .inr (.inr ⟨m, m', by simp [Import.name], by simp [Import.name], h1⟩)
      · simpa [Import.name, hx] using ih h2

theorem Alike.rules {p : List Name} {m m' : Module} (h : Alike E p m m') : RulesAlike E p m.rules m'.rules := by cases h; assumption
theorem Alike.imports {p : List Name} {m m' : Module} (h : Alike E p m m') : ImportsAlike E p m.imports m'.imports := by cases h; assumption

theorem Alike.modAt {cur : List Name} {m m' : Module} (h : Alike E cur m m') (q : List Name) :
    (Gen.modAt m q = none ∧ Gen.modAt m' q = none) ∨ ∃ n n', Gen.modAt m q = some n ∧ Gen.modAt m' q = some n' ∧ Alike E (cur ++ q) n n' := by
  induction q generalizing cur m m' with
  | nil => exact .inr ⟨m, m', rfl, rfl, by rwa [List.append_nil]⟩
  | cons x q ih =>
    rcases h.imports.find x with ⟨h1, h2⟩ | ⟨y, src, h1, h2⟩ | ⟨n, n', h1, h2, h3⟩
    · exact .inl ⟨by simp [Gen.modAt, Module.child, h1], by simp [Gen.modAt, Module.child, h2]⟩
    · exact .inl ⟨by simp [Gen.modAt, Module.child, h1], by simp [Gen.modAt, Module.child, h2]⟩
    · simpa [Gen.modAt, Module.child, h1, h2] using ih h3

/-- The same built-in, or rules that are alike. -/
inductive TargetAlike (E : List Name → List Name → Expr → Expr → Prop) : Option Target → Option Target → Prop
  | none : TargetAlike E none none
  | builtin {q} : TargetAlike E (some (.builtin q)) (some (.builtin q))
  | rule {p r r'} : RuleAlike E p r r' → TargetAlike E (some (.rule p r)) (some (.rule p r'))

theorem Alike.lookupIn (u : Unicode) {cur : List Name} {m m' : Module} (h : Alike E cur m m') (q : List Name) :
    TargetAlike E (Gen.lookupIn u m cur q) (Gen.lookupIn u m' cur q) := by
  induction q generalizing cur m m' with
  | nil => unfold Gen.lookupIn; exact .none
  | cons x q ih =>
    rcases h.imports.find x with ⟨h1, h2⟩ | ⟨y, src, h1, h2⟩ | ⟨n, n', h1, h2, h3⟩
    · rw [Gen.lookupIn, Gen.lookupIn, h1, h2]
      by_cases hx : q = [] ∧ x ≠ optName ∧ x ≠ manName
      · simp only [if_pos hx]
        rcases h.rules.find x with ⟨k1, k2⟩ | ⟨r, r', k1, k2, k3⟩ <;> rw [k1, k2]
        · exact .none
        · exact .rule k3
      · simp only [if_neg hx]; exact .none
    · rw [Gen.lookupIn, Gen.lookupIn, h1, h2]
      by_cases hx : IsBuiltin u (src ++ q)
      · simp only [if_pos hx]; exact .builtin
      · simp only [if_neg hx]; exact .none
    · rw [Gen.lookupIn, Gen.lookupIn, h1, h2]
      exact ih h3

theorem Alike.target (u : Unicode) {root root' : Module} (h : Alike E [] root root') (p q : List Name) :
    TargetAlike E (Gen.target u root p q) (Gen.target u root' p q) := by
  unfold Gen.target
  by_cases hx : IsBuiltin u q
  · simp only [if_pos hx]; exact .builtin
  · simp only [if_neg hx]
    rcases h.modAt p with ⟨h1, h2⟩ | ⟨n, n', h1, h2, h3⟩ <;> rw [h1, h2]
    · exact .none
    · exact h3.lookupIn u q

theorem Alike.builtin {u : Unicode} {root root' : Module} (h : Alike E [] root root') {p q full : List Name} (k : Gen.target u root p q = some (.builtin full)) :
    Gen.target u root' p q = some (.builtin full) := by
  have := h.target u p q
  rw [k] at this
  generalize Gen.target u root' p q = o at this
  cases this
  rfl

theorem Alike.rule {u : Unicode} {root root' : Module} (h : Alike E [] root root') {p q p' : List Name} {r : Rule} (k : Gen.target u root p q = some (.rule p' r)) :
    ∃ r', Gen.target u root' p q = some (.rule p' r') ∧ RuleAlike E p' r r' := by
  have := h.target u p q
  rw [k] at this
  generalize Gen.target u root' p q = o at this
  cases this with
  | rule h => exact ⟨_, rfl, h⟩

theorem Alike.triviaRule {root root' : Module} (h : Alike E [] root root') {p : List Name} {m : Module} {t : Trivia} {r : Rule} (hm : Gen.modAt root p = some m)
    (ht : Gen.triviaRule m t = some r) : ∃ m' r', Gen.modAt root' p = some m' ∧ Gen.triviaRule m' t = some r' ∧ RuleAlike E p r r' ∧ r.args = [] := by
  rcases h.modAt p with ⟨h1, -⟩ | ⟨n, n', h1, h2, h3⟩
  · rw [hm] at h1; cases h1
  · rw [hm] at h1; cases h1
    rw [List.nil_append] at h3
    cases t with
    | none => cases ht
    | optional =>
      rcases h3.rules.find optName with ⟨k, -⟩ | ⟨r0, r', k1, k2, k3⟩
      · exact absurd (ht.symm.trans k) (by simp)
      · cases (ht.symm.trans k1 : some r = some r0)
        exact ⟨n', r', h2, k2, k3, k3.trivia (.inl (by simpa using List.find?_some k1))⟩
    | mandatory =>
      rcases h3.rules.find manName with ⟨k, -⟩ | ⟨r0, r', k1, k2, k3⟩
      · exact absurd (ht.symm.trans k) (by simp)
      · cases (ht.symm.trans k1 : some r = some r0)
        exact ⟨n', r', h2, k2, k3, k3.trivia (.inr (by simpa using List.find?_some k1))⟩

theorem zip_fst {α β : Type} : ∀ {xs : List α} {ys : List β}, xs.length = ys.length → (xs.zip ys).map Prod.fst = xs
  | [], [], _ => rfl
  | _ :: xs, _ :: ys, h => by simpa using zip_fst (xs := xs) (ys := ys) (by simpa using h)

theorem exchange_meaning {u : Unicode} {root root' : Module} (ha : Alike E [] root root') (hE : ∀ p ps e e', E p ps e e' → AgreesAt u root' p ps e e') {it : SItem} {c : Cfg}
    {o : Option Cfg} (h : Meaning u root it c o) : Meaning u root' it c o := by
  induction h with
  | literalOk h1 h2 h3 => exact .literalOk h1 h2 h3
  | literalFail h1 h2 => exact .literalFail h1 h2
  | builtinOk h1 h2 h3 h4 h5 h6 => exact .builtinOk h1 h2 (ha.builtin h3) h4 h5 h6
  | builtinFail h1 h2 h3 h4 h5 => exact .builtinFail h1 h2 (ha.builtin h3) h4 h5
  | sliceOk h1 h2 h3 h4 h5 => exact .sliceOk h1 (ha.builtin h2) h3 h4 h5
  | sliceFail h1 h2 h3 h4 => exact .sliceFail h1 (ha.builtin h2) h3 h4
  | pushOk h1 h2 _ ih => exact .pushOk h1 (ha.builtin h2) ih
  | pushFail h1 h2 _ ih => exact .pushFail h1 (ha.builtin h2) ih
  | param h1 _ ih => exact .param h1 ih
  | rule h1 h2 h3 h4 ih =>
    obtain ⟨r', k1, k2⟩ := ha.rule h2
    exact .rule h1 k1 (k2.args.trans h3) (((hE _ _ _ _ k2.node).2 [] h3.symm _ _).mp ih)
  | call h1 h2 h3 h4 ih =>
    obtain ⟨r', k1, k2⟩ := ha.rule h2
    refine .call h1 k1 (by rw [k2.args]; exact h3) ?_
    rw [k2.args]
    exact ((hE _ _ _ _ k2.node).2 _ (zip_fst (by simpa using h3)) _ _).mp ih
  | posOk _ ih => exact .posOk ih
  | posFail _ ih => exact .posFail ih
  | negOk _ ih => exact .negOk ih
  | negFail _ ih => exact .negFail ih
  | seq _ _ _ ih1 ih2 ih3 => exact .seq ih1 ih2 ih3
  | seqFail _ ih => exact .seqFail ih
  | seqTriviaFail _ _ ih1 ih2 => exact .seqTriviaFail ih1 ih2
  | choiceL _ ih => exact .choiceL ih
  | choiceR _ _ ih1 ih2 => exact .choiceR ih1 ih2
  | optSome _ ih => exact .optSome ih
  | optNone _ ih => exact .optNone ih
  | rep h _ ih => exact .rep h ih
  | separated _ ih => exact .separated ih
  | triviaNone => exact .triviaNone
  | triviaRule h1 h2 h3 ih =>
    obtain ⟨m', r', k1, k2, k3, k4⟩ := ha.triviaRule h1 h2
    exact .triviaRule k1 k2 (((hE _ _ _ _ k3.node).2 [] k4.symm _ _).mp ih)
  | unitFirst _ ih => exact .unitFirst ih
  | unitNext _ _ ih1 ih2 => exact .unitNext ih1 ih2
  | unitTriviaFail _ ih => exact .unitTriviaFail ih
  | repsMax h => exact .repsMax h
  | repsMore h _ _ ih1 ih2 => exact .repsMore h ih1 ih2
  | repsFew h _ h' ih => exact .repsFew h ih h'
  | repsStop h _ h' ih => exact .repsStop h ih h'

theorem tokens_alike {p : List Name} {r r' : Rule} (h : RuleAlike E p r r') (c c' : Cfg) (F : Toks) : tokens p r' c c' F = tokens p r c c' F := by
  simp only [tokens, h.name, h.silent]

theorem exchange_shows {u : Unicode} {root root' : Module} (ha : Alike E [] root root') (hE : ∀ p ps e e', E p ps e e' → SameAt u root' p ps e e') {it : SItem} {c c' : Cfg}
    {F : Toks} (h : Shows u root it c c' F) : Shows u root' it c c' F := by
  have go := fun {it c o} => exchange_meaning (u := u) (it := it) (c := c) (o := o) ha (fun p ps e e' h => (hE p ps e e' h).1)
  induction h with
  | literal h1 h2 => exact .literal h1 (go h2)
  | builtin h1 h2 h3 h4 h5 => exact .builtin h1 h2 (ha.builtin h3) h4 (go h5)
  | slice h => exact .slice (go h)
  | push h1 h2 _ ih => exact .push h1 (ha.builtin h2) ih
  | param h1 _ ih => exact .param h1 ih
  | rule h1 h2 h3 h4 ih =>
    obtain ⟨r', k1, k2⟩ := ha.rule h2
    rw [← tokens_alike k2]
    exact .rule h1 k1 (k2.args.trans h3) (((hE _ _ _ _ k2.node).2 [] h3.symm _ _ _).mp ih)
  | call h1 h2 h3 h4 ih =>
    obtain ⟨r', k1, k2⟩ := ha.rule h2
    rw [← tokens_alike k2]
    refine .call h1 k1 (by rw [k2.args]; exact h3) ?_
    rw [k2.args]
    exact ((hE _ _ _ _ k2.node).2 _ (zip_fst (by simpa using h3)) _ _ _).mp ih
  | pos h => exact .pos (go h)
  | neg h => exact .neg (go h)
  | seq _ h _ ih1 ih2 => exact .seq ih1 (go h) ih2
  | choiceL _ ih => exact .choiceL ih
  | choiceR h _ ih => exact .choiceR (go h) ih
  | optSome _ ih => exact .optSome ih
  | optNone h => exact .optNone (go h)
  | rep h _ ih => exact .rep h ih
  | separated _ ih => exact .separated ih
  | unitFirst _ ih => exact .unitFirst ih
  | unitNext h _ ih => exact .unitNext (go h) ih
  | repsMax h => exact .repsMax h
  | repsMore h _ _ ih1 ih2 => exact .repsMore h ih1 ih2
  | repsStop h h' h'' => exact .repsStop h (go h') h''

end

end Pest3.Gen
