import Verif.InlineSpec

namespace Pest3.Gen
open Pest3
open Pest3.Meta (MetaRange)

/-- Closures, bindings and arguments before and after inlining. -/
inductive IItem where
  | clo (a b : Clo)
  | env (a b : List (Name × Clo))
  | args (p : List Name) (ρ ρ' : List (Name × Clo)) (as bs : List Expr)

/-- What is related before and after inlining. -/
inductive IRel (u : Unicode) (m : Module) : IItem → Prop
  | nil : IRel u m (.env [] [])
  | cons {x c c' ρ ρ'} : IRel u m (.clo c c') → IRel u m (.env ρ ρ') → IRel u m (.env ((x, c) :: ρ) ((x, c') :: ρ'))
  | argsNil {p ρ ρ'} : IRel u m (.args p ρ ρ' [] [])
  | argsCons {p ρ ρ' a b as bs} : IRel u m (.clo (.mk p ρ a) (.mk p ρ' b)) → IRel u m (.args p ρ ρ' as bs) →
      IRel u m (.args p ρ ρ' (a :: as) (b :: bs))
  | lit {p ρ ρ' e l} : literal e = some l → IRel u m (.clo (.mk p ρ e) (.mk p ρ' e))
  | slice {p ρ ρ' q r} : NotParam ρ q → NotParam ρ' q → IRel u m (.clo (.mk p ρ (.slice q r)) (.mk p ρ' (.slice q r)))
  | ref {p ρ ρ' q} : NotParam ρ q → NotParam ρ' q → ¬ Gone u m p q → IRel u m (.clo (.mk p ρ (.path q)) (.mk p ρ' (.path q)))
  | param {p ρ ρ' x c c'} : lookupClo x ρ = some c → lookupClo x ρ' = some c' → IRel u m (.clo c c') →
      IRel u m (.clo (.mk p ρ (.path [x])) (.mk p ρ' (.path [x])))
  | call {p ρ ρ' q as bs} : NotParam ρ q → NotParam ρ' q → ¬ Gone u m p q → IRel u m (.args p ρ ρ' as bs) →
      IRel u m (.clo (.mk p ρ (.call q as)) (.mk p ρ' (.call q bs)))
  | pos {p ρ ρ' e e'} : IRel u m (.clo (.mk p ρ e) (.mk p ρ' e')) → IRel u m (.clo (.mk p ρ (.pos e)) (.mk p ρ' (.pos e')))
  | neg {p ρ ρ' e e'} : IRel u m (.clo (.mk p ρ e) (.mk p ρ' e')) → IRel u m (.clo (.mk p ρ (.neg e)) (.mk p ρ' (.neg e')))
  | opt {p ρ ρ' e e'} : IRel u m (.clo (.mk p ρ e) (.mk p ρ' e')) → IRel u m (.clo (.mk p ρ (.opt e)) (.mk p ρ' (.opt e')))
  | separated {p ρ ρ' e e' t} : IRel u m (.clo (.mk p ρ e) (.mk p ρ' e')) →
      IRel u m (.clo (.mk p ρ (.separated e t)) (.mk p ρ' (.separated e' t)))
  | seq {p ρ ρ' l l' r r' t} : IRel u m (.clo (.mk p ρ l) (.mk p ρ' l')) → IRel u m (.clo (.mk p ρ r) (.mk p ρ' r')) →
      IRel u m (.clo (.mk p ρ (.seq l r t)) (.mk p ρ' (.seq l' r' t)))
  | choice {p ρ ρ' l l' r r'} : IRel u m (.clo (.mk p ρ l) (.mk p ρ' l')) → IRel u m (.clo (.mk p ρ r) (.mk p ρ' r')) →
      IRel u m (.clo (.mk p ρ (.choice l r)) (.mk p ρ' (.choice l' r')))
  | rep {p ρ ρ' e e' a a' min max} : repetition e = some (a, min, max) → repetition e' = some (a', min, max) →
      sepTrivia a = sepTrivia a' → IRel u m (.clo (.mk p ρ a) (.mk p ρ' a')) → IRel u m (.clo (.mk p ρ e) (.mk p ρ' e'))
  /-- a parameter replaced by the argument -/
  | subst {p ρ x c c'} : lookupClo x ρ = some c → IRel u m (.clo c c') → IRel u m (.clo (.mk p ρ (.path [x])) c')
  /-- a call replaced by the body -/
  | inline {p ρ q as f c'} : NotParam ρ q → target u m p q = some (.rule [] f) → f.inlined = true → f.args.length = as.length →
      IRel u m (.clo (.mk [] (f.args.zip (as.map (Clo.mk p ρ))) f.node) c') → IRel u m (.clo (.mk p ρ (.call q as)) c')

section
variable {u : Unicode} {m m' : Module}

theorem irel_lookup {ρ ρ'} (h : IRel u m (.env ρ ρ')) (x : Name) :
    (lookupClo x ρ = none ∧ lookupClo x ρ' = none) ∨
    ∃ c c', lookupClo x ρ = some c ∧ lookupClo x ρ' = some c' ∧ IRel u m (.clo c c') := by
  induction ρ generalizing ρ' with
  | nil => cases h; exact .inl ⟨rfl, rfl⟩
  | cons a ρ ih =>
    cases h with
    | @cons y c c' _ ρ' h1 h2 =>
      simp only [lookupClo]
      by_cases e : y = x
      · rw [if_pos e, if_pos e]; exact .inr ⟨_, _, rfl, rfl, h1⟩
      · rw [if_neg e, if_neg e]; exact ih h2

theorem irel_args_length {p ρ ρ' as bs} (h : IRel u m (.args p ρ ρ' as bs)) : as.length = bs.length := by
  induction as generalizing bs with
  | nil => cases h; rfl
  | cons a as ih => cases h with | argsCons _ h2 => simp [ih h2]

theorem irel_zip {p ρ ρ' as bs} (h : IRel u m (.args p ρ ρ' as bs)) (xs : List Name) :
    IRel u m (.env (xs.zip (as.map (Clo.mk p ρ))) (xs.zip (bs.map (Clo.mk p ρ')))) := by
  induction as generalizing bs xs with
  | nil => cases h; simp only [List.map_nil, List.zip_nil_right]; exact .nil
  | cons a as ih =>
    cases h with
    | argsCons h1 h2 =>
      cases xs with
      | nil => exact .nil
      | cons x xs => exact .cons h1 (ih h2 xs)

theorem lookup_zip_mem {xs : List Name} {l : List Clo} {x : Name} {c : Clo} (h : lookupClo x (xs.zip l) = some c) : x ∈ xs := by
  induction xs generalizing l with
  | nil => simp [lookupClo] at h
  | cons y xs ih =>
    cases l with
    | nil => simp [lookupClo] at h
    | cons a l =>
      simp only [List.zip_cons_cons, lookupClo] at h
      split at h
      · rename_i e; exact e ▸ List.mem_cons_self
      · exact List.mem_cons_of_mem _ (ih h)

theorem lookup_zip_some {xs : List Name} {l : List Clo} (hl : xs.length = l.length) {x : Name} (h : x ∈ xs) :
    ∃ c, lookupClo x (xs.zip l) = some c := by
  induction xs generalizing l with
  | nil => simp at h
  | cons y xs ih =>
    cases l with
    | nil => simp at hl
    | cons a l =>
      simp only [List.zip_cons_cons, lookupClo]
      by_cases e : y = x
      · exact ⟨a, if_pos e⟩
      · rw [if_neg e]
        exact ih (by simpa using hl) ((List.mem_cons.mp h).resolve_left fun e' => e e'.symm)

variable (u m m') in
/-- The rules after inlining are related to those before. -/
structure Sim : Prop where
  rule : ∀ p q p' r, ¬ Gone u m p q → target u m p q = some (.rule p' r) → ∃ r', target u m' p q = some (.rule p' r') ∧
    r'.args = r.args ∧ (r'.name = r.name ∧ r'.silent = r.silent) ∧ ∀ ρ ρ', IRel u m (.env ρ ρ') → (∀ x, x ∈ r.args ↔ ∃ c, lookupClo x ρ = some c) →
      IRel u m (.clo (.mk p' ρ r.node) (.mk p' ρ' r'.node))
  back : ∀ p q p' r', target u m' p q = some (.rule p' r') → ∃ r, target u m p q = some (.rule p' r)
  builtin : ∀ p q full, target u m p q = some (.builtin full) ↔ target u m' p q = some (.builtin full)
  trivia : ∀ p t a r, modAt m p = some a → triviaRule a t = some r → ∃ a' r', modAt m' p = some a' ∧
    triviaRule a' t = some r' ∧ IRel u m (.clo (.mk p [] r.node) (.mk p [] r'.node))
  triviaBack : ∀ p t a r, modAt m' p = some a → triviaRule a t = some r → ∃ a' r', modAt m p = some a' ∧
    triviaRule a' t = some r'

/-- The related items of the semantics. -/
inductive ISim (u : Unicode) (m : Module) : SItem → SItem → Prop
  | expr {c c'} : IRel u m (.clo c c') → ISim u m (.expr c) (.expr c')
  | trivia {p t} : ISim u m (.trivia p t) (.trivia p t)
  | unit {c c' p t i} : IRel u m (.clo c c') → ISim u m (.unit c p t i) (.unit c' p t i)
  | reps {c c' p t min max i} : IRel u m (.clo c c') → ISim u m (.reps c p t min max i) (.reps c' p t min max i)

theorem plainRef_cases {e : Expr} {q} (h : plainRef e = some q) : e = .path q ∨ e = .call q [] := by
  unfold plainRef at h
  split at h
  · injection h with h; exact .inl (by rw [h])
  · injection h with h; exact .inr (by rw [h])
  · simp at h

theorem repetition_not_literal {e : Expr} {a min max} (h : repetition e = some (a, min, max)) : literal e = none := by
  cases e <;> simp_all [repetition, literal]

/-- What inlining keeps. -/
theorem meaning_inline (hs : Sim u m m') {item c r} (h : Meaning u m item c r) :
    ∀ item', ISim u m item item' → Meaning u m' item' c r := by
  induction h with
  | literalOk h1 h2 h3 =>
    intro _ hi
    cases hi with
    | expr hi => cases hi with
      | lit _ => exact .literalOk h1 h2 h3
      | rep hr => rw [repetition_not_literal hr] at h1; simp at h1
      | _ => simp [literal] at h1
  | literalFail h1 h2 =>
    intro _ hi
    cases hi with
    | expr hi => cases hi with
      | lit _ => exact .literalFail h1 h2
      | rep hr => rw [repetition_not_literal hr] at h1; simp at h1
      | _ => simp [literal] at h1
  | builtinOk h1 h2 h3 h4 h5 h6 =>
    intro _ hi
    rcases plainRef_cases h1 with rfl | rfl
    · cases hi with
      | expr hi => cases hi with
        | lit hl => simp [literal] at hl
        | ref _ hn _ => exact .builtinOk rfl hn ((hs.builtin _ _ _).mp h3) h4 h5 h6
        | param hl => rw [h2 _ rfl] at hl; simp at hl
        | subst hl => rw [h2 _ rfl] at hl; simp at hl
        | rep hr => simp [repetition] at hr
    · cases hi with
      | expr hi => cases hi with
        | lit hl => simp [literal] at hl
        | call _ hn _ ha =>
          cases ha
          exact .builtinOk rfl hn ((hs.builtin _ _ _).mp h3) h4 h5 h6
        | inline _ ht => rw [h3] at ht; simp at ht
        | rep hr => simp [repetition] at hr
  | builtinFail h1 h2 h3 h4 h5 =>
    intro _ hi
    rcases plainRef_cases h1 with rfl | rfl
    · cases hi with
      | expr hi => cases hi with
        | lit hl => simp [literal] at hl
        | ref _ hn _ => exact .builtinFail rfl hn ((hs.builtin _ _ _).mp h3) h4 h5
        | param hl => rw [h2 _ rfl] at hl; simp at hl
        | subst hl => rw [h2 _ rfl] at hl; simp at hl
        | rep hr => simp [repetition] at hr
    · cases hi with
      | expr hi => cases hi with
        | lit hl => simp [literal] at hl
        | call _ hn _ ha =>
          cases ha
          exact .builtinFail rfl hn ((hs.builtin _ _ _).mp h3) h4 h5
        | inline _ ht => rw [h3] at ht; simp at ht
        | rep hr => simp [repetition] at hr
  | sliceOk h1 h2 h3 h4 h5 =>
    intro _ hi
    cases hi with
    | expr hi => cases hi with
      | lit hl => simp [literal] at hl
      | slice _ hn => exact .sliceOk hn ((hs.builtin _ _ _).mp h2) h3 h4 h5
      | rep hr => simp [repetition] at hr
  | sliceFail h1 h2 h3 h4 =>
    intro _ hi
    cases hi with
    | expr hi => cases hi with
      | lit hl => simp [literal] at hl
      | slice _ hn => exact .sliceFail hn ((hs.builtin _ _ _).mp h2) h3 h4
      | rep hr => simp [repetition] at hr
  | pushOk h1 h2 _ ih =>
    intro _ hi
    cases hi with
    | expr hi => cases hi with
      | lit hl => simp [literal] at hl
      | call _ hn _ ha =>
        cases ha with
        | argsCons a1 a2 => cases a2; exact .pushOk hn ((hs.builtin _ _ _).mp h2) (ih _ (.expr a1))
      | inline _ ht => rw [h2] at ht; simp at ht
      | rep hr => simp [repetition] at hr
  | pushFail h1 h2 _ ih =>
    intro _ hi
    cases hi with
    | expr hi => cases hi with
      | lit hl => simp [literal] at hl
      | call _ hn _ ha =>
        cases ha with
        | argsCons a1 a2 => cases a2; exact .pushFail hn ((hs.builtin _ _ _).mp h2) (ih _ (.expr a1))
      | inline _ ht => rw [h2] at ht; simp at ht
      | rep hr => simp [repetition] at hr
  | param h1 _ ih =>
    intro _ hi
    cases hi with
    | expr hi => cases hi with
      | lit hl => simp [literal] at hl
      | ref hn => rw [hn _ rfl] at h1; simp at h1
      | param a1 a2 a3 =>
        rw [h1] at a1; injection a1 with a1; subst a1
        exact .param a2 (ih _ (.expr a3))
      | subst a1 a2 =>
        rw [h1] at a1; injection a1 with a1; subst a1
        exact ih _ (.expr a2)
      | rep hr => simp [repetition] at hr
  | rule h1 h2 h3 _ ih =>
    intro _ hi
    cases hi with
    | expr hi => cases hi with
      | lit hl => simp [literal] at hl
      | ref _ hn hg =>
        obtain ⟨r', b1, b2, -, b3⟩ := hs.rule _ _ _ _ hg h2
        exact .rule hn b1 (b2.trans h3) (ih _ (.expr (b3 [] [] .nil fun x => by simp [lookupClo, h3])))
      | param hl => rw [h1 _ rfl] at hl; simp at hl
      | subst hl => rw [h1 _ rfl] at hl; simp at hl
      | rep hr => simp [repetition] at hr
  | call h1 h2 h3 _ ih =>
    intro _ hi
    cases hi with
    | expr hi => cases hi with
      | lit hl => simp [literal] at hl
      | call _ hn hg ha =>
        obtain ⟨r', b1, b2, -, b3⟩ := hs.rule _ _ _ _ hg h2
        refine .call hn b1 (by rw [b2, h3, irel_args_length ha]) ?_
        rw [b2]
        exact ih _ (.expr (b3 _ _ (irel_zip ha _) fun x => ⟨fun h => lookup_zip_some (by simp [h3]) h, fun ⟨c, h⟩ => lookup_zip_mem h⟩))
      | inline _ ht _ _ hb =>
        rw [h2] at ht
        simp only [Option.some.injEq, Target.rule.injEq] at ht
        obtain ⟨rfl, rfl⟩ := ht
        exact ih _ (.expr hb)
      | rep hr => simp [repetition] at hr
  | posOk _ ih =>
    intro _ hi
    cases hi with
    | expr hi => cases hi with
      | lit hl => simp [literal] at hl
      | pos hi => exact .posOk (ih _ (.expr hi))
      | rep hr => simp [repetition] at hr
  | posFail _ ih =>
    intro _ hi
    cases hi with
    | expr hi => cases hi with
      | lit hl => simp [literal] at hl
      | pos hi => exact .posFail (ih _ (.expr hi))
      | rep hr => simp [repetition] at hr
  | negOk _ ih =>
    intro _ hi
    cases hi with
    | expr hi => cases hi with
      | lit hl => simp [literal] at hl
      | neg hi => exact .negOk (ih _ (.expr hi))
      | rep hr => simp [repetition] at hr
  | negFail _ ih =>
    intro _ hi
    cases hi with
    | expr hi => cases hi with
      | lit hl => simp [literal] at hl
      | neg hi => exact .negFail (ih _ (.expr hi))
      | rep hr => simp [repetition] at hr
  | seq _ _ _ ih1 ih2 ih3 =>
    intro _ hi
    cases hi with
    | expr hi => cases hi with
      | lit hl => simp [literal] at hl
      | seq a1 a2 => exact .seq (ih1 _ (.expr a1)) (ih2 _ .trivia) (ih3 _ (.expr a2))
      | rep hr => simp [repetition] at hr
  | seqFail _ ih1 =>
    intro _ hi
    cases hi with
    | expr hi => cases hi with
      | lit hl => simp [literal] at hl
      | seq a1 a2 => exact .seqFail (ih1 _ (.expr a1))
      | rep hr => simp [repetition] at hr
  | seqTriviaFail _ _ ih1 ih2 =>
    intro _ hi
    cases hi with
    | expr hi => cases hi with
      | lit hl => simp [literal] at hl
      | seq a1 a2 => exact .seqTriviaFail (ih1 _ (.expr a1)) (ih2 _ .trivia)
      | rep hr => simp [repetition] at hr
  | choiceL _ ih =>
    intro _ hi
    cases hi with
    | expr hi => cases hi with
      | lit hl => simp [literal] at hl
      | choice a1 a2 => exact .choiceL (ih _ (.expr a1))
      | rep hr => simp [repetition] at hr
  | choiceR _ _ ih1 ih2 =>
    intro _ hi
    cases hi with
    | expr hi => cases hi with
      | lit hl => simp [literal] at hl
      | choice a1 a2 => exact .choiceR (ih1 _ (.expr a1)) (ih2 _ (.expr a2))
      | rep hr => simp [repetition] at hr
  | optSome _ ih =>
    intro _ hi
    cases hi with
    | expr hi => cases hi with
      | lit hl => simp [literal] at hl
      | opt hi => exact .optSome (ih _ (.expr hi))
      | rep hr => simp [repetition] at hr
  | optNone _ ih =>
    intro _ hi
    cases hi with
    | expr hi => cases hi with
      | lit hl => simp [literal] at hl
      | opt hi => exact .optNone (ih _ (.expr hi))
      | rep hr => simp [repetition] at hr
  | rep h1 _ ih =>
    intro _ hi
    cases hi with
    | expr hi => cases hi with
      | lit hl => rw [repetition_not_literal h1] at hl; simp at hl
      | rep a1 a2 a3 a4 =>
        rw [h1] at a1
        simp only [Option.some.injEq, Prod.mk.injEq] at a1
        obtain ⟨rfl, rfl, rfl⟩ := a1
        refine .rep a2 ?_
        rw [← a3]
        exact ih _ (.reps a4)
      | _ => simp [repetition] at h1
  | separated _ ih =>
    intro _ hi
    cases hi with
    | expr hi => cases hi with
      | lit hl => simp [literal] at hl
      | separated hi => exact .separated (ih _ (.expr hi))
      | rep hr => simp [repetition] at hr
  | triviaNone => intro _ hi; cases hi; exact .triviaNone
  | triviaRule h1 h2 _ ih =>
    intro _ hi
    cases hi
    obtain ⟨a', r', b1, b2, b3⟩ := hs.trivia _ _ _ _ h1 h2
    exact .triviaRule b1 b2 (ih _ (.expr b3))
  | unitFirst _ ih => intro _ hi; cases hi with | unit hi => exact .unitFirst (ih _ (.expr hi))
  | unitNext _ _ ih1 ih2 => intro _ hi; cases hi with | unit hi => exact .unitNext (ih1 _ .trivia) (ih2 _ (.expr hi))
  | unitTriviaFail _ ih => intro _ hi; cases hi with | unit hi => exact .unitTriviaFail (ih _ .trivia)
  | repsMax h => intro _ hi; cases hi with | reps hi => exact .repsMax h
  | repsMore h _ _ ih1 ih2 => intro _ hi; cases hi with | reps hi => exact .repsMore h (ih1 _ (.unit hi)) (ih2 _ (.reps hi))
  | repsFew h _ h2 ih => intro _ hi; cases hi with | reps hi => exact .repsFew h (ih _ (.unit hi)) h2
  | repsStop h _ h2 ih => intro _ hi; cases hi with | reps hi => exact .repsStop h (ih _ (.unit hi)) h2

/-- Related closures with the same constructor at the top. -/
inductive HRel (u : Unicode) (m : Module) : Clo → Clo → Prop
  | lit {p ρ ρ' e l} : literal e = some l → HRel u m (.mk p ρ e) (.mk p ρ' e)
  | slice {p ρ ρ' q r} : NotParam ρ q → NotParam ρ' q → HRel u m (.mk p ρ (.slice q r)) (.mk p ρ' (.slice q r))
  | ref {p ρ ρ' q} : NotParam ρ q → NotParam ρ' q → ¬ Gone u m p q → HRel u m (.mk p ρ (.path q)) (.mk p ρ' (.path q))
  | param {p ρ ρ' x c c'} : lookupClo x ρ = some c → lookupClo x ρ' = some c' → IRel u m (.clo c c') →
      HRel u m (.mk p ρ (.path [x])) (.mk p ρ' (.path [x]))
  | call {p ρ ρ' q as bs} : NotParam ρ q → NotParam ρ' q → ¬ Gone u m p q → IRel u m (.args p ρ ρ' as bs) →
      HRel u m (.mk p ρ (.call q as)) (.mk p ρ' (.call q bs))
  | pos {p ρ ρ' e e'} : IRel u m (.clo (.mk p ρ e) (.mk p ρ' e')) → HRel u m (.mk p ρ (.pos e)) (.mk p ρ' (.pos e'))
  | neg {p ρ ρ' e e'} : IRel u m (.clo (.mk p ρ e) (.mk p ρ' e')) → HRel u m (.mk p ρ (.neg e)) (.mk p ρ' (.neg e'))
  | opt {p ρ ρ' e e'} : IRel u m (.clo (.mk p ρ e) (.mk p ρ' e')) → HRel u m (.mk p ρ (.opt e)) (.mk p ρ' (.opt e'))
  | separated {p ρ ρ' e e' t} : IRel u m (.clo (.mk p ρ e) (.mk p ρ' e')) →
      HRel u m (.mk p ρ (.separated e t)) (.mk p ρ' (.separated e' t))
  | seq {p ρ ρ' l l' r r' t} : IRel u m (.clo (.mk p ρ l) (.mk p ρ' l')) → IRel u m (.clo (.mk p ρ r) (.mk p ρ' r')) →
      HRel u m (.mk p ρ (.seq l r t)) (.mk p ρ' (.seq l' r' t))
  | choice {p ρ ρ' l l' r r'} : IRel u m (.clo (.mk p ρ l) (.mk p ρ' l')) → IRel u m (.clo (.mk p ρ r) (.mk p ρ' r')) →
      HRel u m (.mk p ρ (.choice l r)) (.mk p ρ' (.choice l' r'))
  | rep {p ρ ρ' e e' a a' min max} : repetition e = some (a, min, max) → repetition e' = some (a', min, max) →
      sepTrivia a = sepTrivia a' → IRel u m (.clo (.mk p ρ a) (.mk p ρ' a')) → HRel u m (.mk p ρ e) (.mk p ρ' e')

theorem irel_head {item} (h : IRel u m item) : ∀ c c', item = .clo c c' → ∃ c2, HRel u m c2 c' ∧
    ∀ cfg r, Meaning u m (.expr c2) cfg r → Meaning u m (.expr c) cfg r := by
  induction h with
  | nil | cons | argsNil | argsCons => intro c c' e; simp at e
  | lit h => intro c c' e; cases e; exact ⟨_, .lit h, fun _ _ h => h⟩
  | slice h1 h2 => intro c c' e; cases e; exact ⟨_, .slice h1 h2, fun _ _ h => h⟩
  | ref h1 h2 h3 => intro c c' e; cases e; exact ⟨_, .ref h1 h2 h3, fun _ _ h => h⟩
  | param h1 h2 h3 => intro c c' e; cases e; exact ⟨_, .param h1 h2 h3, fun _ _ h => h⟩
  | call h1 h2 h3 h4 => intro c c' e; cases e; exact ⟨_, .call h1 h2 h3 h4, fun _ _ h => h⟩
  | pos h => intro c c' e; cases e; exact ⟨_, .pos h, fun _ _ h => h⟩
  | neg h => intro c c' e; cases e; exact ⟨_, .neg h, fun _ _ h => h⟩
  | opt h => intro c c' e; cases e; exact ⟨_, .opt h, fun _ _ h => h⟩
  | separated h => intro c c' e; cases e; exact ⟨_, .separated h, fun _ _ h => h⟩
  | seq h1 h2 => intro c c' e; cases e; exact ⟨_, .seq h1 h2, fun _ _ h => h⟩
  | choice h1 h2 => intro c c' e; cases e; exact ⟨_, .choice h1 h2, fun _ _ h => h⟩
  | rep h1 h2 h3 h4 => intro c c' e; cases e; exact ⟨_, .rep h1 h2 h3 h4, fun _ _ h => h⟩
  | subst h1 _ ih =>
    intro c c' e; cases e
    obtain ⟨c2, a1, a2⟩ := ih _ _ rfl
    exact ⟨c2, a1, fun cfg r h => .param h1 (a2 cfg r h)⟩
  | inline h1 h2 _ h3 _ ih =>
    intro c c' e; cases e
    obtain ⟨c2, a1, a2⟩ := ih _ _ rfl
    exact ⟨c2, a1, fun cfg r h => .call h1 h2 h3 (a2 cfg r h)⟩

/-- What inlining adds: nothing. -/
theorem meaning_of_inline (hs : Sim u m m') {item' c r} (h : Meaning u m' item' c r) :
    ∀ item, ISim u m item item' → Meaning u m item c r := by
  induction h with
  | literalOk h1 h2 h3 =>
    intro _ hi
    cases hi with
    | expr hi =>
      obtain ⟨_, hi, up⟩ := irel_head hi _ _ rfl
      refine up _ _ ?_
      cases hi with
      | lit _ => exact .literalOk h1 h2 h3
      | rep _ hr => rw [repetition_not_literal hr] at h1; simp at h1
      | _ => simp [literal] at h1
  | literalFail h1 h2 =>
    intro _ hi
    cases hi with
    | expr hi =>
      obtain ⟨_, hi, up⟩ := irel_head hi _ _ rfl
      refine up _ _ ?_
      cases hi with
      | lit _ => exact .literalFail h1 h2
      | rep _ hr => rw [repetition_not_literal hr] at h1; simp at h1
      | _ => simp [literal] at h1
  | builtinOk h1 h2 h3 h4 h5 h6 =>
    intro _ hi
    rcases plainRef_cases h1 with rfl | rfl
    · cases hi with
      | expr hi =>
        obtain ⟨_, hi, up⟩ := irel_head hi _ _ rfl
        refine up _ _ ?_
        cases hi with
        | lit hl => simp [literal] at hl
        | ref hn _ _ => exact .builtinOk rfl hn ((hs.builtin _ _ _).mpr h3) h4 h5 h6
        | param _ hl => rw [h2 _ rfl] at hl; simp at hl
        | rep _ hr => simp [repetition] at hr
    · cases hi with
      | expr hi =>
        obtain ⟨_, hi, up⟩ := irel_head hi _ _ rfl
        refine up _ _ ?_
        cases hi with
        | lit hl => simp [literal] at hl
        | call hn _ _ ha =>
          have := irel_args_length ha
          obtain rfl := List.eq_nil_of_length_eq_zero this
          exact .builtinOk rfl hn ((hs.builtin _ _ _).mpr h3) h4 h5 h6
        | rep _ hr => simp [repetition] at hr
  | builtinFail h1 h2 h3 h4 h5 =>
    intro _ hi
    rcases plainRef_cases h1 with rfl | rfl
    · cases hi with
      | expr hi =>
        obtain ⟨_, hi, up⟩ := irel_head hi _ _ rfl
        refine up _ _ ?_
        cases hi with
        | lit hl => simp [literal] at hl
        | ref hn _ _ => exact .builtinFail rfl hn ((hs.builtin _ _ _).mpr h3) h4 h5
        | param _ hl => rw [h2 _ rfl] at hl; simp at hl
        | rep _ hr => simp [repetition] at hr
    · cases hi with
      | expr hi =>
        obtain ⟨_, hi, up⟩ := irel_head hi _ _ rfl
        refine up _ _ ?_
        cases hi with
        | lit hl => simp [literal] at hl
        | call hn _ _ ha =>
          have := irel_args_length ha
          obtain rfl := List.eq_nil_of_length_eq_zero this
          exact .builtinFail rfl hn ((hs.builtin _ _ _).mpr h3) h4 h5
        | rep _ hr => simp [repetition] at hr
  | sliceOk h1 h2 h3 h4 h5 =>
    intro _ hi
    cases hi with
    | expr hi =>
      obtain ⟨_, hi, up⟩ := irel_head hi _ _ rfl
      refine up _ _ ?_
      cases hi with
      | lit hl => simp [literal] at hl
      | slice hn _ => exact .sliceOk hn ((hs.builtin _ _ _).mpr h2) h3 h4 h5
      | rep _ hr => simp [repetition] at hr
  | sliceFail h1 h2 h3 h4 =>
    intro _ hi
    cases hi with
    | expr hi =>
      obtain ⟨_, hi, up⟩ := irel_head hi _ _ rfl
      refine up _ _ ?_
      cases hi with
      | lit hl => simp [literal] at hl
      | slice hn _ => exact .sliceFail hn ((hs.builtin _ _ _).mpr h2) h3 h4
      | rep _ hr => simp [repetition] at hr
  | pushOk h1 h2 _ ih =>
    intro _ hi
    cases hi with
    | expr hi =>
      obtain ⟨_, hi, up⟩ := irel_head hi _ _ rfl
      refine up _ _ ?_
      cases hi with
      | lit hl => simp [literal] at hl
      | call hn _ _ ha =>
        cases ha with
        | argsCons a1 a2 => cases a2; exact .pushOk hn ((hs.builtin _ _ _).mpr h2) (ih _ (.expr a1))
      | rep _ hr => simp [repetition] at hr
  | pushFail h1 h2 _ ih =>
    intro _ hi
    cases hi with
    | expr hi =>
      obtain ⟨_, hi, up⟩ := irel_head hi _ _ rfl
      refine up _ _ ?_
      cases hi with
      | lit hl => simp [literal] at hl
      | call hn _ _ ha =>
        cases ha with
        | argsCons a1 a2 => cases a2; exact .pushFail hn ((hs.builtin _ _ _).mpr h2) (ih _ (.expr a1))
      | rep _ hr => simp [repetition] at hr
  | param h1 _ ih =>
    intro _ hi
    cases hi with
    | expr hi =>
      obtain ⟨_, hi, up⟩ := irel_head hi _ _ rfl
      refine up _ _ ?_
      cases hi with
      | lit hl => simp [literal] at hl
      | ref _ hn => rw [hn _ rfl] at h1; simp at h1
      | param a1 a2 a3 =>
        rw [h1] at a2; injection a2 with a2; subst a2
        exact .param a1 (ih _ (.expr a3))
      | rep _ hr => simp [repetition] at hr
  | rule h1 h2 h3 _ ih =>
    intro _ hi
    cases hi with
    | expr hi =>
      obtain ⟨_, hi, up⟩ := irel_head hi _ _ rfl
      refine up _ _ ?_
      cases hi with
      | lit hl => simp [literal] at hl
      | ref hn _ hg =>
        obtain ⟨r, b0⟩ := hs.back _ _ _ _ h2
        obtain ⟨r', b1, b2, -, b3⟩ := hs.rule _ _ _ _ hg b0
        rw [h2] at b1
        simp only [Option.some.injEq, Target.rule.injEq, true_and] at b1
        subst b1
        exact .rule hn b0 (b2.symm.trans h3) (ih _ (.expr (b3 [] [] .nil fun x => by simp [lookupClo, b2.symm.trans h3])))
      | param _ hl => rw [h1 _ rfl] at hl; simp at hl
      | rep _ hr => simp [repetition] at hr
  | call h1 h2 h3 _ ih =>
    intro _ hi
    cases hi with
    | expr hi =>
      obtain ⟨_, hi, up⟩ := irel_head hi _ _ rfl
      refine up _ _ ?_
      cases hi with
      | lit hl => simp [literal] at hl
      | call hn _ hg ha =>
        obtain ⟨r, b0⟩ := hs.back _ _ _ _ h2
        obtain ⟨r', b1, b2, -, b3⟩ := hs.rule _ _ _ _ hg b0
        rw [h2] at b1
        simp only [Option.some.injEq, Target.rule.injEq, true_and] at b1
        subst b1
        rw [b2] at h3 ih
        exact .call hn b0 (by rw [h3, irel_args_length ha])
          (ih _ (.expr (b3 _ _ (irel_zip ha _) fun x =>
            ⟨fun h => lookup_zip_some (by simp [h3, irel_args_length ha]) h, fun ⟨c, h⟩ => lookup_zip_mem h⟩)))
      | rep _ hr => simp [repetition] at hr
  | posOk _ ih =>
    intro _ hi
    cases hi with
    | expr hi =>
      obtain ⟨_, hi, up⟩ := irel_head hi _ _ rfl
      refine up _ _ ?_
      cases hi with
      | lit hl => simp [literal] at hl
      | pos hi => exact .posOk (ih _ (.expr hi))
      | rep _ hr => simp [repetition] at hr
  | posFail _ ih =>
    intro _ hi
    cases hi with
    | expr hi =>
      obtain ⟨_, hi, up⟩ := irel_head hi _ _ rfl
      refine up _ _ ?_
      cases hi with
      | lit hl => simp [literal] at hl
      | pos hi => exact .posFail (ih _ (.expr hi))
      | rep _ hr => simp [repetition] at hr
  | negOk _ ih =>
    intro _ hi
    cases hi with
    | expr hi =>
      obtain ⟨_, hi, up⟩ := irel_head hi _ _ rfl
      refine up _ _ ?_
      cases hi with
      | lit hl => simp [literal] at hl
      | neg hi => exact .negOk (ih _ (.expr hi))
      | rep _ hr => simp [repetition] at hr
  | negFail _ ih =>
    intro _ hi
    cases hi with
    | expr hi =>
      obtain ⟨_, hi, up⟩ := irel_head hi _ _ rfl
      refine up _ _ ?_
      cases hi with
      | lit hl => simp [literal] at hl
      | neg hi => exact .negFail (ih _ (.expr hi))
      | rep _ hr => simp [repetition] at hr
  | optSome _ ih =>
    intro _ hi
    cases hi with
    | expr hi =>
      obtain ⟨_, hi, up⟩ := irel_head hi _ _ rfl
      refine up _ _ ?_
      cases hi with
      | lit hl => simp [literal] at hl
      | opt hi => exact .optSome (ih _ (.expr hi))
      | rep _ hr => simp [repetition] at hr
  | optNone _ ih =>
    intro _ hi
    cases hi with
    | expr hi =>
      obtain ⟨_, hi, up⟩ := irel_head hi _ _ rfl
      refine up _ _ ?_
      cases hi with
      | lit hl => simp [literal] at hl
      | opt hi => exact .optNone (ih _ (.expr hi))
      | rep _ hr => simp [repetition] at hr
  | separated _ ih =>
    intro _ hi
    cases hi with
    | expr hi =>
      obtain ⟨_, hi, up⟩ := irel_head hi _ _ rfl
      refine up _ _ ?_
      cases hi with
      | lit hl => simp [literal] at hl
      | separated hi => exact .separated (ih _ (.expr hi))
      | rep _ hr => simp [repetition] at hr
  | seq _ _ _ ih1 ih2 ih3 =>
    intro _ hi
    cases hi with
    | expr hi =>
      obtain ⟨_, hi, up⟩ := irel_head hi _ _ rfl
      refine up _ _ ?_
      cases hi with
      | lit hl => simp [literal] at hl
      | seq a1 a2 => exact .seq (ih1 _ (.expr a1)) (ih2 _ .trivia) (ih3 _ (.expr a2))
      | rep _ hr => simp [repetition] at hr
  | seqFail _ ih1 =>
    intro _ hi
    cases hi with
    | expr hi =>
      obtain ⟨_, hi, up⟩ := irel_head hi _ _ rfl
      refine up _ _ ?_
      cases hi with
      | lit hl => simp [literal] at hl
      | seq a1 a2 => exact .seqFail (ih1 _ (.expr a1))
      | rep _ hr => simp [repetition] at hr
  | seqTriviaFail _ _ ih1 ih2 =>
    intro _ hi
    cases hi with
    | expr hi =>
      obtain ⟨_, hi, up⟩ := irel_head hi _ _ rfl
      refine up _ _ ?_
      cases hi with
      | lit hl => simp [literal] at hl
      | seq a1 a2 => exact .seqTriviaFail (ih1 _ (.expr a1)) (ih2 _ .trivia)
      | rep _ hr => simp [repetition] at hr
  | choiceL _ ih =>
    intro _ hi
    cases hi with
    | expr hi =>
      obtain ⟨_, hi, up⟩ := irel_head hi _ _ rfl
      refine up _ _ ?_
      cases hi with
      | lit hl => simp [literal] at hl
      | choice a1 a2 => exact .choiceL (ih _ (.expr a1))
      | rep _ hr => simp [repetition] at hr
  | choiceR _ _ ih1 ih2 =>
    intro _ hi
    cases hi with
    | expr hi =>
      obtain ⟨_, hi, up⟩ := irel_head hi _ _ rfl
      refine up _ _ ?_
      cases hi with
      | lit hl => simp [literal] at hl
      | choice a1 a2 => exact .choiceR (ih1 _ (.expr a1)) (ih2 _ (.expr a2))
      | rep _ hr => simp [repetition] at hr
  | rep h1 _ ih =>
    intro _ hi
    cases hi with
    | expr hi =>
      obtain ⟨_, hi, up⟩ := irel_head hi _ _ rfl
      refine up _ _ ?_
      cases hi with
      | lit hl => rw [repetition_not_literal h1] at hl; simp at hl
      | rep a1 a2 a3 a4 =>
        rw [h1] at a2
        simp only [Option.some.injEq, Prod.mk.injEq] at a2
        obtain ⟨rfl, rfl, rfl⟩ := a2
        refine .rep a1 ?_
        rw [a3]
        exact ih _ (.reps a4)
      | _ => simp [repetition] at h1
  | triviaNone => intro _ hi; cases hi; exact .triviaNone
  | triviaRule h1 h2 _ ih =>
    intro _ hi
    cases hi
    obtain ⟨a, r, b1, b2⟩ := hs.triviaBack _ _ _ _ h1 h2
    obtain ⟨a', r', d1, d2, d3⟩ := hs.trivia _ _ _ _ b1 b2
    rw [h1] at d1; injection d1 with d1; subst d1
    rw [h2] at d2; injection d2 with d2; subst d2
    exact .triviaRule b1 b2 (ih _ (.expr d3))
  | unitFirst _ ih => intro _ hi; cases hi with | unit hi => exact .unitFirst (ih _ (.expr hi))
  | unitNext _ _ ih1 ih2 => intro _ hi; cases hi with | unit hi => exact .unitNext (ih1 _ .trivia) (ih2 _ (.expr hi))
  | unitTriviaFail _ ih => intro _ hi; cases hi with | unit hi => exact .unitTriviaFail (ih _ .trivia)
  | repsMax h => intro _ hi; cases hi with | reps hi => exact .repsMax h
  | repsMore h _ _ ih1 ih2 => intro _ hi; cases hi with | reps hi => exact .repsMore h (ih1 _ (.unit hi)) (ih2 _ (.reps hi))
  | repsFew h _ h2 ih => intro _ hi; cases hi with | reps hi => exact .repsFew h (ih _ (.unit hi)) h2
  | repsStop h _ h2 ih => intro _ hi; cases hi with | reps hi => exact .repsStop h (ih _ (.unit hi)) h2

end
end Pest3.Gen
