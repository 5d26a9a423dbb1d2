import Verif.ThroughSpec
import Verif.InlineSim
import Verif.ShowsInv

/-!
# Tokens and events of grammars before and after inlining
-/

namespace Pest3.Gen
open Pest3

/-- Whatever matches has tokens. -/
theorem meaning_showsThrough {u : Unicode} {root : Module} {item : SItem} {c : Cfg} {r : Option Cfg}
    (h : Meaning u root item c r) : ∀ c', r = some c' → (∀ p t, item ≠ .trivia p t) → ∃ F, ShowsThrough u root item c c' F := by
  induction h with
  | literalOk h1 h2 h3 => rintro c' ⟨⟩ -; exact ⟨_, .literal h1 (.literalOk h1 h2 h3)⟩
  | builtinOk h1 h2 h3 h4 h5 h6 => rintro c' ⟨⟩ -; exact ⟨_, .builtin h1 h2 h3 h4 (.builtinOk h1 h2 h3 h4 h5 h6)⟩
  | sliceOk h1 h2 h3 h4 h5 => rintro c' ⟨⟩ -; exact ⟨_, .slice (.sliceOk h1 h2 h3 h4 h5)⟩
  | pushOk h1 h2 _ ih =>
    rintro c' ⟨⟩ -
    obtain ⟨F, hF⟩ := ih _ rfl (by simp)
    exact ⟨F, .push h1 h2 hF⟩
  | param h1 _ ih =>
    intro c' hr _
    obtain ⟨F, hF⟩ := ih _ hr (by simp)
    exact ⟨F, .param h1 hF⟩
  | rule h1 h2 h3 _ ih =>
    intro c' hr _
    obtain ⟨F, hF⟩ := ih _ hr (by simp)
    exact ⟨_, .rule h1 h2 h3 hF⟩
  | call h1 h2 h3 _ ih =>
    intro c' hr _
    obtain ⟨F, hF⟩ := ih _ hr (by simp)
    exact ⟨_, .call h1 h2 h3 hF⟩
  | posOk h ih => rintro c' ⟨⟩ -; exact ⟨_, .pos (.posOk h)⟩
  | negOk h ih => rintro c' ⟨⟩ -; exact ⟨_, .neg (.negOk h)⟩
  | seq _ h2 _ ih1 _ ih3 =>
    intro c' hr _
    obtain ⟨F, hF⟩ := ih1 _ rfl (by simp)
    obtain ⟨G, hG⟩ := ih3 _ hr (by simp)
    exact ⟨_, .seq hF h2 hG⟩
  | choiceL _ ih =>
    rintro c' ⟨⟩ -
    obtain ⟨F, hF⟩ := ih _ rfl (by simp)
    exact ⟨F, .choiceL hF⟩
  | choiceR h1 _ _ ih =>
    intro c' hr _
    obtain ⟨F, hF⟩ := ih _ hr (by simp)
    exact ⟨F, .choiceR h1 hF⟩
  | optSome _ ih =>
    rintro c' ⟨⟩ -
    obtain ⟨F, hF⟩ := ih _ rfl (by simp)
    exact ⟨F, .optSome hF⟩
  | optNone h _ => rintro c' ⟨⟩ -; exact ⟨_, .optNone h⟩
  | rep h1 _ ih =>
    intro c' hr _
    obtain ⟨F, hF⟩ := ih _ hr (by simp)
    exact ⟨F, .rep h1 hF⟩
  | separated _ ih =>
    intro c' hr _
    obtain ⟨F, hF⟩ := ih _ hr (by simp)
    exact ⟨F, .separated hF⟩
  | triviaNone => intro c' _ h; exact absurd rfl (h _ _)
  | triviaRule _ _ _ _ => intro c' _ h; exact absurd rfl (h _ _)
  | unitFirst _ ih =>
    intro c' hr _
    obtain ⟨F, hF⟩ := ih _ hr (by simp)
    exact ⟨F, .unitFirst hF⟩
  | unitNext h1 _ _ ih =>
    intro c' hr _
    obtain ⟨F, hF⟩ := ih _ hr (by simp)
    exact ⟨F, .unitNext h1 hF⟩
  | repsMax h => rintro c' ⟨⟩ -; exact ⟨_, .repsMax h⟩
  | repsMore h _ _ ih1 ih2 =>
    intro c' hr _
    obtain ⟨F, hF⟩ := ih1 _ rfl (by simp)
    obtain ⟨G, hG⟩ := ih2 _ hr (by simp)
    exact ⟨_, .repsMore h hF hG⟩
  | repsStop h1 h2 h3 _ => rintro c' ⟨⟩ -; exact ⟨_, .repsStop h1 h2 h3⟩
  | _ => intro c' hr; simp at hr

/-- The tokens do not change the result. -/
theorem ShowsThrough.meaning {u : Unicode} {root : Module} {it : SItem} {c c' : Cfg} {F : List (Pair RuleVal)} (h : ShowsThrough u root it c c' F) :
    Meaning u root it c (some c') := by
  induction h with
  | literal _ h => exact h
  | builtin _ _ _ _ h => exact h
  | slice h => exact h
  | push h1 h2 _ ih => exact .pushOk h1 h2 ih
  | param h1 _ ih => exact .param h1 ih
  | rule h1 h2 h3 _ ih => exact .rule h1 h2 h3 ih
  | call h1 h2 h3 _ ih => exact .call h1 h2 h3 ih
  | pos h => exact h
  | neg h => exact h
  | seq _ h _ ih1 ih2 => exact .seq ih1 h ih2
  | choiceL _ ih => exact .choiceL ih
  | choiceR h _ ih => exact .choiceR h ih
  | optSome _ ih => exact .optSome ih
  | optNone h => exact .optNone h
  | rep h _ ih => exact .rep h ih
  | separated _ ih => exact .separated ih
  | unitFirst _ ih => exact .unitFirst ih
  | unitNext h _ ih => exact .unitNext h ih
  | repsMax h => exact .repsMax h
  | repsMore h _ _ ih1 ih2 => exact .repsMore h ih1 ih2
  | repsStop h1 h2 h3 => exact .repsStop h1 h2 h3

/-- Whatever has a meaning has events. -/
theorem meaning_triesThrough {u : Unicode} {root : Module} (rank : RuleVal → Label) {item : SItem} {c : Cfg} {r : Option Cfg}
    (h : Meaning u root item c r) : ∀ f, ∃ es, TriesThrough u root rank f item c r es := by
  induction h with
  | literalOk h1 h2 h3 => exact fun f => ⟨_, .literal h1 (.literalOk h1 h2 h3)⟩
  | literalFail h1 h2 => exact fun f => ⟨_, .literal h1 (.literalFail h1 h2)⟩
  | builtinOk h1 h2 h3 h4 h5 h6 => exact fun f => ⟨_, .builtinOk h1 h2 h3 h4 (.builtinOk h1 h2 h3 h4 h5 h6)⟩
  | builtinFail h1 h2 h3 h4 h5 => exact fun f => ⟨_, .builtinFail h1 h2 h3 h4 (.builtinFail h1 h2 h3 h4 h5)⟩
  | sliceOk h1 h2 h3 h4 h5 => exact fun f => ⟨_, .sliceOk (.sliceOk h1 h2 h3 h4 h5)⟩
  | sliceFail h1 h2 h3 h4 => exact fun f => ⟨_, .sliceFail rfl (.sliceFail h1 h2 h3 h4)⟩
  | pushOk h1 h2 _ ih => exact fun f => let ⟨_, h⟩ := ih f; ⟨_, .pushOk h1 h2 h⟩
  | pushFail h1 h2 _ ih => exact fun f => let ⟨_, h⟩ := ih f; ⟨_, .pushFail h1 h2 h⟩
  | param h1 _ ih => exact fun f => let ⟨_, h⟩ := ih f; ⟨_, .param h1 h⟩
  | rule h1 h2 h3 _ ih => exact fun f => let ⟨_, h⟩ := ih f; ⟨_, .rule h1 h2 h3 h⟩
  | call h1 h2 h3 _ ih => exact fun f => let ⟨_, h⟩ := ih f; ⟨_, .call h1 h2 h3 h⟩
  | posOk _ ih => exact fun f => let ⟨_, h⟩ := ih true; ⟨_, .posOk h⟩
  | posFail _ ih => exact fun f => let ⟨_, h⟩ := ih true; ⟨_, .posFail h⟩
  | negOk _ ih => exact fun f => let ⟨_, h⟩ := ih false; ⟨_, .negOk h⟩
  | negFail _ ih => exact fun f => let ⟨_, h⟩ := ih false; ⟨_, .negFail h⟩
  | seq _ _ _ ih1 ih2 ih3 => exact fun f => let ⟨_, h1⟩ := ih1 f; let ⟨_, h2⟩ := ih2 f; let ⟨_, h3⟩ := ih3 f; ⟨_, .seq h1 h2 h3⟩
  | seqFail _ ih => exact fun f => let ⟨_, h⟩ := ih f; ⟨_, .seqFail h⟩
  | seqTriviaFail _ _ ih1 ih2 => exact fun f => let ⟨_, h1⟩ := ih1 f; let ⟨_, h2⟩ := ih2 f; ⟨_, .seqTriviaFail h1 h2⟩
  | choiceL _ ih => exact fun f => let ⟨_, h⟩ := ih f; ⟨_, .choiceL h⟩
  | choiceR _ _ ih1 ih2 => exact fun f => let ⟨_, h1⟩ := ih1 f; let ⟨_, h2⟩ := ih2 f; ⟨_, .choiceR h1 h2⟩
  | optSome _ ih => exact fun f => let ⟨_, h⟩ := ih f; ⟨_, .optSome h⟩
  | optNone _ ih => exact fun f => let ⟨_, h⟩ := ih f; ⟨_, .optNone h⟩
  | rep h1 _ ih => exact fun f => let ⟨_, h⟩ := ih f; ⟨_, .rep h1 h⟩
  | separated _ ih => exact fun f => let ⟨_, h⟩ := ih f; ⟨_, .separated h⟩
  | triviaNone => exact fun f => ⟨_, .triviaNone⟩
  | triviaRule h1 h2 _ ih => exact fun f => let ⟨_, h⟩ := ih f; ⟨_, .triviaRule h1 h2 h⟩
  | unitFirst _ ih => exact fun f => let ⟨_, h⟩ := ih f; ⟨_, .unitFirst h⟩
  | unitNext _ _ ih1 ih2 => exact fun f => let ⟨_, h1⟩ := ih1 f; let ⟨_, h2⟩ := ih2 f; ⟨_, .unitNext h1 h2⟩
  | unitTriviaFail _ ih => exact fun f => let ⟨_, h⟩ := ih f; ⟨_, .unitTriviaFail h⟩
  | repsMax h => exact fun f => ⟨_, .repsMax h⟩
  | repsMore h _ _ ih1 ih2 => exact fun f => let ⟨_, h1⟩ := ih1 f; let ⟨_, h2⟩ := ih2 f; ⟨_, .repsMore h h1 h2⟩
  | repsFew h _ h2 ih => exact fun f => let ⟨_, h1⟩ := ih f; ⟨_, .repsFew h h1 h2⟩
  | repsStop h _ h2 ih => exact fun f => let ⟨_, h1⟩ := ih f; ⟨_, .repsStop h h1 h2⟩

/-- The events do not change the result. -/
theorem TriesThrough.meaning {u : Unicode} {root : Module} {rank : RuleVal → Label} {f : Bool} {item : SItem} {c : Cfg} {r : Option Cfg} {es : List Ev}
    (h : TriesThrough u root rank f item c r es) : Meaning u root item c r := by
  induction h with
  | literal _ h => exact h
  | builtinOk _ _ _ _ h => exact h
  | builtinFail _ _ _ _ h => exact h
  | sliceOk h => exact h
  | sliceFail _ h => exact h
  | pushOk h1 h2 _ ih => exact .pushOk h1 h2 ih
  | pushFail h1 h2 _ ih => exact .pushFail h1 h2 ih
  | param h1 _ ih => exact .param h1 ih
  | rule h1 h2 h3 _ ih => exact .rule h1 h2 h3 ih
  | call h1 h2 h3 _ ih => exact .call h1 h2 h3 ih
  | posOk _ ih => exact .posOk ih
  | posFail _ ih => exact .posFail ih
  | negOk _ ih => exact .negOk ih
  | negFail _ ih => exact .negFail ih
  | seq _ _ _ ih1 ih2 ih3 => exact .seq ih1 ih2 ih3
  | seqFail _ ih => exact .seqFail ih
  | seqTriviaFail _ _ ih1 ih2 => exact .seqTriviaFail ih1 ih2
  | choiceL _ ih => exact .choiceL ih
  | choiceR _ _ ih1 ih2 => exact .choiceR ih1 ih2
  | optSome _ ih => exact .optSome ih
  | optNone _ ih => exact .optNone ih
  | rep h1 _ ih => exact .rep h1 ih
  | separated _ ih => exact .separated ih
  | triviaNone => exact .triviaNone
  | triviaRule h1 h2 _ ih => exact .triviaRule h1 h2 ih
  | unitFirst _ ih => exact .unitFirst ih
  | unitNext _ _ ih1 ih2 => exact .unitNext ih1 ih2
  | unitTriviaFail _ ih => exact .unitTriviaFail ih
  | repsMax h => exact .repsMax h
  | repsMore h _ _ ih1 ih2 => exact .repsMore h ih1 ih2
  | repsFew h _ h2 ih => exact .repsFew h ih h2
  | repsStop h _ h2 ih => exact .repsStop h ih h2

section
variable {u : Unicode} {m m' : Module}

theorem call_tokens {p p' q : List Name} {r r' : Rule} (hg : ¬ Gone u m p q) (ht : target u m p q = some (.rule p' r)) (hr : r'.name = r.name ∧ r'.silent = r.silent) (c c' : Cfg)
    (F : Toks) : callTokens p' r c c' F = tokens p' r' c c' F := by
  have hno : ¬ (p' = [] ∧ r.inlined = true) := by
    rintro ⟨rfl, h⟩
    exact hg ⟨r, ht, h⟩
  rw [callTokens, if_neg hno, tokens, tokens, hr.1, hr.2]

theorem call_tried {rank : RuleVal → Label} {p p' q : List Name} {r r' : Rule} (hg : ¬ Gone u m p q) (ht : target u m p q = some (.rule p' r)) (hr : r'.name = r.name ∧ r'.silent = r.silent) (f : Bool)
    (c : Cfg) (res : Option Cfg) (es : List Ev) : callTried rank p' r f c res es = tried rank p' r' f c res es := by
  have hno : ¬ (p' = [] ∧ r.inlined = true) := by
    rintro ⟨rfl, h⟩
    exact hg ⟨r, ht, h⟩
  rw [callTried, if_neg hno, tried, tried, hr.1]

/-- Inlining keeps the tokens. -/
theorem shows_inline (hs : Sim u m m') {item c c' F} (h : ShowsThrough u m item c c' F) :
    ∀ item', ISim u m item item' → Shows u m' item' c c' F := by
  induction h with
  | literal h1 h2 =>
    intro _ hi
    have hm := meaning_inline hs h2 _ hi
    cases hi with
    | expr hi => cases hi with
      | lit _ => exact .literal h1 hm
      | rep hr => rw [repetition_not_literal hr] at h1; simp at h1
      | _ => simp [literal] at h1
  | builtin h1 h2 h3 h4 h5 =>
    intro _ hi
    have hm := meaning_inline hs h5 _ hi
    rcases plainRef_cases h1 with rfl | rfl
    · cases hi with
      | expr hi => cases hi with
        | lit hl => simp [literal] at hl
        | ref _ hn _ => exact .builtin rfl hn ((hs.builtin _ _ _).mp h3) h4 hm
        | param hl => rw [h2 _ rfl] at hl; simp at hl
        | subst hl => rw [h2 _ rfl] at hl; simp at hl
        | rep hr => simp [repetition] at hr
    · cases hi with
      | expr hi => cases hi with
        | lit hl => simp [literal] at hl
        | call _ hn _ ha =>
          cases ha
          exact .builtin rfl hn ((hs.builtin _ _ _).mp h3) h4 hm
        | inline _ ht => rw [h3] at ht; simp at ht
        | rep hr => simp [repetition] at hr
  | slice h =>
    intro _ hi
    have hm := meaning_inline hs h _ hi
    cases hi with
    | expr hi => cases hi with
      | lit hl => simp [literal] at hl
      | slice _ hn => exact .slice hm
      | rep hr => simp [repetition] at hr
  | push h1 h2 _ ih =>
    intro _ hi
    cases hi with
    | expr hi => cases hi with
      | lit hl => simp [literal] at hl
      | call _ hn _ ha =>
        cases ha with
        | argsCons a1 a2 => cases a2; exact .push hn ((hs.builtin _ _ _).mp h2) (ih _ (.expr a1))
      | inline _ ht => rw [h2] at ht; simp at ht
      | rep hr => simp [repetition] at hr
  | param h1 _ ih =>
    intro _ hi
    cases hi with
    | expr hi => cases hi with
      | lit hl => simp [literal] at hl
      | ref hn => rw [hn _ rfl] at h1; simp at h1
      | param a1 a2 a3 =>
        rw [h1] at a1; injection a1 with a1; subst a1
        exact .param a2 (ih _ (.expr a3))
      | subst a1 a2 =>
        rw [h1] at a1; injection a1 with a1; subst a1
        exact ih _ (.expr a2)
      | rep hr => simp [repetition] at hr
  | rule h1 h2 h3 _ ih =>
    intro _ hi
    cases hi with
    | expr hi => cases hi with
      | lit hl => simp [literal] at hl
      | ref _ hn hg =>
        obtain ⟨r', b1, b2, b4, b3⟩ := hs.rule _ _ _ _ hg h2
        have := Shows.rule hn b1 (b2.trans h3) (ih _ (.expr (b3 [] [] .nil fun x => by simp [lookupClo, h3])))
        rw [tokens, b4.1, b4.2] at this
        exact this
      | param hl => rw [h1 _ rfl] at hl; simp at hl
      | subst hl => rw [h1 _ rfl] at hl; simp at hl
      | rep hr => simp [repetition] at hr
  | call h1 h2 h3 _ ih =>
    intro _ hi
    cases hi with
    | expr hi => cases hi with
      | lit hl => simp [literal] at hl
      | call _ hn hg ha =>
        obtain ⟨r', b1, b2, b4, b3⟩ := hs.rule _ _ _ _ hg h2
        rw [call_tokens hg h2 b4]
        refine .call hn b1 (by rw [b2, h3, irel_args_length ha]) ?_
        rw [b2]
        exact ih _ (.expr (b3 _ _ (irel_zip ha _) fun x => ⟨fun h => lookup_zip_some (by simp [h3]) h, fun ⟨c, h⟩ => lookup_zip_mem h⟩))
      | inline _ ht hf _ hb =>
        rw [h2] at ht
        simp only [Option.some.injEq, Target.rule.injEq] at ht
        obtain ⟨rfl, rfl⟩ := ht
        rw [callTokens, if_pos ⟨rfl, hf⟩]
        exact ih _ (.expr hb)
      | rep hr => simp [repetition] at hr
  | pos h =>
    intro _ hi
    have hm := meaning_inline hs h _ hi
    cases hi with
    | expr hi => cases hi with
      | lit hl => simp [literal] at hl
      | pos hi => exact .pos hm
      | rep hr => simp [repetition] at hr
  | neg h =>
    intro _ hi
    have hm := meaning_inline hs h _ hi
    cases hi with
    | expr hi => cases hi with
      | lit hl => simp [literal] at hl
      | neg hi => exact .neg hm
      | rep hr => simp [repetition] at hr
  | seq _ h _ ih1 ih3 =>
    intro _ hi
    cases hi with
    | expr hi => cases hi with
      | lit hl => simp [literal] at hl
      | seq a1 a2 => exact .seq (ih1 _ (.expr a1)) (meaning_inline hs h _ .trivia) (ih3 _ (.expr a2))
      | rep hr => simp [repetition] at hr
  | choiceL _ ih =>
    intro _ hi
    cases hi with
    | expr hi => cases hi with
      | lit hl => simp [literal] at hl
      | choice a1 a2 => exact .choiceL (ih _ (.expr a1))
      | rep hr => simp [repetition] at hr
  | choiceR h _ ih =>
    intro _ hi
    cases hi with
    | expr hi => cases hi with
      | lit hl => simp [literal] at hl
      | choice a1 a2 => exact .choiceR (meaning_inline hs h _ (.expr a1)) (ih _ (.expr a2))
      | rep hr => simp [repetition] at hr
  | optSome _ ih =>
    intro _ hi
    cases hi with
    | expr hi => cases hi with
      | lit hl => simp [literal] at hl
      | opt hi => exact .optSome (ih _ (.expr hi))
      | rep hr => simp [repetition] at hr
  | optNone h =>
    intro _ hi
    cases hi with
    | expr hi => cases hi with
      | lit hl => simp [literal] at hl
      | opt hi => exact .optNone (meaning_inline hs h _ (.expr hi))
      | rep hr => simp [repetition] at hr
  | rep h1 _ ih =>
    intro _ hi
    cases hi with
    | expr hi => cases hi with
      | lit hl => rw [repetition_not_literal h1] at hl; simp at hl
      | rep a1 a2 a3 a4 =>
        rw [h1] at a1
        simp only [Option.some.injEq, Prod.mk.injEq] at a1
        obtain ⟨rfl, rfl, rfl⟩ := a1
        refine .rep a2 ?_
        rw [← a3]
        exact ih _ (.reps a4)
      | _ => simp [repetition] at h1
  | separated _ ih =>
    intro _ hi
    cases hi with
    | expr hi => cases hi with
      | lit hl => simp [literal] at hl
      | separated hi => exact .separated (ih _ (.expr hi))
      | rep hr => simp [repetition] at hr
  | unitFirst _ ih => intro _ hi; cases hi with | unit hi => exact .unitFirst (ih _ (.expr hi))
  | unitNext h _ ih2 => intro _ hi; cases hi with | unit hi => exact .unitNext (meaning_inline hs h _ .trivia) (ih2 _ (.expr hi))
  | repsMax h => intro _ hi; cases hi with | reps hi => exact .repsMax h
  | repsMore h _ _ ih1 ih2 => intro _ hi; cases hi with | reps hi => exact .repsMore h (ih1 _ (.unit hi)) (ih2 _ (.reps hi))
  | repsStop h h1 h2 => intro _ hi; cases hi with | reps hi => exact .repsStop h (meaning_inline hs h1 _ (.unit hi)) h2

/-- Inlining keeps the events. -/
theorem tries_inline {rank : RuleVal → Label} (hs : Sim u m m') {f item c r es} (h : TriesThrough u m rank f item c r es) :
    ∀ item', ISim u m item item' → Tries u m' rank f item' c r es := by
  induction h with
  | literal h1 h2 =>
    intro _ hi
    have hm := meaning_inline hs h2 _ hi
    cases hi with
    | expr hi => cases hi with
      | lit _ => exact .literal h1 hm
      | rep hr => rw [repetition_not_literal hr] at h1; simp at h1
      | _ => simp [literal] at h1
  | builtinOk h1 h2 h3 h4 h5 =>
    intro _ hi
    have hm := meaning_inline hs h5 _ hi
    rcases plainRef_cases h1 with rfl | rfl
    · cases hi with
      | expr hi => cases hi with
        | lit hl => simp [literal] at hl
        | ref _ hn _ => exact .builtinOk rfl hn ((hs.builtin _ _ _).mp h3) h4 hm
        | param hl => rw [h2 _ rfl] at hl; simp at hl
        | subst hl => rw [h2 _ rfl] at hl; simp at hl
        | rep hr => simp [repetition] at hr
    · cases hi with
      | expr hi => cases hi with
        | lit hl => simp [literal] at hl
        | call _ hn _ ha =>
          cases ha
          exact .builtinOk rfl hn ((hs.builtin _ _ _).mp h3) h4 hm
        | inline _ ht => rw [h3] at ht; simp at ht
        | rep hr => simp [repetition] at hr
  | builtinFail h1 h2 h3 h4 h5 =>
    intro _ hi
    have hm := meaning_inline hs h5 _ hi
    rcases plainRef_cases h1 with rfl | rfl
    · cases hi with
      | expr hi => cases hi with
        | lit hl => simp [literal] at hl
        | ref _ hn _ => exact .builtinFail rfl hn ((hs.builtin _ _ _).mp h3) h4 hm
        | param hl => rw [h2 _ rfl] at hl; simp at hl
        | subst hl => rw [h2 _ rfl] at hl; simp at hl
        | rep hr => simp [repetition] at hr
    · cases hi with
      | expr hi => cases hi with
        | lit hl => simp [literal] at hl
        | call _ hn _ ha =>
          cases ha
          exact .builtinFail rfl hn ((hs.builtin _ _ _).mp h3) h4 hm
        | inline _ ht => rw [h3] at ht; simp at ht
        | rep hr => simp [repetition] at hr
  | sliceOk h =>
    intro _ hi
    have hm := meaning_inline hs h _ hi
    cases hi with
    | expr hi => cases hi with
      | lit hl => simp [literal] at hl
      | slice _ hn => exact .sliceOk hm
      | rep hr => simp [repetition] at hr
  | sliceFail h0 h =>
    intro _ hi
    have hm := meaning_inline hs h _ hi
    cases hi with
    | expr hi => cases hi with
      | lit hl => simp [literal] at hl
      | slice _ hn => exact .sliceFail h0 hm
      | rep hr => simp [repetition] at hr
  | pushOk h1 h2 _ ih =>
    intro _ hi
    cases hi with
    | expr hi => cases hi with
      | lit hl => simp [literal] at hl
      | call _ hn _ ha =>
        cases ha with
        | argsCons a1 a2 => cases a2; exact .pushOk hn ((hs.builtin _ _ _).mp h2) (ih _ (.expr a1))
      | inline _ ht => rw [h2] at ht; simp at ht
      | rep hr => simp [repetition] at hr
  | pushFail h1 h2 _ ih =>
    intro _ hi
    cases hi with
    | expr hi => cases hi with
      | lit hl => simp [literal] at hl
      | call _ hn _ ha =>
        cases ha with
        | argsCons a1 a2 => cases a2; exact .pushFail hn ((hs.builtin _ _ _).mp h2) (ih _ (.expr a1))
      | inline _ ht => rw [h2] at ht; simp at ht
      | rep hr => simp [repetition] at hr
  | param h1 _ ih =>
    intro _ hi
    cases hi with
    | expr hi => cases hi with
      | lit hl => simp [literal] at hl
      | ref hn => rw [hn _ rfl] at h1; simp at h1
      | param a1 a2 a3 =>
        rw [h1] at a1; injection a1 with a1; subst a1
        exact .param a2 (ih _ (.expr a3))
      | subst a1 a2 =>
        rw [h1] at a1; injection a1 with a1; subst a1
        exact ih _ (.expr a2)
      | rep hr => simp [repetition] at hr
  | rule h1 h2 h3 _ ih =>
    intro _ hi
    cases hi with
    | expr hi => cases hi with
      | lit hl => simp [literal] at hl
      | ref _ hn hg =>
        obtain ⟨r', b1, b2, b4, b3⟩ := hs.rule _ _ _ _ hg h2
        have := Tries.rule hn b1 (b2.trans h3) (ih _ (.expr (b3 [] [] .nil fun x => by simp [lookupClo, h3])))
        rw [tried, b4.1] at this
        exact this
      | param hl => rw [h1 _ rfl] at hl; simp at hl
      | subst hl => rw [h1 _ rfl] at hl; simp at hl
      | rep hr => simp [repetition] at hr
  | call h1 h2 h3 _ ih =>
    intro _ hi
    cases hi with
    | expr hi => cases hi with
      | lit hl => simp [literal] at hl
      | call _ hn hg ha =>
        obtain ⟨r', b1, b2, b4, b3⟩ := hs.rule _ _ _ _ hg h2
        rw [call_tried hg h2 b4]
        refine .call hn b1 (by rw [b2, h3, irel_args_length ha]) ?_
        rw [b2]
        exact ih _ (.expr (b3 _ _ (irel_zip ha _) fun x => ⟨fun h => lookup_zip_some (by simp [h3]) h, fun ⟨c, h⟩ => lookup_zip_mem h⟩))
      | inline _ ht hf _ hb =>
        rw [h2] at ht
        simp only [Option.some.injEq, Target.rule.injEq] at ht
        obtain ⟨rfl, rfl⟩ := ht
        rw [callTried, if_pos ⟨rfl, hf⟩]
        exact ih _ (.expr hb)
      | rep hr => simp [repetition] at hr
  | posOk _ ih =>
    intro _ hi
    cases hi with
    | expr hi => cases hi with
      | lit hl => simp [literal] at hl
      | pos hi => exact .posOk (ih _ (.expr hi))
      | rep hr => simp [repetition] at hr
  | posFail _ ih =>
    intro _ hi
    cases hi with
    | expr hi => cases hi with
      | lit hl => simp [literal] at hl
      | pos hi => exact .posFail (ih _ (.expr hi))
      | rep hr => simp [repetition] at hr
  | negOk _ ih =>
    intro _ hi
    cases hi with
    | expr hi => cases hi with
      | lit hl => simp [literal] at hl
      | neg hi => exact .negOk (ih _ (.expr hi))
      | rep hr => simp [repetition] at hr
  | negFail _ ih =>
    intro _ hi
    cases hi with
    | expr hi => cases hi with
      | lit hl => simp [literal] at hl
      | neg hi => exact .negFail (ih _ (.expr hi))
      | rep hr => simp [repetition] at hr
  | seq _ _ _ ih1 ih2 ih3 =>
    intro _ hi
    cases hi with
    | expr hi => cases hi with
      | lit hl => simp [literal] at hl
      | seq a1 a2 => exact .seq (ih1 _ (.expr a1)) (ih2 _ .trivia) (ih3 _ (.expr a2))
      | rep hr => simp [repetition] at hr
  | seqFail _ ih1 =>
    intro _ hi
    cases hi with
    | expr hi => cases hi with
      | lit hl => simp [literal] at hl
      | seq a1 a2 => exact .seqFail (ih1 _ (.expr a1))
      | rep hr => simp [repetition] at hr
  | seqTriviaFail _ _ ih1 ih2 =>
    intro _ hi
    cases hi with
    | expr hi => cases hi with
      | lit hl => simp [literal] at hl
      | seq a1 a2 => exact .seqTriviaFail (ih1 _ (.expr a1)) (ih2 _ .trivia)
      | rep hr => simp [repetition] at hr
  | choiceL _ ih =>
    intro _ hi
    cases hi with
    | expr hi => cases hi with
      | lit hl => simp [literal] at hl
      | choice a1 a2 => exact .choiceL (ih _ (.expr a1))
      | rep hr => simp [repetition] at hr
  | choiceR _ _ ih1 ih2 =>
    intro _ hi
    cases hi with
    | expr hi => cases hi with
      | lit hl => simp [literal] at hl
      | choice a1 a2 => exact .choiceR (ih1 _ (.expr a1)) (ih2 _ (.expr a2))
      | rep hr => simp [repetition] at hr
  | optSome _ ih =>
    intro _ hi
    cases hi with
    | expr hi => cases hi with
      | lit hl => simp [literal] at hl
      | opt hi => exact .optSome (ih _ (.expr hi))
      | rep hr => simp [repetition] at hr
  | optNone _ ih =>
    intro _ hi
    cases hi with
    | expr hi => cases hi with
      | lit hl => simp [literal] at hl
      | opt hi => exact .optNone (ih _ (.expr hi))
      | rep hr => simp [repetition] at hr
  | rep h1 _ ih =>
    intro _ hi
    cases hi with
    | expr hi => cases hi with
      | lit hl => rw [repetition_not_literal h1] at hl; simp at hl
      | rep a1 a2 a3 a4 =>
        rw [h1] at a1
        simp only [Option.some.injEq, Prod.mk.injEq] at a1
        obtain ⟨rfl, rfl, rfl⟩ := a1
        refine .rep a2 ?_
        rw [← a3]
        exact ih _ (.reps a4)
      | _ => simp [repetition] at h1
  | separated _ ih =>
    intro _ hi
    cases hi with
    | expr hi => cases hi with
      | lit hl => simp [literal] at hl
      | separated hi => exact .separated (ih _ (.expr hi))
      | rep hr => simp [repetition] at hr
  | triviaNone => intro _ hi; cases hi; exact .triviaNone
  | triviaRule h1 h2 _ ih =>
    intro _ hi
    cases hi
    obtain ⟨a', r', b1, b2, b3⟩ := hs.trivia _ _ _ _ h1 h2
    exact .triviaRule b1 b2 (ih _ (.expr b3))
  | unitFirst _ ih => intro _ hi; cases hi with | unit hi => exact .unitFirst (ih _ (.expr hi))
  | unitNext _ _ ih1 ih2 => intro _ hi; cases hi with | unit hi => exact .unitNext (ih1 _ .trivia) (ih2 _ (.expr hi))
  | unitTriviaFail _ ih => intro _ hi; cases hi with | unit hi => exact .unitTriviaFail (ih _ .trivia)
  | repsMax h => intro _ hi; cases hi with | reps hi => exact .repsMax h
  | repsMore h _ _ ih1 ih2 => intro _ hi; cases hi with | reps hi => exact .repsMore h (ih1 _ (.unit hi)) (ih2 _ (.reps hi))
  | repsFew h _ h2 ih => intro _ hi; cases hi with | reps hi => exact .repsFew h (ih _ (.unit hi)) h2
  | repsStop h _ h2 ih => intro _ hi; cases hi with | reps hi => exact .repsStop h (ih _ (.unit hi)) h2

/-- The tokens after inlining are those before, and nothing else is. -/
theorem shows_inline_iff (hs : Sim u m m') {item item'} (hi : ISim u m item item') (ht : ∀ p t, item ≠ .trivia p t) {c c' F} :
    Shows u m' item' c c' F ↔ ShowsThrough u m item c c' F := by
  refine ⟨fun h => ?_, fun h => shows_inline hs h _ hi⟩
  obtain ⟨G, hG⟩ := meaning_showsThrough (meaning_of_inline hs h.meaning _ hi) _ rfl ht
  have := Shows.det h (some (c', G)) (shows_inline hs hG _ hi)
  simp only [Option.some.injEq, Prod.mk.injEq, true_and] at this
  rw [← this]
  exact hG

end

end Pest3.Gen
