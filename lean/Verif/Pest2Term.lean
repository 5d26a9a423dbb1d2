import Verif.Pest2Rel

/-!
# Recognition ends

The usual check of PEGs: no repetition of something empty, and no rule reaches itself without consuming anything.  The check is computed for
the meta-grammar.
-/

namespace Pest3.Gen
open Pest3
open Pest3.Meta (MetaRule)

/-- May match without consuming anything; `nul` for rules. -/
def mayEmpty (nul : MetaRule → Bool) : PE → Bool
  | .str s => s.isEmpty
  | .range _ _ => false
  | .any => false
  | .ref r => nul r
  | .seq e f => mayEmpty nul e && mayEmpty nul f
  | .choice e f => mayEmpty nul e || mayEmpty nul f
  | .push e => mayEmpty nul e
  | _ => true

/-- No repetition of something that may be empty. -/
def wf (nul : MetaRule → Bool) : PE → Bool
  | .seq e f => wf nul e && wf nul f
  | .choice e f => wf nul e && wf nul f
  | .opt e => wf nul e
  | .rep e => wf nul e && !mayEmpty nul e
  | .more e => wf nul e && !mayEmpty nul e
  | .pos e => wf nul e
  | .neg e => wf nul e
  | .push e => wf nul e
  | _ => true

/-- Everything called before anything is consumed has a rank below `k`. -/
def headsBelow (nul : MetaRule → Bool) (rk : Mode → MetaRule → Nat) (m : Mode) (k : Nat) : PE → Bool
  | .ref r => rk m r < k
  | .seq e f => headsBelow nul rk m k e && (!mayEmpty nul e || headsBelow nul rk m k f)
  | .choice e f => headsBelow nul rk m k e && headsBelow nul rk m k f
  | .opt e => headsBelow nul rk m k e
  | .rep e => headsBelow nul rk m k e
  | .more e => headsBelow nul rk m k e
  | .pos e => headsBelow nul rk m k e
  | .neg e => headsBelow nul rk m k e
  | .push e => headsBelow nul rk m k e
  | _ => true

/-- Whether the implicit rule may be called. -/
def skips (rk : Mode → MetaRule → Nat) (m : Mode) (k : Nat) : Prop :=
  m = .nonAtomic → rk .atomic .whitespace < k ∧ rk .atomic .comment < k

/-- The check for a grammar. -/
structure Checked (g : Gram) (nul : MetaRule → Bool) (rk : Mode → MetaRule → Nat) : Prop where
  empty : ∀ r, mayEmpty nul (g r).2 = true → nul r = true
  wf : ∀ r, wf nul (g r).2 = true
  heads : ∀ m r, headsBelow nul rk ((g r).1.inside m) (rk m r) (g r).2 = true
  skips : ∀ m r, skips rk ((g r).1.inside m) (rk m r)
  space : nul .whitespace = false ∧ nul .comment = false

theorem Rec.shorter {g : Gram} {nul : MetaRule → Bool} (he : ∀ r, mayEmpty nul (g r).2 = true → nul r = true) {m e c r}
    (h : Rec g m e c r) : ∀ x ts, r = some (x, ts) → x.suf.length ≤ c.suf.length ∧
      (mayEmpty nul e = false → x.suf.length < c.suf.length) := by
  have le : ∀ {m e c x ts}, Rec g m e c (some (x, ts)) → x.suf.length ≤ c.suf.length := by
    intro m e c x ts h
    obtain ⟨t, h1, _⟩ := h.consumes _ _ rfl
    rw [h1]; simp
  suffices H : ∀ x ts, r = some (x, ts) → mayEmpty nul e = false → x.suf.length < c.suf.length from
    fun x ts hx => ⟨by subst hx; exact le h, H x ts hx⟩
  induction h with
  | str =>
    rename_i m s c
    intro x ts hx hn
    obtain ⟨c', h, hx⟩ := Option.map_eq_some_iff.mp hx
    cases hx
    obtain ⟨h1, _, _⟩ := eat_some h
    rw [h1]
    cases s with
    | nil => cases hn
    | cons => simp only [List.length_append, List.length_cons]; omega
  | range | any =>
    intro x ts hx _
    obtain ⟨c', h, hx⟩ := Option.map_eq_some_iff.mp hx
    cases hx
    obtain ⟨y, _, h1, _⟩ := eatIf_some h
    rw [h1]; simp
  | ref _ ih =>
    rename_i m r c c' ts _
    intro x ts hx hn
    cases hx
    refine ih _ _ rfl ?_
    cases h : mayEmpty nul (g r).2 with
    | false => rfl
    | true => rw [mayEmpty, he r h] at hn; cases hn
  | seq h1 h2 h3 ih1 _ ih3 =>
    intro x ts hx hn
    cases hx
    simp only [mayEmpty, Bool.and_eq_false_iff] at hn
    have l1 := le h1
    have l2 := le h2
    have l3 := le h3
    rcases hn with hn | hn
    · have := ih1 _ _ rfl hn; omega
    · have := ih3 _ _ rfl hn; omega
  | choice1 _ ih =>
    intro x ts hx hn
    cases hx
    simp only [mayEmpty, Bool.or_eq_false_iff] at hn
    exact ih _ _ rfl hn.1
  | choice2 _ _ _ ih =>
    intro x ts hx hn
    simp only [mayEmpty, Bool.or_eq_false_iff] at hn
    exact ih _ _ hx hn.2
  | push _ ih => intro x ts hx hn; cases hx; have := ih _ _ rfl hn; exact this
  | _ => first | (intro x ts hx hn; cases hn; done) | (intro x ts hx; cases hx; done)

section
variable {g : Gram} {nul : MetaRule → Bool} {rk : Mode → MetaRule → Nat}

/-- Expressions at a position of which all shorter ones are settled. -/
theorem total_heads (he : ∀ r, mayEmpty nul (g r).2 = true → nul r = true) {n k : Nat} {m : Mode}
    (ih1 : ∀ m e c, c.suf.length < n → wf nul e = true → ∃ r, Rec g m e c r)
    (ih2 : ∀ r c, c.suf.length = n → rk m r < k → ∃ x, Rec g m (.ref r) c x)
    (hs : ∀ c, c.suf.length = n → ∃ r, Rec g m .skip c r) :
    ∀ e, wf nul e = true → headsBelow nul rk m k e = true → ∀ c, c.suf.length = n → ∃ r, Rec g m e c r := by
  have anyskip : ∀ c, c.suf.length ≤ n → ∃ r, Rec g m .skip c r := by
    intro c hc
    rcases Nat.lt_or_ge c.suf.length n with h | h
    · exact ih1 _ _ _ h rfl
    · exact hs _ (by omega)
  intro e
  induction e with
  | str s => intro _ _ c _; exact ⟨_, .str⟩
  | range a b => intro _ _ c _; exact ⟨_, .range⟩
  | any => intro _ _ c _; exact ⟨_, .any⟩
  | soi => intro _ _ c _; exact ⟨_, .soi⟩
  | eoi => intro _ _ c _; exact ⟨_, .eoi⟩
  | ref r => intro _ h c hc; exact ih2 r c hc (by simpa [headsBelow] using h)
  | seq e f he' hf' =>
    intro hw hh c hc
    simp only [wf, headsBelow, Bool.and_eq_true] at hw hh
    obtain ⟨r1, h1⟩ := he' hw.1 hh.1 c hc
    cases r1 with
    | none => exact ⟨_, .seqFail h1⟩
    | some x =>
      obtain ⟨l1, s1⟩ := h1.shorter he _ _ rfl
      obtain ⟨r2, h2⟩ := anyskip x.1 (by omega)
      cases r2 with
      | none => exact ⟨_, .seqSkipFail h1 h2⟩
      | some y =>
        obtain ⟨l2, _⟩ := h2.shorter he _ _ rfl
        have : ∃ r3, Rec g m f y.1 r3 := by
          rcases Nat.lt_or_ge y.1.suf.length n with h | h
          · exact ih1 _ _ _ h hw.2
          · have hm : mayEmpty nul e = true := by
              cases hm : mayEmpty nul e with
              | true => rfl
              | false => have := s1 hm; omega
            rw [hm] at hh
            exact hf' hw.2 (by simpa using hh.2) _ (by omega)
        obtain ⟨r3, h3⟩ := this
        cases r3 with
        | none => exact ⟨_, .seqFail2 h1 h2 h3⟩
        | some z => exact ⟨_, .seq h1 h2 h3⟩
  | choice e f he' hf' =>
    intro hw hh c hc
    simp only [wf, headsBelow, Bool.and_eq_true] at hw hh
    obtain ⟨r1, h1⟩ := he' hw.1 hh.1 c hc
    cases r1 with
    | some x => exact ⟨_, .choice1 h1⟩
    | none =>
      obtain ⟨r2, h2⟩ := hf' hw.2 hh.2 c hc
      exact ⟨_, .choice2 h1 h2⟩
  | opt e he' =>
    intro hw hh c hc
    obtain ⟨r1, h1⟩ := he' hw hh c hc
    cases r1 with
    | some x => exact ⟨_, .optSome h1⟩
    | none => exact ⟨_, .optNone h1⟩
  | rep e he' =>
    intro hw hh c hc
    have hw' := hw
    simp only [wf, Bool.and_eq_true, Bool.not_eq_true'] at hw
    obtain ⟨r1, h1⟩ := he' hw.1 hh c hc
    cases r1 with
    | none => exact ⟨_, .repNone h1⟩
    | some x =>
      have := (h1.shorter he _ _ rfl).2 hw.2
      obtain ⟨r2, h2⟩ := ih1 m (.more e) x.1 (by omega) hw'
      cases r2 with
      | none => exact ⟨_, .repFail h1 h2⟩
      | some y => exact ⟨_, .rep h1 h2⟩
  | more e he' =>
    intro hw hh c hc
    have hw' := hw
    simp only [wf, Bool.and_eq_true, Bool.not_eq_true'] at hw
    obtain ⟨r0, h0⟩ := hs c hc
    cases r0 with
    | none => exact ⟨_, .moreSkipFail h0⟩
    | some s =>
      have l0 := (h0.shorter he _ _ rfl).1
      have : ∃ r, Rec g m e s.1 r := by
        rcases Nat.lt_or_ge s.1.suf.length n with h | h
        · exact ih1 _ _ _ h hw.1
        · exact he' hw.1 hh _ (by omega)
      obtain ⟨r1, h1⟩ := this
      cases r1 with
      | none => exact ⟨_, .moreNone h0 h1⟩
      | some x =>
        have := (h1.shorter he _ _ rfl).2 hw.2
        obtain ⟨r2, h2⟩ := ih1 m (.more e) x.1 (by omega) hw'
        cases r2 with
        | none => exact ⟨_, .moreFail h0 h1 h2⟩
        | some y => exact ⟨_, .more h0 h1 h2⟩
  | pos e he' =>
    intro hw hh c hc
    obtain ⟨r1, h1⟩ := he' hw hh c hc
    cases r1 with
    | some x => exact ⟨_, .pos h1⟩
    | none => exact ⟨_, .posFail h1⟩
  | neg e he' =>
    intro hw hh c hc
    obtain ⟨r1, h1⟩ := he' hw hh c hc
    cases r1 with
    | some x => exact ⟨_, .negFail h1⟩
    | none => exact ⟨_, .neg h1⟩
  | push e he' =>
    intro hw hh c hc
    obtain ⟨r1, h1⟩ := he' hw hh c hc
    cases r1 with
    | some x => exact ⟨_, .push h1⟩
    | none => exact ⟨_, .pushFail h1⟩
  | peek =>
    intro _ _ c _
    cases h : c.stk.getLast? with
    | none => exact ⟨_, .peekEmpty h⟩
    | some s => exact ⟨_, .peek h⟩
  | pop =>
    intro _ _ c _
    cases h : c.stk.getLast? with
    | none => exact ⟨_, .popEmpty h⟩
    | some s => exact ⟨_, .pop h⟩
  | skip => intro _ _ c hc; exact hs c hc

theorem skipBody_checked (hk : Checked g nul rk) {k : Nat} (h : rk .atomic .whitespace < k ∧ rk .atomic .comment < k) :
    wf nul skipBody = true ∧ headsBelow nul rk .atomic k skipBody = true := by
  constructor
  · simp [skipBody, wf, mayEmpty, hk.space.1, hk.space.2]
  · simp [skipBody, headsBelow, mayEmpty, h.1, h.2]

theorem total_at (hk : Checked g nul rk) {n : Nat}
    (ih1 : ∀ m e c, c.suf.length < n → wf nul e = true → ∃ r, Rec g m e c r) :
    ∀ k m, skips rk m k → ∀ e, wf nul e = true → headsBelow nul rk m k e = true → ∀ c, c.suf.length = n → ∃ r, Rec g m e c r := by
  intro k
  induction k using Nat.strongRecOn with
  | ind k ih =>
    have ih2 : ∀ m r c, c.suf.length = n → rk m r < k → ∃ x, Rec g m (.ref r) c x := by
      intro m r c hc hr
      obtain ⟨x, hx⟩ := ih (rk m r) hr _ (hk.skips m r) _ (hk.wf r) (hk.heads m r) c hc
      cases x with
      | none => exact ⟨_, .refFail hx⟩
      | some x => exact ⟨_, .ref hx⟩
    have hat : ∀ m, m ≠ .nonAtomic → ∀ e, wf nul e = true → headsBelow nul rk m k e = true →
        ∀ c, c.suf.length = n → ∃ r, Rec g m e c r :=
      fun m hm => total_heads hk.empty ih1 (ih2 m) fun c _ => ⟨_, .noSkip hm⟩
    intro m hs
    by_cases hm : m = .nonAtomic
    · subst hm
      refine total_heads hk.empty ih1 (ih2 _) fun c hc => ?_
      obtain ⟨w, h⟩ := skipBody_checked hk (hs rfl)
      obtain ⟨r, hr⟩ := hat .atomic (by simp) _ w h c hc
      cases r with
      | none => exact ⟨_, .skipFail hr⟩
      | some x => exact ⟨_, .skip hr⟩
    · exact hat m hm

theorem headsBelow_big {K : Nat} (hK : ∀ m r, rk m r < K) (m : Mode) : ∀ e, headsBelow nul rk m K e = true := by
  intro e
  induction e <;> simp_all [headsBelow]

theorem rec_total (hk : Checked g nul rk) {K : Nat} (hK : ∀ m r, rk m r < K) :
    ∀ n m e c, c.suf.length = n → wf nul e = true → ∃ r, Rec g m e c r := by
  intro n
  induction n using Nat.strongRecOn with
  | ind n ih =>
    intro m e c hc hw
    exact total_at hk (fun m e c h hw => ih _ h m e c rfl hw) K m (fun _ => ⟨hK _ _, hK _ _⟩) e hw (headsBelow_big hK m e) c hc

end

/-! ## The meta-grammar -/

/-- Rules that may match without consuming anything. -/
def metaNul : MetaRule → Bool
  | .innerStr | .innerRawStr | .docContent | .eoi => true
  | _ => false

/-- Ranks of rules. -/
def metaRank0 : MetaRule → Nat
  | .grammarRules => 9
  | .grammarRule => 8
  | .expression => 7
  | .term => 6
  | .node => 5
  | .terminal => 4
  | .path => 3
  | .infixOperator => 3
  | .identifier | .range | .choiceOperator | .postfixOperator => 2
  | .whitespace | .comment | .alphaNum | .string | .innerStr | .character | .integer | .call | .slice | .arguments
  | .overridableOperator | .prefixOperator | .boundedRepeat | .docContent | .innerChr => 1
  | _ => 0

def metaRank (m : Mode) (r : MetaRule) : Nat := if m = .nonAtomic then metaRank0 r + 10 else metaRank0 r

theorem meta_checked : Checked metaGrammar metaNul metaRank where
  empty := by intro r; cases r <;> decide
  wf := by intro r; cases r <;> decide
  heads := by intro m r; cases m <;> cases r <;> decide
  skips := by intro m r; unfold skips; cases m <;> cases r <;> decide
  space := ⟨rfl, rfl⟩

theorem meta_total (m : Mode) (e : PE) (h : wf metaNul e = true) (c : Cfg) : ∃ r, Rec metaGrammar m e c r :=
  rec_total meta_checked (K := 20) (by intro m r; cases m <;> cases r <;> decide) _ m e c rfl h

end Pest3.Gen
