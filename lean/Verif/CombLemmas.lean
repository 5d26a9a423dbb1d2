import Verif.Matches

/-!
# Sequences and repetitions in terms of runs: specification vocabulary and lemmas
-/

namespace Pest3

/-- Fields matched one after the other, one trivia match between neighbours, none at the ends;
`pieces` are the texts matched, trivia included. -/
inductive Concat {S : Type} (so : StackOps S) (saved : S → List (List Span)) (env : Env) (inp : Str) :
    List (Node × Node) → Cfg → List Span → List Text → Cfg → List Span → List Tree → Prop
  | nil {c ss} : Concat so saved env inp [] c ss [] c ss []
  | cons {tr n l c ss c₁ ss₁ u w c₂ ss₂ m t ps c' ss' ts} :
      Yields so saved env inp tr c ss c₁ ss₁ u → c₁.pre = c.pre ++ w →
      Yields so saved env inp n c₁ ss₁ c₂ ss₂ t → c₂.pre = c₁.pre ++ m →
      Concat so saved env inp l c₂ ss₂ ps c' ss' ts →
      Concat so saved env inp ((tr, n) :: l) c ss (w :: m :: ps) c' ss' (t :: ts)

/-- The iterations of a repetition: the body, with one trivia match before every iteration but the
first.  `first` tells whether the next iteration is the first one. -/
inductive Iters {S : Type} (so : StackOps S) (saved : S → List (List Span)) (env : Env) (inp : Str) (n tr : Node) :
    Bool → Cfg → List Span → Cfg → List Span → List Tree → Prop
  | nil {first c ss} : Iters so saved env inp n tr first c ss c ss []
  | first {c ss c₁ ss₁ t c' ss' ts} : Yields so saved env inp n c ss c₁ ss₁ t →
      Iters so saved env inp n tr false c₁ ss₁ c' ss' ts →
      Iters so saved env inp n tr true c ss c' ss' (t :: ts)
  | next {c ss c₀ ss₀ u c₁ ss₁ t c' ss' ts} : Yields so saved env inp tr c ss c₀ ss₀ u →
      Yields so saved env inp n c₀ ss₀ c₁ ss₁ t → Iters so saved env inp n tr false c₁ ss₁ c' ss' ts →
      Iters so saved env inp n tr false c ss c' ss' (t :: ts)

/-- A further iteration fails: the body fails, or (except for the first iteration) the trivia fails. -/
def IterFails {S : Type} (so : StackOps S) (saved : S → List (List Span)) (env : Env) (inp : Str) (n tr : Node)
    (first : Bool) (c : Cfg) (ss : List Span) : Prop :=
  if first then FailsAt so saved env n c
  else FailsAt so saved env tr c ∨
    ∃ c₁ ss₁ u, Yields so saved env inp tr c ss c₁ ss₁ u ∧ FailsAt so saved env n c₁

theorem Iters.nil_eq {S : Type} {so : StackOps S} {saved : S → List (List Span)} {env : Env} {inp : Str} {n tr : Node}
    {first : Bool} {c c' : Cfg} {ss ss' : List Span} (h : Iters so saved env inp n tr first c ss c' ss' []) :
    c = c' ∧ ss = ss' := by
  cases h; exact ⟨rfl, rfl⟩

section
variable {S : Type} {so : StackOps S} {saved : S → List (List Span)} (hl : Lawful so saved) (env : Env)
  {inp : Str}

theorem yields_of_peg (hl : Lawful so saved) {env : Env} {n : Node} {c c' : Cfg} {ss : List Span} (hh : Here inp c ss)
    (h : Peg env (.node n) c (some c')) :
    ∃ ss' t, Yields so saved env inp n c ss c' ss' t ∧ Here inp c' ss' := by
  obtain ⟨p, st, hp, hr, hco, rfl⟩ := here_realise hl hh
  obtain ⟨N, o, st', hN, hcorr⟩ := parse_complete hl hp hr hco h
  cases hcorr with
  | ok e1 e2 e3 e4 =>
    obtain ⟨⟨q, t⟩, rfl, rfl⟩ := Option.map_eq_some_iff.1 e1
    have hy : Yields so saved env inp n c (so.elems st.stk) c' (so.elems st'.stk) t :=
      ⟨N, p, st, q, st', hp, hr, hco, rfl, hN N (Nat.le_refl _), e3, rfl⟩
    exact ⟨_, t, hy, (((yields_iff hl).1 hy).2.here hl hh).1⟩

theorem peg_pre {env : Env} {n : Node} {c c' : Cfg} (h : Peg env (.node n) c (some c')) : ∃ m, c'.pre = c.pre ++ m := by
  obtain ⟨m, h, _⟩ := h.consumes c' rfl
  exact ⟨m, h⟩

theorem concat_pieces {env : Env} {l c ss ps c' ss' ts} (h : Concat so saved env inp l c ss ps c' ss' ts) :
    c'.pre = c.pre ++ ps.flatten := by
  induction h with
  | nil => simp
  | cons _ h1 _ h2 _ ih => rw [ih, h2, h1]; simp

include hl

theorem concat_iff (l : List (Node × Node)) : ∀ {c : Cfg} {ss : List Span} (c' : Cfg) (ss' : List Span) (ts : List Tree),
    Here inp c ss →
    (Builds env inp (.fields false l) c ss c' ss' ts ↔ ∃ ps, Concat so saved env inp l c ss ps c' ss' ts) := by
  induction l with
  | nil =>
    intro c ss c' ss' ts hh
    constructor
    · intro h; cases h; exact ⟨[], .nil⟩
    · rintro ⟨ps, h⟩; cases h; exact .fieldsNil
  | cons f l ih =>
    intro c ss c' ss' ts hh
    obtain ⟨tr, n⟩ := f
    constructor
    · intro h
      cases h with
      | fieldsNext h1 h2 h3 =>
        obtain ⟨hh1, u, rfl⟩ := h1.here hl hh
        obtain ⟨hh2, _⟩ := h2.here hl hh1
        obtain ⟨ps, h3⟩ := (ih _ _ _ hh2).1 h3
        obtain ⟨w, hw⟩ := peg_pre h1.peg
        obtain ⟨m, hm⟩ := peg_pre h2.peg
        exact ⟨_, .cons ((yields_iff hl).2 ⟨hh, h1⟩) hw ((yields_iff hl).2 ⟨hh1, h2⟩) hm h3⟩
    · rintro ⟨ps, h⟩
      cases h with
      | cons h1 _ h2 _ h3 =>
        obtain ⟨_, h1⟩ := (yields_iff hl).1 h1
        obtain ⟨hh1, h2⟩ := (yields_iff hl).1 h2
        obtain ⟨hh2, _⟩ := h2.here hl hh1
        exact .fieldsNext h1 h2 ((ih _ _ _ hh2).2 ⟨_, h3⟩)

theorem concat_none_iff (l : List (Node × Node)) : ∀ (c : Cfg) (ss : List Span), Here inp c ss →
    (Peg env (.fields false l) c none ↔
      ∃ l₁ tr' n' l₂ ps c₂ ss₂ ts, l = l₁ ++ (tr', n') :: l₂ ∧ Concat so saved env inp l₁ c ss ps c₂ ss₂ ts ∧
      (FailsAt so saved env tr' c₂ ∨
        ∃ c₃ ss₃ u, Yields so saved env inp tr' c₂ ss₂ c₃ ss₃ u ∧ FailsAt so saved env n' c₃)) := by
  induction l with
  | nil =>
    intro c ss hh
    constructor
    · intro h; cases h
    · rintro ⟨l₁, tr', n', l₂, _, _, _, _, h, _⟩
      simp at h
  | cons f l ih =>
    intro c ss hh
    obtain ⟨tr, n⟩ := f
    constructor
    · intro h
      cases h with
      | fieldsNext h1 h2 h3 =>
        obtain ⟨ss1, u, hy1, hh1⟩ := yields_of_peg hl hh h1
        obtain ⟨ss2, t, hy2, hh2⟩ := yields_of_peg hl hh1 h2
        obtain ⟨l₁, tr', n', l₂, ps, c₂, ss₂, ts, rfl, hc, hf⟩ := (ih _ _ hh2).1 h3
        obtain ⟨w, hw⟩ := peg_pre h1
        obtain ⟨m, hm⟩ := peg_pre h2
        exact ⟨(tr, n) :: l₁, tr', n', l₂, _, c₂, ss₂, _, rfl, .cons hy1 hw hy2 hm hc, hf⟩
      | fieldsTriviaFail h1 => exact ⟨[], tr, n, l, [], c, ss, [], rfl, .nil, .inl ((failsAt_iff hl).2 h1)⟩
      | fieldsNextFail h1 h2 =>
        obtain ⟨ss1, u, hy1, hh1⟩ := yields_of_peg hl hh h1
        exact ⟨[], tr, n, l, [], c, ss, [], rfl, .nil, .inr ⟨_, _, _, hy1, (failsAt_iff hl).2 h2⟩⟩
    · rintro ⟨l₁, tr', n', l₂, ps, c₂, ss₂, ts, he, hc, hf⟩
      cases l₁ with
      | nil =>
        simp only [List.nil_append, List.cons.injEq, Prod.mk.injEq] at he
        obtain ⟨⟨rfl, rfl⟩, rfl⟩ := he
        cases hc
        rcases hf with hf | ⟨c₃, ss₃, u, hy, hf⟩
        · exact .fieldsTriviaFail ((failsAt_iff hl).1 hf)
        · exact .fieldsNextFail ((yields_iff hl).1 hy).2.peg ((failsAt_iff hl).1 hf)
      | cons f l₁ =>
        simp only [List.cons_append, List.cons.injEq] at he
        obtain ⟨rfl, rfl⟩ := he
        cases hc with
        | cons h1 _ h2 _ h3 =>
          obtain ⟨_, h1⟩ := (yields_iff hl).1 h1
          obtain ⟨hh1, h2⟩ := (yields_iff hl).1 h2
          exact .fieldsNext h1.peg h2.peg ((ih _ _ (h2.here hl hh1).1).2 ⟨_, _, _, _, _, _, _, _, rfl, h3, hf⟩)

/-- One iteration. -/
theorem unit_iff (n tr : Node) (i : Nat) {c : Cfg} {ss : List Span} (hh : Here inp c ss) {c' : Cfg} {ss' : List Span} {t : Tree} :
    Builds env inp (.unit n tr i) c ss c' ss' [t] ↔
      if i = 0 then Yields so saved env inp n c ss c' ss' t
      else ∃ c₀ ss₀ u, Yields so saved env inp tr c ss c₀ ss₀ u ∧ Yields so saved env inp n c₀ ss₀ c' ss' t := by
  constructor
  · intro h
    cases h with
    | unitFirst h => rw [if_pos rfl]; exact (yields_iff hl).2 ⟨hh, h⟩
    | unitNext h1 h2 =>
      rw [if_neg (by omega)]
      obtain ⟨hh1, u, rfl⟩ := h1.here hl hh
      exact ⟨_, _, _, (yields_iff hl).2 ⟨hh, h1⟩, (yields_iff hl).2 ⟨hh1, h2⟩⟩
  · intro h
    cases i with
    | zero => rw [if_pos rfl] at h; exact .unitFirst ((yields_iff hl).1 h).2
    | succ i =>
      rw [if_neg (by omega)] at h
      obtain ⟨_, _, _, h1, h2⟩ := h
      exact .unitNext ((yields_iff hl).1 h1).2 ((yields_iff hl).1 h2).2

theorem unit_none_iff (n tr : Node) (i : Nat) {c : Cfg} {ss : List Span} (hh : Here inp c ss) :
    Peg env (.unit n tr i) c none ↔ IterFails so saved env inp n tr (i == 0) c ss := by
  unfold IterFails
  constructor
  · intro h
    cases h with
    | unitFirst h => exact (failsAt_iff hl).2 h
    | unitNext h1 h2 =>
      obtain ⟨ss1, u, hy1, hh1⟩ := yields_of_peg hl hh h1
      exact .inr ⟨_, _, _, hy1, (failsAt_iff hl).2 h2⟩
    | unitTriviaFail h1 => exact .inl ((failsAt_iff hl).2 h1)
  · intro h
    cases i with
    | zero => exact .unitFirst ((failsAt_iff hl).1 h)
    | succ i =>
      rcases h with h | ⟨_, _, _, h1, h2⟩
      · exact .unitTriviaFail ((failsAt_iff hl).1 h)
      · exact .unitNext ((yields_iff hl).1 h1).2.peg ((failsAt_iff hl).1 h2)

theorem Yields.here {env : Env} {n : Node} {c : Cfg} {ss : List Span} {c' : Cfg} {ss' : List Span} {t : Tree}
    (h : Yields so saved env inp n c ss c' ss' t) : Here inp c ss ∧ Here inp c' ss' := by
  obtain ⟨h1, h2⟩ := (yields_iff hl).1 h
  exact ⟨h1, (h2.here hl h1).1⟩

theorem reps_iff (n tr : Node) (min max : Nat) : ∀ (k i : Nat) {c : Cfg} {ss : List Span} (c' : Cfg) (ss' : List Span)
    (ts : List Tree), Here inp c ss → max = i + k →
    (Builds env inp (.reps n tr min max i) c ss c' ss' ts ↔
      Iters so saved env inp n tr (i == 0) c ss c' ss' ts ∧ (i + ts.length = max ∨
        (i + ts.length < max ∧ min ≤ i + ts.length ∧
          IterFails so saved env inp n tr (i + ts.length == 0) c' ss'))) := by
  intro k
  induction k with
  | zero =>
    intro i c ss c' ss' ts hh hk
    constructor
    · intro h
      cases h with
      | repsMax _ => exact ⟨.nil, .inl (by simp; omega)⟩
      | repsMore h => omega
      | repsStop h => omega
    · rintro ⟨h1, h2⟩
      have : ts.length = 0 := by omega
      have := List.length_eq_zero_iff.1 this
      subst this
      obtain ⟨rfl, rfl⟩ := h1.nil_eq
      exact .repsMax (by omega)
  | succ k ih =>
    intro i c ss c' ss' ts hh hk
    constructor
    · intro h
      cases h with
      | repsMax _ => omega
      | @repsMore _ _ _ _ _ _ _ c1 ss1 t _ _ ts _ h1 h2 =>
        rw [unit_iff hl env n tr i hh] at h1
        have hh1 : Here inp c1 ss1 := by
          split at h1
          · exact (h1.here hl).2
          · obtain ⟨_, _, _, _, h1⟩ := h1; exact (h1.here hl).2
        obtain ⟨hi, hr⟩ := (ih (i + 1) _ _ _ hh1 (by omega)).1 h2
        rw [show ((i + 1) == 0) = false from rfl] at hi
        refine ⟨?_, ?_⟩
        · cases i with
          | zero => rw [if_pos rfl] at h1; exact .first h1 hi
          | succ i => rw [if_neg (by omega)] at h1; obtain ⟨_, _, _, h0, h1⟩ := h1; exact .next h0 h1 hi
        · have : i + (t :: ts).length = i + 1 + ts.length := by simp; omega
          rw [this]; exact hr
      | repsStop h1 h2 h3 =>
        exact ⟨.nil, .inr ⟨by simpa using h1, by simpa using h3, (unit_none_iff hl env n tr i hh).1 h2⟩⟩
    · rintro ⟨h1, h2⟩
      cases ts with
      | nil =>
        obtain ⟨rfl, rfl⟩ := h1.nil_eq
        rcases h2 with h2 | ⟨h2, h3, h4⟩
        · simp at h2; omega
        · exact .repsStop (by simpa using h2) ((unit_none_iff hl env n tr i hh).2 h4) (by simpa using h3)
      | cons t ts =>
        have hlen : i + (t :: ts).length = i + 1 + ts.length := by simp; omega
        rw [hlen] at h2
        generalize hb : (i == 0) = b at h1
        cases h1 with
        | first g1 g2 =>
          have hi : i = 0 := by simpa using hb
          refine .repsMore (by omega) ((unit_iff hl env n tr i hh).2 (by rw [if_pos hi]; exact g1)) ?_
          exact (ih (i + 1) _ _ _ (g1.here hl).2 (by omega)).2 ⟨g2, h2⟩
        | next g0 g1 g2 =>
          have hi : ¬ i = 0 := by simpa using hb
          refine .repsMore (by omega) ((unit_iff hl env n tr i hh).2 (by rw [if_neg hi]; exact ⟨_, _, _, g0, g1⟩)) ?_
          exact (ih (i + 1) _ _ _ (g1.here hl).2 (by omega)).2 ⟨g2, h2⟩

theorem reps_none_iff (n tr : Node) (min max : Nat) : ∀ (k i : Nat) {c : Cfg} {ss : List Span},
    Here inp c ss → max = i + k →
    (Peg env (.reps n tr min max i) c none ↔
      ∃ c' ss' ts, Iters so saved env inp n tr (i == 0) c ss c' ss' ts ∧ i + ts.length < max ∧ i + ts.length < min ∧
          IterFails so saved env inp n tr (i + ts.length == 0) c' ss') := by
  intro k
  induction k with
  | zero =>
    intro i c ss hh hk
    constructor
    · intro h
      cases h with
      | repsMore h => omega
      | repsFew h => omega
    · rintro ⟨_, _, _, _, h, _⟩; omega
  | succ k ih =>
    intro i c ss hh hk
    constructor
    · intro h
      cases h with
      | @repsMore _ _ _ _ _ _ c1 _ _ h1 h2 =>
        have : ∃ ss1 t, (if i = 0 then Yields so saved env inp n c ss c1 ss1 t
            else ∃ c₀ ss₀ u, Yields so saved env inp tr c ss c₀ ss₀ u ∧ Yields so saved env inp n c₀ ss₀ c1 ss1 t) ∧
            Here inp c1 ss1 := by
          cases h1 with
          | unitFirst h => obtain ⟨ss1, t, hy, hh1⟩ := yields_of_peg hl hh h; exact ⟨ss1, t, by rw [if_pos rfl]; exact hy, hh1⟩
          | unitNext g1 g2 =>
            obtain ⟨ss0, u, hy0, hh0⟩ := yields_of_peg hl hh g1
            obtain ⟨ss1, t, hy1, hh1⟩ := yields_of_peg hl hh0 g2
            exact ⟨ss1, t, by rw [if_neg (by omega)]; exact ⟨_, _, _, hy0, hy1⟩, hh1⟩
        obtain ⟨ss1, t, hy, hh1⟩ := this
        obtain ⟨c', ss', ts, hi, h3, h4, h5⟩ := (ih (i + 1) hh1 (by omega)).1 h2
        rw [show ((i + 1) == 0) = false from rfl] at hi
        have hlen : i + (t :: ts).length = i + 1 + ts.length := by simp; omega
        refine ⟨c', ss', t :: ts, ?_, by rw [hlen]; exact h3, by rw [hlen]; exact h4, by rw [hlen]; exact h5⟩
        cases i with
        | zero => rw [if_pos rfl] at hy; exact .first hy hi
        | succ i => rw [if_neg (by omega)] at hy; obtain ⟨_, _, _, h0, h1⟩ := hy; exact .next h0 h1 hi
      | repsFew h1 h2 h3 =>
        exact ⟨c, ss, [], .nil, by simpa using h1, by simpa using h3, (unit_none_iff hl env n tr i hh).1 h2⟩
    · rintro ⟨c', ss', ts, h1, h2, h3, h4⟩
      cases ts with
      | nil =>
        obtain ⟨rfl, rfl⟩ := h1.nil_eq
        exact .repsFew (by simpa using h2) ((unit_none_iff hl env n tr i hh).2 h4) (by simpa using h3)
      | cons t ts =>
        have hlen : i + (t :: ts).length = i + 1 + ts.length := by simp; omega
        rw [hlen] at h2 h3 h4
        generalize hb : (i == 0) = b at h1
        cases h1 with
        | first g1 g2 =>
          have hi : i = 0 := by simpa using hb
          refine .repsMore (by omega) ((unit_iff hl env n tr i hh).2 (by rw [if_pos hi]; exact g1)).peg ?_
          exact (ih (i + 1) (g1.here hl).2 (by omega)).2 ⟨_, _, _, g2, h2, h3, h4⟩
        | next g0 g1 g2 =>
          have hi : ¬ i = 0 := by simpa using hb
          refine .repsMore (by omega) ((unit_iff hl env n tr i hh).2 (by rw [if_neg hi]; exact ⟨_, _, _, g0, g1⟩)).peg ?_
          exact (ih (i + 1) (g1.here hl).2 (by omega)).2 ⟨_, _, _, g2, h2, h3, h4⟩

end

end Pest3
