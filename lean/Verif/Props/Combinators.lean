import Verif.CombLemmas
import Verif.Props.Engine

/-!
# Properties C22–C26, C28: the combinators

Stated with `Yields` and `FailsAt`, which are defined from runs of the library's `parse`
(`Verif/Matches.lean`): `Yields so saved env inp n c ss c' ss' t` — a run at `c` with spans `ss` on the
stack succeeds at `c'` with spans `ss'` and tree `t`; `FailsAt so saved env n c` — a run at `c` fails.
By `C17`/`C35` all runs from the same place and stack agree.
-/

namespace Pest3.Props

open Pest3

section
variable {S : Type} {so : StackOps S} {saved : S → List (List Span)} (hl : Lawful so saved) (env : Env)
  {inp : Str} {c : Cfg} {ss : List Span}
include hl

/-- All runs from one place and stack agree (the vocabulary is unambiguous). -/
theorem C17_runs_agree (n : Node) :
    (∀ c₁ ss₁ t₁ c₂ ss₂ t₂, Yields so saved env inp n c ss c₁ ss₁ t₁ → Yields so saved env inp n c ss c₂ ss₂ t₂ →
      c₁ = c₂ ∧ ss₁ = ss₂ ∧ t₁ = t₂) ∧
    (∀ c₁ ss₁ t₁, Yields so saved env inp n c ss c₁ ss₁ t₁ → ¬ FailsAt so saved env n c) := by
  constructor
  · intro c₁ ss₁ t₁ c₂ ss₂ t₂ h1 h2
    obtain ⟨a, b, e⟩ := ((yields_iff hl).1 h1).2.det ((yields_iff hl).1 h2).2
    cases e
    exact ⟨a, b, rfl⟩
  · intro c₁ ss₁ t₁ h1 h2
    cases ((yields_iff hl).1 h1).2.peg.det ((failsAt_iff hl).1 h2)

/-! ## C22 -/

/-- A choice succeeds exactly with the result of the first alternative that succeeds, run from the same
place and stack, all earlier ones failing there. -/
theorem C22_choice_iff (alts : List Node) (c' : Cfg) (ss' : List Span) (t : Tree) :
    Yields so saved env inp (.choice alts) c ss c' ss' t ↔
      ∃ i a t', alts[i]? = some a ∧ t = .choice i t' ∧ Yields so saved env inp a c ss c' ss' t' ∧
        ∀ j b, j < i → alts[j]? = some b → FailsAt so saved env b c := by
  rw [yields_iff hl]
  constructor
  · rintro ⟨hh, h⟩
    cases h with
    | @choice pre a post _ _ _ _ t' h1 h2 =>
      refine ⟨pre.length, a, t', by simp, rfl, (yields_iff hl).2 ⟨hh, h2⟩, ?_⟩
      intro j b hj hb
      rw [List.getElem?_append_left hj] at hb
      exact (failsAt_iff hl).2 (h1 b (List.mem_of_getElem? hb))
  · rintro ⟨i, a, t', ha, rfl, hy, hf⟩
    obtain ⟨hh, hy⟩ := (yields_iff hl).1 hy
    refine ⟨hh, ?_⟩
    obtain ⟨hi, ha'⟩ := List.getElem?_eq_some_iff.1 ha
    have e : alts = alts.take i ++ a :: alts.drop (i + 1) := by
      rw [← ha', ← List.drop_eq_getElem_cons hi, List.take_append_drop]
    have hlen : (alts.take i).length = i := by rw [List.length_take]; omega
    rw [e]
    have := Builds.choice (env := env) (inp := inp) (pre := alts.take i) (a := a) (post := alts.drop (i + 1))
      (c := c) (ss := ss) (c' := c') (ss' := ss') (t := t') ?_ hy
    · rw [hlen] at this; exact this
    · intro b hb
      obtain ⟨j, hj, rfl⟩ := List.getElem_of_mem hb
      rw [hlen] at hj
      refine (failsAt_iff hl).1 (hf j _ hj ?_)
      rw [List.getElem_take, List.getElem?_eq_getElem (by omega)]

theorem C22_choice_fails_iff (alts : List Node) :
    FailsAt so saved env (.choice alts) c ↔ ∀ a ∈ alts, FailsAt so saved env a c := by
  simp only [failsAt_iff hl]
  constructor
  · intro h
    cases h with
    | choice h =>
      induction alts with
      | nil => simp
      | cons a l ih =>
        cases h with
        | altsMiss h1 h2 =>
          intro b hb
          rcases List.mem_cons.1 hb with rfl | hb
          · exact h1
          · exact ih h2 b hb
  · intro h
    exact .choice (pegAlts_none alts h)

/-! ## C23 -/

/-- A sequence matches iff its fields match one after the other with one trivia match between
neighbours; the text consumed is the concatenation. -/
theorem C23_sequence_iff (tr n : Node) (l : List (Node × Node)) (c' : Cfg) (ss' : List Span) (t : Tree) :
    Yields so saved env inp (.seq ((tr, n) :: l)) c ss c' ss' t ↔
      ∃ c₁ ss₁ t₁ ps ts, Yields so saved env inp n c ss c₁ ss₁ t₁ ∧ Concat so saved env inp l c₁ ss₁ ps c' ss' ts ∧
        t = .seq (t₁ :: ts) := by
  rw [yields_iff hl]
  constructor
  · rintro ⟨hh, h⟩
    cases h with
    | seq h =>
      cases h with
      | fieldsFirst h1 h2 =>
        obtain ⟨hh1, _⟩ := h1.here hl hh
        obtain ⟨ps, h2⟩ := (concat_iff hl env l _ _ _ hh1).1 h2
        exact ⟨_, _, _, _, _, (yields_iff hl).2 ⟨hh, h1⟩, h2, rfl⟩
  · rintro ⟨c₁, ss₁, t₁, ps, ts, h1, h2, rfl⟩
    obtain ⟨hh, h1⟩ := (yields_iff hl).1 h1
    obtain ⟨hh1, _⟩ := h1.here hl hh
    exact ⟨hh, .seq (.fieldsFirst h1 ((concat_iff hl env l _ _ _ hh1).2 ⟨_, h2⟩))⟩

omit hl in
/-- The text consumed by a sequence is the concatenation of what its parts consumed; one value per field. -/
theorem C23_sequence_text (l : List (Node × Node)) {c₁ c' : Cfg} {ss₁ ss' : List Span} {ps : List Text}
    {ts : List Tree} (h : Concat so saved env inp l c₁ ss₁ ps c' ss' ts) :
    c'.pre = c₁.pre ++ ps.flatten ∧ ps.length = 2 * l.length ∧ ts.length = l.length := by
  refine ⟨concat_pieces h, ?_⟩
  induction h with
  | nil => exact ⟨rfl, rfl⟩
  | cons _ _ _ _ _ ih => simp only [List.length_cons]; omega

/-- A sequence fails iff some prefix matches and the next part (field, or trivia before it) fails. -/
theorem C23_sequence_fails_iff (hh : Here inp c ss) (tr n : Node) (l : List (Node × Node)) :
    FailsAt so saved env (.seq ((tr, n) :: l)) c ↔
      FailsAt so saved env n c ∨
      ∃ l₁ tr' n' l₂ c₁ ss₁ t₁ ps c₂ ss₂ ts, l = l₁ ++ (tr', n') :: l₂ ∧
        Yields so saved env inp n c ss c₁ ss₁ t₁ ∧ Concat so saved env inp l₁ c₁ ss₁ ps c₂ ss₂ ts ∧
        (FailsAt so saved env tr' c₂ ∨
          ∃ c₃ ss₃ u, Yields so saved env inp tr' c₂ ss₂ c₃ ss₃ u ∧ FailsAt so saved env n' c₃) := by
  rw [failsAt_iff hl]
  constructor
  · intro h
    cases h with
    | seq h =>
      cases h with
      | fieldsFirst h1 h2 =>
        obtain ⟨ss1, t, hy1, hh1⟩ := yields_of_peg hl hh h1
        obtain ⟨l₁, tr', n', l₂, ps, c₂, ss₂, ts, h3, h4, h5⟩ := (concat_none_iff hl env _ _ _ hh1).1 h2
        exact .inr ⟨l₁, tr', n', l₂, _, _, _, ps, c₂, ss₂, ts, h3, hy1, h4, h5⟩
      | fieldsFirstFail h1 => exact .inl ((failsAt_iff hl).2 h1)
  · rintro (h | ⟨l₁, tr', n', l₂, c₁, ss₁, t₁, ps, c₂, ss₂, ts, h3, hy1, h4, h5⟩)
    · exact .seq (.fieldsFirstFail ((failsAt_iff hl).1 h))
    · obtain ⟨_, h1⟩ := (yields_iff hl).1 hy1
      exact .seq (.fieldsFirst h1.peg ((concat_none_iff hl env _ _ _ (h1.here hl hh).1).2 ⟨l₁, tr', n', l₂, ps, c₂, ss₂, ts, h3, h4, h5⟩))

/-! ## C24 -/

/-- A repetition with `min ≤ max` matches exactly a greedy run of iterations: at least `min`, at most
`max`, stopping early only where a further iteration fails.  The result is that after the last
complete iteration. -/
theorem C24_repetition_iff (n tr : Node) (min max : Nat) (hmm : min ≤ max) (hh : Here inp c ss) (c' : Cfg)
    (ss' : List Span) (t : Tree) :
    Yields so saved env inp (.rep n tr min max) c ss c' ss' t ↔
      ∃ ts, t = .rep ts ∧ Iters so saved env inp n tr true c ss c' ss' ts ∧ min ≤ ts.length ∧ ts.length ≤ max ∧
        (ts.length = max ∨ IterFails so saved env inp n tr ts.isEmpty c' ss') := by
  have hb : ∀ ts : List Tree, (0 + ts.length == 0) = ts.isEmpty := by
    intro ts; cases ts <;> simp
  rw [yields_iff hl]
  constructor
  · rintro ⟨_, h⟩
    cases h with
    | @rep _ _ _ _ _ _ _ _ ts h =>
      obtain ⟨h1, h2⟩ := (reps_iff hl env n tr min max max 0 _ _ _ hh (by omega)).1 h
      refine ⟨ts, rfl, h1, ?_⟩
      rw [hb] at h2
      rcases h2 with h2 | ⟨h2, h3, h4⟩
      · exact ⟨by omega, by omega, .inl (by omega)⟩
      · exact ⟨by omega, by omega, .inr h4⟩
  · rintro ⟨ts, rfl, h1, h2, h3, h4⟩
    refine ⟨hh, .rep ((reps_iff hl env n tr min max max 0 _ _ _ hh (by omega)).2 ⟨h1, ?_⟩)⟩
    rw [hb]
    by_cases he : ts.length = max
    · exact .inl (by omega)
    · exact .inr ⟨by omega, by omega, h4.resolve_left he⟩

/-- It fails exactly when fewer than `min` iterations match. -/
theorem C24_repetition_fails_iff (n tr : Node) (min max : Nat) (hmm : min ≤ max) (hh : Here inp c ss) :
    FailsAt so saved env (.rep n tr min max) c ↔
      ∃ c' ss' ts, Iters so saved env inp n tr true c ss c' ss' ts ∧ ts.length < min ∧
        IterFails so saved env inp n tr ts.isEmpty c' ss' := by
  have hb : ∀ ts : List Tree, (0 + ts.length == 0) = ts.isEmpty := by
    intro ts; cases ts <;> simp
  rw [failsAt_iff hl]
  constructor
  · intro h
    cases h with
    | rep h =>
      obtain ⟨c', ss', ts, h1, h2, h3, h4⟩ := (reps_none_iff hl env n tr min max max 0 hh (by omega)).1 h
      rw [hb] at h4
      exact ⟨c', ss', ts, h1, by omega, h4⟩
  · rintro ⟨c', ss', ts, h1, h2, h3⟩
    refine .rep ((reps_none_iff hl env n tr min max max 0 hh (by omega)).2 ⟨c', ss', ts, h1, by omega, by omega, ?_⟩)
    rw [hb]; exact h3

/-! ## C25 -/

/-- An optional never fails; it matches what the inner expression matches, or nothing. -/
theorem C25_optional_iff (n : Node) (hh : Here inp c ss) (c' : Cfg) (ss' : List Span) (t : Tree) :
    Yields so saved env inp (.opt n) c ss c' ss' t ↔
      (∃ t', t = .optSome t' ∧ Yields so saved env inp n c ss c' ss' t') ∨
      (FailsAt so saved env n c ∧ c' = c ∧ ss' = ss ∧ t = .optNone) := by
  simp only [yields_iff hl, failsAt_iff hl]
  constructor
  · rintro ⟨_, h⟩
    cases h with
    | optSome h => exact .inl ⟨_, rfl, hh, h⟩
    | optNone h => exact .inr ⟨h, rfl, rfl, rfl⟩
  · rintro (⟨t', rfl, _, h⟩ | ⟨h, rfl, rfl, rfl⟩)
    · exact ⟨hh, .optSome h⟩
    · exact ⟨hh, .optNone h⟩

theorem C25_optional_never_fails (n : Node) (c : Cfg) : ¬ FailsAt so saved env (.opt n) c := by
  rw [failsAt_iff hl]
  intro h
  cases h

/-! ## C26 -/

theorem C26_positive_iff (n : Node) (c' : Cfg) (ss' : List Span) (t : Tree) :
    Yields so saved env inp (.positive n) c ss c' ss' t ↔
      c' = c ∧ ss' = ss ∧ ∃ c₁ ss₁ t₁, t = .positive t₁ ∧ Yields so saved env inp n c ss c₁ ss₁ t₁ := by
  simp only [yields_iff hl]
  constructor
  · rintro ⟨hh, h⟩
    cases h with
    | positive h => exact ⟨rfl, rfl, _, _, _, rfl, hh, h⟩
  · rintro ⟨rfl, rfl, _, _, _, rfl, hh, h⟩
    exact ⟨hh, .positive h⟩

theorem C26_positive_fails_iff (n : Node) :
    FailsAt so saved env (.positive n) c ↔ FailsAt so saved env n c := by
  simp only [failsAt_iff hl]
  constructor
  · intro h; cases h with | positiveFail h => exact h
  · exact .positiveFail

theorem C26_negative_iff (n : Node) (hh : Here inp c ss) (c' : Cfg) (ss' : List Span) (t : Tree) :
    Yields so saved env inp (.negative n) c ss c' ss' t ↔
      c' = c ∧ ss' = ss ∧ t = .negative ∧ FailsAt so saved env n c := by
  simp only [yields_iff hl, failsAt_iff hl]
  constructor
  · rintro ⟨_, h⟩
    cases h with
    | negative h => exact ⟨rfl, rfl, rfl, h⟩
  · rintro ⟨rfl, rfl, rfl, h⟩
    exact ⟨hh, .negative h⟩

theorem C26_negative_fails_iff (n : Node) (hh : Here inp c ss) :
    FailsAt so saved env (.negative n) c ↔ ∃ c₁ ss₁ t₁, Yields so saved env inp n c ss c₁ ss₁ t₁ := by
  rw [failsAt_iff hl]
  constructor
  · intro h
    cases h with
    | negativeFail h =>
      obtain ⟨ss', t, hy, _⟩ := yields_of_peg hl hh h
      exact ⟨_, ss', t, hy⟩
  · rintro ⟨_, _, _, h⟩
    exact .negativeFail ((yields_iff hl).1 h).2.peg

/-- Failed runs: whatever a failing or successful lookahead did to the stack is undone, as values of
`parse` (also when the lookahead fails). -/
theorem C26_stack_restored {p : Position} {st : St S Tracker} (hp : Good inp p) (hr : Ready so saved inp st)
    (fuel : Nat) (n : Node) (o : Option (Position × Tree)) (st' : St S Tracker)
    (h : parse so realTracker env fuel (.positive n) p st = .ok (o, st') ∨
      parse so realTracker env fuel (.negative n) p st = .ok (o, st')) :
    so.elems st'.stk = so.elems st.stk := by
  cases fuel with
  | zero => rcases h with h | h <;> cases h
  | succ fuel =>
    have hsnap : ∀ b, Ready so saved inp ((st.setPositive realTracker b).snapshot so) := by
      intro b
      refine ⟨?_, ?_, hr.text⟩
      · simp only [St.snapshot, St.setPositive, hl.elems_snapshot]; exact hr.valid
      · simp only [St.snapshot, St.setPositive, hl.saved_snapshot]
        intro c hc x hx
        rcases List.mem_cons.1 hc with rfl | hc
        · exact hr.valid x hx
        · exact hr.svalid c hc x hx
    have hsv : ∀ b, saved ((st.setPositive realTracker b).snapshot so).stk = so.elems st.stk :: saved st.stk := by
      intro b; simp only [St.snapshot, St.setPositive, hl.saved_snapshot]
    rcases h with h | h
    · simp only [parse, parseStep] at h
      cases hx : parse so realTracker env fuel n p ((st.setPositive realTracker true).snapshot so) with
      | oof => rw [hx] at h; cases h
      | panic => rw [hx] at h; cases h
      | ok r =>
        obtain ⟨o1, s1⟩ := r
        rw [hx] at h
        simp only [Out.bind_ok, Res.ok.injEq, Prod.mk.injEq] at h
        obtain ⟨_, rfl⟩ := h
        have := ((C27_balanced hl env hp (hsnap true) fuel n).1 _ _ hx).1
        rw [hsv] at this
        exact hl.elems_restore _ _ _ this
    · simp only [parse, parseStep] at h
      cases hx : check so realTracker env fuel n p ((st.setPositive realTracker false).snapshot so) with
      | oof => rw [hx] at h; cases h
      | panic => rw [hx] at h; cases h
      | ok r =>
        obtain ⟨o1, s1⟩ := r
        rw [hx] at h
        simp only [Out.bind_ok, Res.ok.injEq, Prod.mk.injEq] at h
        obtain ⟨_, rfl⟩ := h
        have := ((C27_balanced hl env hp (hsnap false) fuel n).2 _ _ hx).1
        rw [hsv] at this
        exact hl.elems_restore _ _ _ this

/-! ## C28 -/

/-- `PUSH(e)` matches what `e` matches and puts exactly the consumed span on top of what `e` left. -/
theorem C28_push_iff (n : Node) (c' : Cfg) (ss' : List Span) (t : Tree) :
    Yields so saved env inp (.push n) c ss c' ss' t ↔
      ∃ c₁ ss₁ t₁ m, Yields so saved env inp n c ss c₁ ss₁ t₁ ∧ c₁.pre = c.pre ++ m ∧ t = .push t₁ ∧
        c' = ⟨c₁.pre, c₁.suf, c₁.stk ++ [m]⟩ ∧ ss' = ss₁ ++ [⟨inp, utf8Len c.pre, utf8Len c₁.pre⟩] := by
  simp only [yields_iff hl]
  constructor
  · rintro ⟨hh, h⟩
    cases h with
    | push h => exact ⟨_, _, _, _, ⟨hh, h⟩, rfl, rfl, rfl, rfl⟩
  · rintro ⟨⟨pre, suf, stk⟩, ss₁, t₁, m, ⟨hh, h⟩, he, rfl, rfl, rfl⟩
    simp only at he
    subst he
    exact ⟨hh, .push h⟩

theorem C28_push_fails_iff (n : Node) :
    FailsAt so saved env (.push n) c ↔ FailsAt so saved env n c := by
  simp only [failsAt_iff hl]
  constructor
  · intro h; cases h with | pushFail h => exact h
  · exact .pushFail

theorem leaf_yields_iff (l : Leaf) (hh : Here inp c ss) (c' : Cfg) (ss' : List Span) (t : Tree) :
    Yields so saved env inp (.leaf l) c ss c' ss' t ↔
      ∃ m stk rest v, leafSpec l c = some (m, stk) ∧ c.suf = m ++ rest ∧ c' = ⟨c.pre ++ m, rest, stk⟩ ∧
        ss' = leafSpans l ss ∧ leafVal inp l c.pre m ss = some v ∧ t = .leaf v := by
  rw [yields_iff hl]
  constructor
  · rintro ⟨_, h⟩
    cases h with
    | leaf h1 h2 h3 => exact ⟨_, _, _, _, h1, h2, rfl, rfl, h3, rfl⟩
  · rintro ⟨m, stk, rest, v, h1, h2, rfl, rfl, h3, rfl⟩
    exact ⟨hh, .leaf h1 h2 h3⟩

theorem leaf_fails_iff (l : Leaf) : FailsAt so saved env (.leaf l) c ↔ leafSpec l c = none := by
  rw [failsAt_iff hl]
  constructor
  · intro h; cases h with | leafFail h => exact h
  · exact .leafFail

/-- A leaf that matches a fixed text `M`. -/
theorem eat_leaf_iff (l : Leaf) (hh : Here inp c ss) {M : Text} {stk' : List Text} {v : LeafVal}
    (hs : leafSpec l c = (eatText M c.suf).map (·, stk')) (hv : leafVal inp l c.pre M ss = some v) :
    (∀ c' ss' t, Yields so saved env inp (.leaf l) c ss c' ss' t ↔
      ∃ rest, c.suf = M ++ rest ∧ c' = ⟨c.pre ++ M, rest, stk'⟩ ∧ ss' = leafSpans l ss ∧ t = .leaf v) ∧
    (FailsAt so saved env (.leaf l) c ↔ ¬ M <+: c.suf) := by
  constructor
  · intro c' ss' t
    rw [leaf_yields_iff hl env l hh, hs]
    unfold eatText
    constructor
    · rintro ⟨m, stk, rest, v', h1, h2, rfl, rfl, h3, rfl⟩
      split at h1
      · cases h1
        rw [hv] at h3
        cases h3
        exact ⟨rest, h2, rfl, rfl, rfl⟩
      · cases h1
    · rintro ⟨rest, h2, rfl, rfl, rfl⟩
      refine ⟨M, stk', rest, v, ?_, h2, rfl, rfl, hv, rfl⟩
      rw [if_pos ⟨rest, h2.symm⟩]
      rfl
  · rw [leaf_fails_iff hl env l, hs]
    unfold eatText
    split <;> simp_all

omit hl in
theorem top_split (hh : Here inp c ss) {below : List Text} {top : Text} (h : c.stk = below ++ [top]) :
    ∃ sb s, ss = sb ++ [s] ∧ Texts sb below ∧ s.Is top := by
  have ht := hh.texts
  rw [h] at ht
  have hlen := ht.length
  have h1 := ht.dropLast
  rw [List.dropLast_concat] at h1
  rcases ht.getLast? with ⟨_, h3⟩ | ⟨s, t, h3, h4, h5⟩
  · simp at h3
  · simp at h4
    subst h4
    have hne : ss ≠ [] := by rintro rfl; simp at hlen
    refine ⟨ss.dropLast, s, ?_, h1, h5⟩
    have : ss.getLast hne = s := by rw [List.getLast?_eq_some_getLast hne] at h3; exact Option.some.inj h3
    rw [← this, List.dropLast_concat_getLast hne]

/-- `PEEK`: the text on top of the stack; the stack stays. -/
theorem C28_peek (hh : Here inp c ss) {below : List Text} {top : Text} (h : c.stk = below ++ [top]) :
    (∀ c' ss' t, Yields so saved env inp (.leaf .peek) c ss c' ss' t ↔
      ∃ rest, c.suf = top ++ rest ∧ c' = ⟨c.pre ++ top, rest, c.stk⟩ ∧ ss' = ss ∧
        t = .leaf (.span ⟨inp, utf8Len c.pre, utf8Len (c.pre ++ top)⟩)) ∧
    (FailsAt so saved env (.leaf .peek) c ↔ ¬ top <+: c.suf) :=
  eat_leaf_iff hl env .peek hh (by simp [leafSpec, h]) rfl

/-- `POP`: the text on top of the stack, which is removed. -/
theorem C28_pop (hh : Here inp c ss) {below : List Text} {top : Text} (h : c.stk = below ++ [top]) :
    ∃ sb s, ss = sb ++ [s] ∧ s.asStr = some top ∧
    (∀ c' ss' t, Yields so saved env inp (.leaf .pop) c ss c' ss' t ↔
      ∃ rest, c.suf = top ++ rest ∧ c' = ⟨c.pre ++ top, rest, below⟩ ∧ ss' = sb ∧ t = .leaf (.span s)) ∧
    (FailsAt so saved env (.leaf .pop) c ↔ ¬ top <+: c.suf) := by
  obtain ⟨sb, s, hss, _, his⟩ := top_split hh h
  refine ⟨sb, s, hss, his, ?_⟩
  have := eat_leaf_iff hl env .pop hh (M := top) (stk' := below) (v := .span s) (by simp [leafSpec, h])
    (by simp [leafVal, hss])
  simpa [leafSpans, hss] using this

/-- `DROP`: removes the top and consumes nothing. -/
theorem C28_drop (hh : Here inp c ss) {below : List Text} {top : Text} (h : c.stk = below ++ [top]) :
    (∀ c' ss' t, Yields so saved env inp (.leaf .drop) c ss c' ss' t ↔
      c' = ⟨c.pre, c.suf, below⟩ ∧ ss' = ss.dropLast ∧ t = .leaf .unit) ∧
    ¬ FailsAt so saved env (.leaf .drop) c := by
  have := eat_leaf_iff hl env .drop hh (M := []) (stk' := below) (v := .unit) (by simp [leafSpec, h, eatText])
    (by simp [leafVal])
  refine ⟨fun c' ss' t => ?_, ?_⟩
  · rw [this.1]
    constructor
    · rintro ⟨rest, h1, rfl, rfl, rfl⟩
      simp only [List.nil_append] at h1
      subst h1
      exact ⟨by simp, rfl, rfl⟩
    · rintro ⟨rfl, rfl, rfl⟩
      exact ⟨c.suf, rfl, by simp, rfl, rfl⟩
  · rw [this.2]; simp

/-- On an empty stack `PEEK`, `POP` and `DROP` fail. -/
theorem C28_empty (h : c.stk = []) :
    FailsAt so saved env (.leaf .peek) c ∧ FailsAt so saved env (.leaf .pop) c ∧
      FailsAt so saved env (.leaf .drop) c := by
  simp only [leaf_fails_iff hl env, leafSpec, h]
  simp

/-- `PEEK_ALL`: all entries from top to bottom; the stack stays. -/
theorem C28_peek_all (hh : Here inp c ss) :
    (∀ c' ss' t, Yields so saved env inp (.leaf .peekAll) c ss c' ss' t ↔
      ∃ rest, c.suf = c.stk.reverse.flatten ++ rest ∧ c' = ⟨c.pre ++ c.stk.reverse.flatten, rest, c.stk⟩ ∧ ss' = ss ∧
        t = .leaf (.span ⟨inp, utf8Len c.pre, utf8Len (c.pre ++ c.stk.reverse.flatten)⟩)) ∧
    (FailsAt so saved env (.leaf .peekAll) c ↔ ¬ c.stk.reverse.flatten <+: c.suf) :=
  eat_leaf_iff hl env .peekAll hh rfl rfl

/-- `POP_ALL`: all entries from top to bottom; afterwards the stack is empty. -/
theorem C28_pop_all (hh : Here inp c ss) :
    (∀ c' ss' t, Yields so saved env inp (.leaf .popAll) c ss c' ss' t ↔
      ∃ rest, c.suf = c.stk.reverse.flatten ++ rest ∧ c' = ⟨c.pre ++ c.stk.reverse.flatten, rest, []⟩ ∧ ss' = [] ∧
        t = .leaf (.span ⟨inp, utf8Len c.pre, utf8Len (c.pre ++ c.stk.reverse.flatten)⟩)) ∧
    (FailsAt so saved env (.leaf .popAll) c ↔ ¬ c.stk.reverse.flatten <+: c.suf) :=
  eat_leaf_iff hl env .popAll hh rfl rfl

/-- The index `a` (from the bottom; negative: from the top) denotes the gap `i` of a stack of `n`
entries. -/
def Denotes (a : Int) (n i : Nat) : Prop := i ≤ n ∧ (i : Int) = if a < 0 then a + n else a

omit hl in
theorem resolveIdx_iff {a : Int} {n i : Nat} : resolveIdx a n = some i ↔ Denotes a n i := by
  unfold resolveIdx Denotes
  by_cases h : a < 0
  · rw [if_pos h, if_neg (by omega)]
    split <;> simp <;> omega
  · rw [if_neg h, if_pos (by omega)]
    split <;> simp <;> omega

/-- `PEEK[a..b]`: the entries from gap `a` to gap `b`, bottom to top (none if `b ≤ a`); the stack stays. -/
theorem C28_slice (hh : Here inp c ss) (a b : Int) :
    (∀ c' ss' t, Yields so saved env inp (.leaf (.slice2 a b)) c ss c' ss' t ↔
      ∃ i j rest, Denotes a c.stk.length i ∧ Denotes b c.stk.length j ∧
        c.suf = ((c.stk.take j).drop i).flatten ++ rest ∧
        c' = ⟨c.pre ++ ((c.stk.take j).drop i).flatten, rest, c.stk⟩ ∧ ss' = ss ∧ t = .leaf .unit) ∧
    (FailsAt so saved env (.leaf (.slice2 a b)) c ↔
      ∀ i j, Denotes a c.stk.length i → Denotes b c.stk.length j → ¬ ((c.stk.take j).drop i).flatten <+: c.suf) := by
  simp only [← resolveIdx_iff]
  cases hi : resolveIdx a c.stk.length with
  | none =>
    have hs : leafSpec (.slice2 a b) c = none := by simp [leafSpec, sliceSpec, hi]
    refine ⟨fun c' ss' t => ?_, ?_⟩
    · rw [leaf_yields_iff hl env _ hh, hs]; simp
    · rw [leaf_fails_iff hl env, hs]; simp
  | some i =>
    cases hj : resolveIdx b c.stk.length with
    | none =>
      have hs : leafSpec (.slice2 a b) c = none := by simp [leafSpec, sliceSpec, hi, hj]
      refine ⟨fun c' ss' t => ?_, ?_⟩
      · rw [leaf_yields_iff hl env _ hh, hs]; simp
      · rw [leaf_fails_iff hl env, hs]; simp
    | some j =>
      have := eat_leaf_iff hl env (.slice2 a b) hh (M := ((c.stk.take j).drop i).flatten) (stk' := c.stk) (v := .unit)
        (by simp only [leafSpec, sliceSpec, hi, hj]) rfl
      refine ⟨fun c' ss' t => ?_, ?_⟩
      · rw [this.1]
        constructor
        · rintro ⟨rest, h⟩; exact ⟨i, j, rest, rfl, rfl, h⟩
        · rintro ⟨i', j', rest, h1, h2, h⟩; cases h1; cases h2; exact ⟨rest, h⟩
      · rw [this.2]; simp

/-- `PEEK[a..]`: the entries from gap `a` to the top. -/
theorem C28_slice_open (hh : Here inp c ss) (a : Int) :
    (∀ c' ss' t, Yields so saved env inp (.leaf (.slice1 a)) c ss c' ss' t ↔
      ∃ i rest, Denotes a c.stk.length i ∧ c.suf = (c.stk.drop i).flatten ++ rest ∧
        c' = ⟨c.pre ++ (c.stk.drop i).flatten, rest, c.stk⟩ ∧ ss' = ss ∧ t = .leaf .unit) ∧
    (FailsAt so saved env (.leaf (.slice1 a)) c ↔
      ∀ i, Denotes a c.stk.length i → ¬ (c.stk.drop i).flatten <+: c.suf) := by
  simp only [← resolveIdx_iff]
  cases hi : resolveIdx a c.stk.length with
  | none =>
    have hs : leafSpec (.slice1 a) c = none := by simp [leafSpec, sliceSpec, hi]
    refine ⟨fun c' ss' t => ?_, ?_⟩
    · rw [leaf_yields_iff hl env _ hh, hs]; simp
    · rw [leaf_fails_iff hl env, hs]; simp
  | some i =>
    have := eat_leaf_iff hl env (.slice1 a) hh (M := (c.stk.drop i).flatten) (stk' := c.stk) (v := .unit)
      (by simp only [leafSpec, sliceSpec, hi, List.take_length]) rfl
    refine ⟨fun c' ss' t => ?_, ?_⟩
    · rw [this.1]
      constructor
      · rintro ⟨rest, h⟩; exact ⟨i, rest, rfl, h⟩
      · rintro ⟨i', rest, h1, h⟩; cases h1; exact ⟨rest, h⟩
    · rw [this.2]; simp

end

/-! ### Concrete cases -/

/-- Two entries, `"x"` below `"yz"`; text ahead `"yzx"`. -/
def exCfg : Cfg := ⟨['x', 'y', 'z'], ['y', 'z', 'x'], [['x'], ['y', 'z']]⟩
def exStr : Str := ⟨3, ['x', 'y', 'z', 'y', 'z', 'x']⟩
def exSpans : List Span := [⟨exStr, 0, 1⟩, ⟨exStr, 1, 3⟩]

theorem exHere : Here exStr exCfg exSpans :=
  ⟨rfl, .cons (s := ⟨exStr, 0, 1⟩) (t := ['x']) (by unfold Span.Is; decide)
    (.cons (s := ⟨exStr, 1, 3⟩) (t := ['y', 'z']) (by unfold Span.Is; decide) .nil)⟩

/-- A failed first alternative that popped the stack leaves no trace. -/
example : ∃ t, Yields idealOps IdealStack.saved exEnv exStr
    (.choice [.seq [(.leaf .empty, .leaf .pop), (.leaf .empty, .leaf (.str ['?']))], .leaf .popAll])
    exCfg exSpans ⟨exStr.text, [], []⟩ [] t := by
  refine ⟨_, (C22_choice_iff ideal_lawful exEnv _ _ _ _).2 ⟨1, _, _, rfl, rfl,
    (C28_pop_all ideal_lawful exEnv exHere).1 _ _ _ |>.2 ⟨[], rfl, rfl, rfl, rfl⟩, ?_⟩⟩
  intro j b hj hb
  have : j = 0 := by omega
  subst this
  simp only [List.getElem?_cons_zero, Option.some.injEq] at hb
  subst hb
  obtain ⟨sb, s, h1, _, h3, _⟩ := C28_pop ideal_lawful exEnv exHere (below := [['x']]) (top := ['y', 'z']) rfl
  have hp := (h3 ⟨['x', 'y', 'z', 'y', 'z'], ['x'], [['x']]⟩ sb (.leaf (.span s))).2 ⟨['x'], rfl, rfl, rfl, rfl⟩
  refine (C23_sequence_fails_iff ideal_lawful exEnv exHere _ _ _).2 (.inr ⟨[], _, _, [], _, _, _, [], _, _, [], rfl, hp, .nil, .inr ?_⟩)
  refine ⟨⟨['x', 'y', 'z', 'y', 'z'], ['x'], [['x']]⟩, sb, .leaf .unit, ?_, ?_⟩
  · refine (leaf_yields_iff ideal_lawful exEnv _ (hp.here ideal_lawful).2 _ _ _).2
      ⟨[], [['x']], ['x'], .unit, rfl, rfl, rfl, rfl, rfl, rfl⟩
  · rw [leaf_fails_iff ideal_lawful]
    decide

/-- Repetition stops before a failing iteration, giving back the trivia. -/
example : ∃ t st', parse idealOps realTracker exEnv 20 (.rep (.leaf (.str ['a'])) exTrivia 1 usizeMax)
    (Position.fromStart ⟨0, ['a', ' ', 'a', ' ', 'b']⟩) (initSt idealOps ⟨0, ['a', ' ', 'a', ' ', 'b']⟩) =
      .ok (some (⟨⟨0, ['a', ' ', 'a', ' ', 'b']⟩, 3⟩, .rep t), st') ∧ t.length = 2 := ⟨_, _, rfl, rfl⟩

example : Denotes (-1) 2 1 ∧ Denotes 2 2 2 ∧ ¬ ∃ i, Denotes (-3) 2 i := by
  refine ⟨by unfold Denotes; decide, by unfold Denotes; decide, ?_⟩
  rintro ⟨i, h1, h2⟩
  simp at h2

end Pest3.Props
