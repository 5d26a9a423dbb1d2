import Verif.Termination
import Verif.NeverFailed
import Verif.Props.Combinators

/-!
# Properties C38–C40: termination, unbounded repetition, infallible entry points
-/

namespace Pest3.Props

open Pest3

section
variable {S : Type} {so : StackOps S} {saved : S → List (List Span)} (hl : Lawful so saved) (env : Env)
  {inp : Str} {p : Position} {st : St S Tracker} {c : Cfg}
include hl

/-! ## C38 -/

/-- A parse returns iff the tree of sub-evaluations it requires is well-founded. -/
theorem C38_returns_iff (hp : Good inp p) (hr : Ready so saved inp st) (hco : Corr so p st c) (n : Node) :
    (∃ fuel, parse so realTracker env fuel n p st ≠ .oof) ↔ Acc (fun y x => Needs env x y) (.node n, c) := by
  have hd := C16_diverges_iff hl env hp hr hco n
  constructor
  · rintro ⟨fuel, h⟩
    have : ¬ ∀ r, ¬ Peg env (.node n) c r := fun hh => h ((hd.2 hh) fuel)
    obtain ⟨r, hr'⟩ := Classical.not_forall.1 this
    exact (Classical.not_not.1 hr').acc
  · intro ha
    obtain ⟨r, h⟩ := acc_peg _ ha
    refine Classical.byContradiction fun hno => ?_
    exact hd.1 (fun fuel => Classical.byContradiction fun hne => hno ⟨fuel, hne⟩) r h

/-- Left recursion: if evaluating `n` at a position and stack requires evaluating `n` at the same
position and stack, the parse never returns. -/
theorem C38_left_recursion (hp : Good inp p) (hr : Ready so saved inp st) (hco : Corr so p st c) (n : Node)
    (h : Relation.TransGen (Needs env) (.node n, c) (.node n, c)) :
    ∀ fuel, parse so realTracker env fuel n p st = .oof := by
  intro fuel
  refine Classical.byContradiction fun hne => ?_
  have hacc := (C38_returns_iff hl env hp hr hco n).1 ⟨fuel, hne⟩
  -- nothing accessible reaches itself
  have key : ∀ x, Acc (fun y x => Needs env x y) x → ∀ y, Relation.TransGen (Needs env) x y → x ≠ y := by
    intro x hx
    induction hx with
    | intro x _ ih =>
      intro y hxy e
      subst e
      -- split off the first step
      have split : ∀ z, Relation.TransGen (Needs env) x z →
          ∃ w, Needs env x w ∧ (w = z ∨ Relation.TransGen (Needs env) w z) := by
        intro z hz
        induction hz with
        | single h => exact ⟨_, h, .inl rfl⟩
        | tail _ h ih' =>
          obtain ⟨w, hw, hor⟩ := ih'
          refine ⟨w, hw, .inr ?_⟩
          rcases hor with rfl | hor
          · exact .single h
          · exact .tail hor h
      obtain ⟨w, hw, hor⟩ := split x hxy
      rcases hor with rfl | hor
      · exact ih _ hw _ (.single hw) rfl
      · exact ih w hw w (.tail hor hw) rfl
  exact key _ hacc _ h rfl

/-- Without left recursion, every parse of every input returns. -/
theorem C38_terminates (N : RuleId → Prop) (rank : RuleId → Nat) (hw : NoLeftRecursion env N rank)
    (hp : Good inp p) (hr : Ready so saved inp st) (n : Node) :
    ∃ fuel, parse so realTracker env fuel n p st ≠ .oof := by
  obtain ⟨c, hco⟩ := corr_exists hp hr
  obtain ⟨r, h⟩ := hw.total c.suf.length c (Nat.le_refl _) n
  exact (C38_returns_iff hl env hp hr hco n).2 h.acc

/-- So every full parse of every text accepts or rejects. -/
theorem C38_entry_points (N : RuleId → Prop) (rank : RuleId → Nat) (hw : NoLeftRecursion env N rank) (inp : Str)
    (n : Node) : ∃ fuel, tryParsePartial so env fuel n inp ≠ .oof := by
  obtain ⟨fuel, h⟩ := C38_terminates hl env N rank hw (good_start inp) (ready_init hl inp) n
  refine ⟨fuel, ?_⟩
  unfold tryParsePartial
  rcases run_cases hl env (good_start inp) (ready_init hl inp) fuel n with ⟨h1, _⟩ | ⟨st', h1, _⟩ | ⟨q, t, st', h1, _⟩
  · exact absurd h1 h
  · rw [h1]; simp [finishRun]
  · rw [h1]; simp [finishRun]

/-! ## C39 -/

variable {ss : List Span}

/-- If body and trivia match without consuming, whatever is on the stack, then the repetition performs
`max` iterations (`usize::MAX` for `e*`): every run that returns has `max` items. -/
theorem C39_unbounded (n tr : Node) (min max : Nat) (hmm : min ≤ max) (pre suf : Text) (stk : List Text)
    (hh : Here inp ⟨pre, suf, stk⟩ ss)
    (hn : ∀ stk ss, Here inp ⟨pre, suf, stk⟩ ss →
      ∃ stk' ss' t, Yields so saved env inp n ⟨pre, suf, stk⟩ ss ⟨pre, suf, stk'⟩ ss' t)
    (ht : ∀ stk ss, Here inp ⟨pre, suf, stk⟩ ss →
      ∃ stk' ss' t, Yields so saved env inp tr ⟨pre, suf, stk⟩ ss ⟨pre, suf, stk'⟩ ss' t) :
    (∃ stk' ss' ts, Yields so saved env inp (.rep n tr min max) ⟨pre, suf, stk⟩ ss ⟨pre, suf, stk'⟩ ss' (.rep ts) ∧
      ts.length = max) ∧
    ∀ c' ss' t, Yields so saved env inp (.rep n tr min max) ⟨pre, suf, stk⟩ ss c' ss' t →
      ∃ ts, t = .rep ts ∧ ts.length = max := by
  have key : ∃ stk' ss' ts, Yields so saved env inp (.rep n tr min max) ⟨pre, suf, stk⟩ ss ⟨pre, suf, stk'⟩ ss'
      (.rep ts) ∧ ts.length = max := by
    have loop : ∀ (k : Nat) (first : Bool) (stk : List Text) (ss : List Span), Here inp ⟨pre, suf, stk⟩ ss →
        ∃ stk' ss' ts, Iters so saved env inp n tr first ⟨pre, suf, stk⟩ ss ⟨pre, suf, stk'⟩ ss' ts ∧ ts.length = k := by
      intro k
      induction k with
      | zero => intro first stk ss _; exact ⟨_, _, _, .nil, rfl⟩
      | succ k ih =>
        intro first stk ss hh
        cases first with
        | true =>
          obtain ⟨stk₁, ss₁, t, h1⟩ := hn stk ss hh
          obtain ⟨stk', ss', ts, h2, hlen⟩ := ih false stk₁ ss₁ (Yields.here hl h1).2
          exact ⟨_, _, _, .first h1 h2, by simp [hlen]⟩
        | false =>
          obtain ⟨stk₀, ss₀, u, h0⟩ := ht stk ss hh
          obtain ⟨stk₁, ss₁, t, h1⟩ := hn stk₀ ss₀ (Yields.here hl h0).2
          obtain ⟨stk', ss', ts, h2, hlen⟩ := ih false stk₁ ss₁ (Yields.here hl h1).2
          exact ⟨_, _, _, .next h0 h1 h2, by simp [hlen]⟩
    obtain ⟨stk', ss', ts, h, hlen⟩ := loop max true stk ss hh
    exact ⟨stk', ss', ts, (C24_repetition_iff hl env n tr min max hmm hh _ _ _).2
      ⟨ts, rfl, h, by omega, by omega, .inl hlen⟩, hlen⟩
  refine ⟨key, ?_⟩
  obtain ⟨stk₁, ss₁, ts, h1, hlen⟩ := key
  intro c' ss' t h
  obtain ⟨_, _, rfl⟩ := (C17_runs_agree hl env (.rep n tr min max)).1 _ _ _ _ _ _ h h1
  exact ⟨ts, rfl, hlen⟩

/-- Conversely, if the body always consumes, the number of iterations is bounded by the text ahead. -/
theorem C39_consuming_bound (n tr : Node) (min max : Nat) (hmm : min ≤ max) (hh : Here inp c ss)
    (hn : ∀ c ss c' ss' t, Yields so saved env inp n c ss c' ss' t → c'.suf.length < c.suf.length)
    (c' : Cfg) (ss' : List Span) (ts : List Tree) (h : Yields so saved env inp (.rep n tr min max) c ss c' ss' (.rep ts)) :
    ts.length + c'.suf.length ≤ c.suf.length := by
  obtain ⟨ts', e, hi, _⟩ := (C24_repetition_iff hl env n tr min max hmm hh _ _ _).1 h
  cases e
  have : ∀ {first c ss c' ss' ts}, Iters so saved env inp n tr first c ss c' ss' ts →
      ts.length + c'.suf.length ≤ c.suf.length := by
    intro first c ss c' ss' ts hi
    induction hi with
    | nil => simp
    | first h1 _ ih => have := hn _ _ _ _ _ h1; simp only [List.length_cons]; omega
    | next h0 h1 _ ih =>
      have := hn _ _ _ _ _ h1
      have := ((yields_iff hl).1 h0).2.peg.suf_le
      simp only [List.length_cons]; omega
  exact this hi

/-! ## C40 -/

/-- `e*` never fails. -/
theorem C40_never_fails (n tr : Node) (max : Nat) : ¬ FailsAt so saved env (.rep n tr 0 max) c := by
  intro h
  have h := (failsAt_iff hl).1 h
  have : ∀ {item : Item} {c : Cfg} {r : Option Cfg}, Peg env item c r →
      ∀ i, item = .reps n tr 0 max i → r ≠ none := by
    intro item c r h
    induction h with
    | repsMax _ => intro i _; simp
    | repsMore _ _ _ _ ih => intro i e; cases e; exact ih _ rfl
    | repsFew _ _ h _ => intro i e; cases e; omega
    | repsStop _ _ _ _ => intro i _; simp
    | _ => intro i e; cases e
  cases h with
  | rep h => exact this h 0 rfl rfl

/-- The infallible method returns exactly the position, tree and stack of the fallible one, whatever the
tracker; in particular neither panics, and one returns iff the other does. -/
theorem C40_agrees (hp : Good inp p) (hr : Ready so saved inp st) (n tr : Node) (max : Nat) (q : Position) (t : Tree)
    (ss' : List Span) :
    (∃ fuel s', repParseWithPartial so env fuel n tr max p st.stk = .ok ((q, t), s') ∧ so.elems s' = ss' ∧
        saved s' = saved st.stk) ↔
      ∃ fuel st', parse so realTracker env fuel (.rep n tr 0 max) p st = .ok (some (q, t), st') ∧
        so.elems st'.stk = ss' ∧ saved st'.stk = saved st.stk := by
  have hr0 : Ready so saved inp ⟨st.stk, Tracker.new p⟩ := ⟨hr.valid, hr.svalid, by simp [Tracker.new, hp.2]⟩
  obtain ⟨c, hco⟩ := corr_exists hp hr
  have hco0 : Corr so p (⟨st.stk, Tracker.new p⟩ : St S Tracker) c := ⟨hco.at_, hco.texts⟩
  constructor
  · rintro ⟨fuel, s', h, rfl, hs⟩
    rw [repParseWithPartial_eq] at h
    cases hx : parse so realTracker env (fuel + 1) (.rep n tr 0 max) p ⟨st.stk, Tracker.new p⟩ with
    | oof => rw [hx] at h; cases h
    | panic => rw [hx] at h; cases h
    | ok r =>
      obtain ⟨o, st0⟩ := r
      rw [hx] at h
      cases o with
      | none => cases h
      | some x =>
        cases h
        obtain ⟨hq, _, _, hsv, _, _, c', hco', hb⟩ := parse_ok hl hp hr0 hco0 hx
        obtain ⟨M, q', st', hM, rfl, hco'', he⟩ := builds_parse hl hp hr hco hb
        have hM := hM M (Nat.le_refl _)
        obtain ⟨_, _, _, hsv', _⟩ := parse_ok hl hp hr hco hM
        refine ⟨M, st', ?_, he, hsv'⟩
        rw [hM]
        have h1 := hq.2
        have h2 := hco'.at_.2
        obtain ⟨qi, qp⟩ := q
        simp only at h1 h2
        rw [h1, h2]
  · rintro ⟨fuel, st', h, rfl, hs⟩
    obtain ⟨hq, _, _, hsv, _, _, c', hco', hb⟩ := parse_ok hl hp hr hco h
    obtain ⟨M, q', st0, hM, rfl, hco'', he⟩ := builds_parse hl hp hr0 hco0 hb
    have hM := hM (M + 1) (by omega)
    obtain ⟨_, _, _, hsv', _⟩ := parse_ok hl hp hr0 hco0 hM
    refine ⟨M, st0.stk, ?_, he, hsv'⟩
    rw [repParseWithPartial_eq, hM]
    have h1 := hq.2
    have h2 := hco'.at_.2
    obtain ⟨qi, qp⟩ := q
    simp only at h1 h2
    rw [h1, h2]

/-- The infallible method does not panic. -/
theorem C40_no_panic (hp : Good inp p) (hr : Ready so saved inp st) (n tr : Node) (max fuel : Nat) :
    repParseWithPartial so env fuel n tr max p st.stk ≠ .panic := by
  have hr0 : Ready so saved inp ⟨st.stk, Tracker.new p⟩ := ⟨hr.valid, hr.svalid, by simp [Tracker.new, hp.2]⟩
  obtain ⟨c, hco⟩ := corr_exists hp hr
  have hco0 : Corr so p (⟨st.stk, Tracker.new p⟩ : St S Tracker) c := ⟨hco.at_, hco.texts⟩
  rw [repParseWithPartial_eq]
  rcases run_cases hl env hp hr0 (fuel + 1) (.rep n tr 0 max) with ⟨h1, _⟩ | ⟨st', h1, _⟩ | ⟨q, t, st', h1, _⟩
  · rw [h1]; simp
  · exact absurd ⟨_, _, _, _, _, hp, hr0, hco0, h1⟩ (C40_never_fails hl env n tr max)
  · rw [h1]; simp

/-- The entry point on a text. -/
theorem C40_parse_prefix (inp : Str) (n tr : Node) (max : Nat) (q : Position) (t : Tree) :
    (∃ fuel, repParsePartial so env fuel n tr max inp = .ok (q, t)) ↔
      ∃ fuel, tryParsePartial so env fuel (.rep n tr 0 max) inp = .ok (.ok (q, t)) := by
  have hp := good_start inp
  have hr := ready_init hl inp
  have key := C40_agrees hl env hp hr n tr max q t
  constructor
  · rintro ⟨fuel, h⟩
    unfold repParsePartial at h
    cases hx : repParseWithPartial so env fuel n tr max (Position.fromStart inp) so.empty with
    | oof => rw [hx] at h; cases h
    | panic => rw [hx] at h; cases h
    | ok r =>
      obtain ⟨r, s'⟩ := r
      rw [hx] at h
      cases h
      have hr0 : Ready so saved inp ⟨(initSt so inp).stk, Tracker.new (Position.fromStart inp)⟩ := hr
      have hx' := hx
      rw [repParseWithPartial_eq] at hx'
      cases hy : parse so realTracker env (fuel + 1) (.rep n tr 0 max) (Position.fromStart inp)
          ⟨so.empty, Tracker.new (Position.fromStart inp)⟩ with
      | oof => rw [hy] at hx'; cases hx'
      | panic => rw [hy] at hx'; cases hx'
      | ok r =>
        obtain ⟨o, st0⟩ := r
        rw [hy] at hx'
        cases o with
        | none => cases hx'
        | some x =>
          cases hx'
          refine ⟨fuel + 1, ?_⟩
          unfold tryParsePartial
          have : (initSt so inp) = ⟨so.empty, Tracker.new (Position.fromStart inp)⟩ := rfl
          rw [this, hy]
          rfl
  · rintro ⟨fuel, h⟩
    unfold tryParsePartial at h
    cases hx : parse so realTracker env fuel (.rep n tr 0 max) (Position.fromStart inp) (initSt so inp) with
    | oof => rw [hx] at h; cases h
    | panic => rw [hx] at h; cases h
    | ok r =>
      obtain ⟨o, st'⟩ := r
      rw [hx] at h
      cases o with
      | none => cases h
      | some a =>
        cases h
        obtain ⟨c, hco⟩ := corr_exists hp hr
        obtain ⟨_, _, _, hsv, _⟩ := parse_ok hl hp hr hco hx
        obtain ⟨fuel', s', h', _⟩ := (key _).2 ⟨fuel, st', hx, rfl, hsv⟩
        refine ⟨fuel', ?_⟩
        unfold repParsePartial
        have : so.empty = (initSt so inp).stk := rfl
        rw [this, h']

omit hl in
/-- `Empty`. -/
theorem C40_empty (fuel : Nat) (p : Position) (st : St S Tracker) :
    parse so realTracker env (fuel + 1) (.leaf .empty) p st =
      .ok (some (emptyParseWithPartial p st.stk).1, st) ∧ (emptyParseWithPartial p st.stk).2 = st.stk := ⟨rfl, rfl⟩

end

/-! ## Instances -/

/-- `e = { e ~ "+" | "1" }`. -/
def leftRec : Env := fun _ => ⟨1, false, .choice [.seq [(.leaf .empty, .rule 1), (.leaf .empty, .leaf (.str ['+']))],
  .leaf (.str ['1'])]⟩

/-- The left-recursive rule never returns, whatever the input. -/
example (inp : Str) (fuel : Nat) :
    parse idealOps realTracker leftRec fuel (.rule 1) (Position.fromStart inp) (initSt idealOps inp) = .oof :=
  C38_left_recursion ideal_lawful leftRec (good_start inp) (ready_init ideal_lawful inp)
    (corr_start ideal_lawful inp) (.rule 1)
    (.tail (.tail (.tail (.tail (.single .rule) .choice) .altsHead) .seq) .firstField) fuel

/-- The example grammar has no left recursion; its trivia may be empty but rules are not. -/
theorem exEnv_noLeftRecursion : NoLeftRecursion exEnv (fun _ => False) (fun id => if id = 1 then 1 else 0) := by
  have hname : ∀ n tr max, (MayEmpty (fun _ => False) n → False) →
      MayEmpty (fun _ => False) (.rep n tr 1 (max + 1)) → False := by
    intro n tr max hn h
    cases h with
    | repZero h => omega
    | rep h => exact hn h
  have hr : MayEmpty (fun _ => False) (.leaf (.range 'a' 'z')) → False := by
    intro h; cases h with | leaf h => exact h
  constructor
  · intro id h
    unfold exEnv at h
    split at h
    · cases h with
      | seq h =>
        have := h _ (List.mem_cons_self ..)
        cases this with
        | push h => cases h with | rule h => exact h
    · exact hname _ _ _ hr h
  · intro id id' h
    unfold exEnv at h
    split at h
    · rename_i hid
      simp only [hid, ↓reduceIte]
      generalize hs : Node.seq _ = s at h
      cases h with
      | @seqField l₁ tr n l₂ _ hm hh =>
        cases l₁ with
        | nil =>
          simp only [List.nil_append, Node.seq.injEq, List.cons.injEq, Prod.mk.injEq] at hs
          obtain ⟨⟨_, rfl⟩, _⟩ := hs
          cases hh with
          | push hh => cases hh with | rule => decide
        | cons f l₁ =>
          simp only [List.cons_append, Node.seq.injEq, List.cons.injEq] at hs
          have := hm f (by simp)
          rw [← hs.1] at this
          cases this with
          | push h => cases h with | rule h => exact h.elim
      | @seqTrivia l₁ tr n l₂ _ hne hm hh =>
        cases l₁ with
        | nil => exact absurd rfl hne
        | cons f l₁ =>
          simp only [List.cons_append, Node.seq.injEq, List.cons.injEq] at hs
          have := hm f (by simp)
          rw [← hs.1] at this
          cases this with
          | push h => cases h with | rule h => exact h.elim
      | _ => cases hs
    · cases h with
      | rep h => cases h
      | repTrivia hm _ => exact (hr hm).elim

/-- Every text is accepted or rejected by the example grammar. -/
example (inp : Str) : ∃ fuel, tryParsePartial idealOps exEnv fuel (.rule 1) inp ≠ .oof :=
  C38_entry_points ideal_lawful exEnv _ _ exEnv_noLeftRecursion inp (.rule 1)

/-- `("x"?)*` before `y`: `usize::MAX` items. -/
example : ∃ stk' ss' ts, Yields idealOps IdealStack.saved exEnv ⟨3, ['y']⟩
    (.rep (.opt (.leaf (.str ['x']))) (.leaf .empty) 0 usizeMax) ⟨[], ['y'], []⟩ [] ⟨[], ['y'], stk'⟩ ss' (.rep ts) ∧
      ts.length = usizeMax := by
  refine (C39_unbounded ideal_lawful exEnv _ _ 0 usizeMax (by decide) [] ['y'] [] ⟨rfl, .nil⟩ ?_ ?_).1
  · intro stk ss hh
    exact ⟨stk, ss, .optNone, (yields_iff ideal_lawful).2 ⟨hh, .optNone (.leafFail (by rfl))⟩⟩
  · intro stk ss hh
    exact ⟨stk, ss, .leaf .unit, (yields_iff ideal_lawful).2 ⟨hh,
      .leaf (l := .empty) (m := []) (rest := ['y']) (stk := stk) rfl rfl rfl⟩⟩

/-- `"a"*` on `aab`, through both methods. -/
example : repParsePartial idealOps exEnv 5 (.leaf (.str ['a'])) (.leaf .empty) 10 ⟨3, ['a', 'a', 'b']⟩ =
    .ok (⟨⟨3, ['a', 'a', 'b']⟩, 2⟩, .rep [.leaf .unit, .leaf .unit]) := by rfl

end Pest3.Props
