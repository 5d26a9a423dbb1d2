import Verif.EntryLemmas

/-!
# Properties C16–C29, C35: the recogniser and the parser

The theorems hold for every stack implementation that does what it is documented to do (`Lawful`),
every grammar (`env`), every input, every valid cursor (`Good`) and every usable stack and tracker
(`Ready`).  `Corr so p st c` says that the cursor `p` and the stack of `st` are described by the
configuration `c` (text consumed, text ahead, texts on the stack); `C16_described` shows there is
exactly one such `c`.
-/

namespace Pest3.Props

open Pest3

/-! ## An example grammar

`tag = { PUSH(name) ~ "," ~ (PEEK | "?") }`, `name = { 'a'..'z'+ }`, trivia `" "*`. -/

def exTrivia : Node := .rep (.leaf (.str [' '])) (.leaf .empty) 0 usizeMax

def exEnv : Env := fun id =>
  if id = 1 then
    ⟨1, false, .seq [(.leaf .empty, .push (.rule 2)), (exTrivia, .leaf (.str [','])),
      (exTrivia, .choice [.leaf .peek, .leaf (.str ['?'])])]⟩
  else ⟨2, false, .rep (.leaf (.range 'a' 'z')) (.leaf .empty) 1 usizeMax⟩

def exInput : Str := ⟨7, ['a', 'b', ' ', ',', 'a', 'b', '!']⟩

section
variable {S : Type} {so : StackOps S} {saved : S → List (List Span)} (hl : Lawful so saved) (env : Env)
  {inp : Str} {p : Position} {st : St S Tracker} {c : Cfg}
include hl

/-! ## C16 -/

omit hl in
theorem C16_described (hp : Good inp p) (hr : Ready so saved inp st) :
    ∃ c, Corr so p st c ∧ ∀ c', Corr so p st c' → c' = c := by
  obtain ⟨c, h⟩ := corr_exists hp hr
  exact ⟨c, h, fun c' h' => h'.det h⟩

/-- Success: position, stack and tree are exactly those the specification derives. -/
theorem C16_success_iff (hp : Good inp p) (hr : Ready so saved inp st) (hco : Corr so p st c) (n : Node)
    (c' : Cfg) (ss' : List Span) (t : Tree) :
    (∃ fuel q st', parse so realTracker env fuel n p st = .ok (some (q, t), st') ∧ q.input = inp ∧
        Corr so q st' c' ∧ so.elems st'.stk = ss') ↔
      Builds env inp (.node n) c (so.elems st.stk) c' ss' [t] := by
  constructor
  · rintro ⟨fuel, q, st', h, _, hco', rfl⟩
    obtain ⟨_, _, _, _, _, _, c2, hco2, hb⟩ := parse_ok hl hp hr hco h
    rw [hco'.det hco2]
    exact hb
  · intro hb
    obtain ⟨N, q, st', hN, hq, hco', he⟩ := builds_parse hl hp hr hco hb
    exact ⟨N, q, st', hN N (Nat.le_refl _), by rw [hq], hco', he⟩

/-- Recognition: positions and stacks are exactly those of the PEG semantics. -/
theorem C16_recognise_iff (hp : Good inp p) (hr : Ready so saved inp st) (hco : Corr so p st c) (n : Node)
    (c' : Cfg) :
    (∃ fuel q t st', parse so realTracker env fuel n p st = .ok (some (q, t), st') ∧ q.input = inp ∧
        Corr so q st' c') ↔
      Peg env (.node n) c (some c') := by
  constructor
  · rintro ⟨fuel, q, t, st', h, _, hco'⟩
    obtain ⟨_, _, _, _, _, _, c2, hco2, hb⟩ := parse_ok hl hp hr hco h
    rw [hco'.det hco2]
    exact hb.peg
  · intro hb
    obtain ⟨N, o, st', hN, hcorr⟩ := parse_complete hl hp hr hco hb
    cases hcorr with
    | ok e1 e2 e3 e4 =>
      obtain ⟨⟨q, t⟩, rfl, rfl⟩ := Option.map_eq_some_iff.1 e1
      exact ⟨N, q, t, st', hN N (Nat.le_refl _), e2, e3⟩

/-- Failure. -/
theorem C16_failure_iff (hp : Good inp p) (hr : Ready so saved inp st) (hco : Corr so p st c) (n : Node) :
    (∃ fuel st', parse so realTracker env fuel n p st = .ok (none, st')) ↔ Peg env (.node n) c none := by
  constructor
  · rintro ⟨fuel, st', h⟩
    exact (parse_none hl hp hr hco h).2.2.2.2
  · intro h
    obtain ⟨N, st', hN⟩ := none_parse hl hp hr hco h
    exact ⟨N, st', hN N (Nat.le_refl _)⟩

/-- Running forever. -/
theorem C16_diverges_iff (hp : Good inp p) (hr : Ready so saved inp st) (hco : Corr so p st c) (n : Node) :
    (∀ fuel, parse so realTracker env fuel n p st = .oof) ↔ ∀ r, ¬ Peg env (.node n) c r := by
  constructor
  · intro h r hpeg
    obtain ⟨N, o, st', hN, _⟩ := parse_complete hl hp hr hco hpeg
    have := hN N (Nat.le_refl _)
    rw [h N] at this
    cases this
  · intro h fuel
    rcases run_cases hl env hp hr fuel n with ⟨h1, _⟩ | ⟨st', h1, _⟩ | ⟨q, t, st', h1, _⟩
    · exact h1
    · exact absurd (parse_none hl hp hr hco h1).2.2.2.2 (h _)
    · obtain ⟨_, _, _, _, _, _, c2, _, hb⟩ := parse_ok hl hp hr hco h1
      exact absurd hb.peg (h _)

/-- The same for the entry point `try_parse_partial`. -/
theorem C16_try_parse_prefix (inp : Str) (n : Node) (t : Tree) (q : Position) :
    (∃ fuel, tryParsePartial so env fuel n inp = .ok (.ok (q, t))) ↔
      ∃ c' ss', q = ⟨inp, utf8Len c'.pre⟩ ∧ Builds env inp (.node n) (startCfg inp) [] c' ss' [t] := by
  have hp := good_start inp
  have hr := ready_init hl inp
  have hco := corr_start hl inp
  constructor
  · rintro ⟨fuel, h⟩
    unfold tryParsePartial at h
    cases hx : parse so realTracker env fuel n (Position.fromStart inp) (initSt so inp) with
    | oof => rw [hx] at h; cases h
    | panic => rw [hx] at h; cases h
    | ok r =>
      obtain ⟨o, st'⟩ := r
      rw [hx] at h
      cases o with
      | none => cases h
      | some a =>
        cases h
        obtain ⟨hq, _, _, _, _, _, c2, hco2, hb⟩ := parse_ok hl hp hr hco hx
        simp only [initSt, hl.elems_empty] at hb
        refine ⟨c2, _, ?_, hb⟩
        obtain ⟨qi, qp⟩ := q
        have h1 := hq.2
        have h2 := hco2.at_.2
        simp only at h1 h2
        rw [h1, h2]
  · rintro ⟨c', ss', rfl, hb⟩
    obtain ⟨N, q, st', hN, rfl, hco', he⟩ := builds_parse hl hp hr hco
      (by simp only [initSt, hl.elems_empty]; exact hb)
    refine ⟨N, ?_⟩
    unfold tryParsePartial
    rw [hN N (Nat.le_refl _)]
    rfl

/-! ## C17 -/

omit hl in
/-- An outcome does not change when more computation is allowed; holds for every stack and tracker. -/
theorem C17_stable {T : Type} (so : StackOps S) (tk : TrackerOps T) (fuel fuel' : Nat) (h : fuel ≤ fuel')
    (n : Node) (p : Position) (st : St S T) :
    (parse so tk env fuel n p st ≠ .oof → parse so tk env fuel' n p st = parse so tk env fuel n p st) ∧
    (check so tk env fuel n p st ≠ .oof → check so tk env fuel' n p st = check so tk env fuel n p st) := by
  constructor
  · intro hne
    rcases parse_mono so tk env h n p st with h | h
    · exact absurd h hne
    · exact h.symm
  · intro hne
    rcases check_mono so tk env h n p st with h | h
    · exact absurd h hne
    · exact h.symm

omit hl in
/-- At most one outcome. -/
theorem C17_deterministic {T : Type} (so : StackOps S) (tk : TrackerOps T) (fuel fuel' : Nat)
    (n : Node) (p : Position) (st : St S T) (h : parse so tk env fuel n p st ≠ .oof)
    (h' : parse so tk env fuel' n p st ≠ .oof) :
    parse so tk env fuel n p st = parse so tk env fuel' n p st := by
  rcases Nat.le_total fuel fuel' with hle | hle
  · exact ((C17_stable env so tk fuel fuel' hle n p st).1 h).symm
  · exact (C17_stable env so tk fuel' fuel hle n p st).1 h'

omit hl in
/-- The outcome of the specification is unique: position, stack and tree depend only on the text and the
texts and spans on the stack. -/
theorem C17_spec (inp : Str) (n : Node) (c : Cfg) (ss : List Span) (r r' : Option Cfg) (h : Peg env (.node n) c r)
    (h' : Peg env (.node n) c r') : r = r' ∧
      ∀ c₁ ss₁ t₁ c₂ ss₂ t₂, Builds env inp (.node n) c ss c₁ ss₁ [t₁] → Builds env inp (.node n) c ss c₂ ss₂ [t₂] →
        c₁ = c₂ ∧ ss₁ = ss₂ ∧ t₁ = t₂ := by
  refine ⟨h.det h', ?_⟩
  intro c₁ ss₁ t₁ c₂ ss₂ t₂ h1 h2
  obtain ⟨a, b, c⟩ := h1.det h2
  cases c
  exact ⟨a, b, rfl⟩

/-! ## C18 -/

/-- `check_with_partial` accepts exactly when `try_parse_with_partial` does, with the same remaining
position and the same stack and tracker afterwards (equal as values). -/
theorem C18_accept_iff (hp : Good inp p) (hr : Ready so saved inp st) (fuel : Nat) (n : Node) (q : Position)
    (st' : St S Tracker) :
    check so realTracker env fuel n p st = .ok (some q, st') ↔
      ∃ t, parse so realTracker env fuel n p st = .ok (some (q, t), st') := by
  rcases run_cases hl env hp hr fuel n with ⟨h1, h2⟩ | ⟨s, h1, h2⟩ | ⟨q', t, s, h1, h2, _, _⟩ <;> rw [h1, h2] <;> simp

theorem C18_reject_iff (hp : Good inp p) (hr : Ready so saved inp st) (fuel : Nat) (n : Node)
    (st' : St S Tracker) :
    check so realTracker env fuel n p st = .ok (none, st') ↔
      parse so realTracker env fuel n p st = .ok (none, st') := by
  rcases run_cases hl env hp hr fuel n with ⟨h1, h2⟩ | ⟨s, h1, h2⟩ | ⟨q', t, s, h1, h2, _, _⟩ <;> rw [h1, h2] <;> simp

theorem C18_diverge_iff (hp : Good inp p) (hr : Ready so saved inp st) (fuel : Nat) (n : Node) :
    check so realTracker env fuel n p st = .oof ↔ parse so realTracker env fuel n p st = .oof := by
  rcases run_cases hl env hp hr fuel n with ⟨h1, h2⟩ | ⟨s, h1, h2⟩ | ⟨q', t, s, h1, h2, _, _⟩ <;> rw [h1, h2] <;> simp

theorem C18_check_prefix (inp : Str) (fuel : Nat) (n : Node) :
    (∀ q, checkPartial so env fuel n inp = .ok (.ok q) ↔
      ∃ t, tryParsePartial so env fuel n inp = .ok (.ok (q, t))) ∧
    (∀ trk, checkPartial so env fuel n inp = .ok (.error trk) ↔
      tryParsePartial so env fuel n inp = .ok (.error trk)) := by
  unfold checkPartial tryParsePartial
  rcases run_cases hl env (good_start inp) (ready_init hl inp) fuel n with
    ⟨h1, h2⟩ | ⟨s, h1, h2⟩ | ⟨q', t, s, h1, h2, _, _⟩ <;> rw [h1, h2] <;> simp [finishRun]

theorem C18_check (inp : Str) (fuel : Nat) (n : Node) :
    (checkAll so env fuel n inp = .ok (.ok ()) ↔ ∃ t, tryParse so env fuel n inp = .ok (.ok t)) ∧
    (∀ trk, checkAll so env fuel n inp = .ok (.error trk) ↔ tryParse so env fuel n inp = .ok (.error trk)) := by
  unfold checkAll tryParse checkWith tryParseWith
  rcases run_cases hl env (good_start inp) (ready_init hl inp) fuel n with
    ⟨h1, h2⟩ | ⟨s, h1, h2⟩ | ⟨q', t, s, h1, h2, hq, hs⟩ <;> rw [h1, h2]
  · simp [finishRun]
  · simp [finishRun]
  · obtain ⟨s', he, _⟩ := eoi_run hq hs
    simp only [Out.andThen_some, he]
    by_cases ha : q'.atEnd = true
    · simp [if_pos ha, finishRun]
    · simp [if_neg ha, finishRun]

/-! ## C19 -/

/-- `try_parse` succeeds with `t` iff `try_parse_partial` succeeds with `t` at the end of the input. -/
theorem C19_try_parse_iff (inp : Str) (fuel : Nat) (n : Node) (t : Tree) :
    tryParse so env fuel n inp = .ok (.ok t) ↔
      tryParsePartial so env fuel n inp = .ok (.ok (⟨inp, utf8Len inp.text⟩, t)) := by
  unfold tryParse tryParsePartial tryParseWith
  rcases run_cases hl env (good_start inp) (ready_init hl inp) fuel n with
    ⟨h1, h2⟩ | ⟨s, h1, h2⟩ | ⟨q', t', s, h1, h2, hq, hs⟩ <;> rw [h1]
  · simp [finishRun]
  · simp [finishRun]
  · obtain ⟨s', he, _⟩ := eoi_run hq hs
    simp only [Out.andThen_some, he]
    obtain ⟨qi, qp⟩ := q'
    have h1 := hq.2
    simp only at h1
    subst h1
    by_cases ha : (Position.mk qi qp).atEnd = true
    · have ha' := ha
      simp only [Position.atEnd, Str.len, beq_iff_eq] at ha'
      subst ha'
      simp [if_pos ha, finishRun]
    · have ha' := ha
      simp only [Position.atEnd, Str.len, beq_iff_eq] at ha'
      simp [if_neg ha, finishRun, ha']

/-- Otherwise `try_parse` is an error: `try_parse_partial` failed or stopped before the end. -/
theorem C19_error_iff (inp : Str) (fuel : Nat) (n : Node) :
    (∃ trk, tryParse so env fuel n inp = .ok (.error trk)) ↔
      (∃ trk, tryParsePartial so env fuel n inp = .ok (.error trk)) ∨
      ∃ q t, tryParsePartial so env fuel n inp = .ok (.ok (q, t)) ∧ q.pos < utf8Len inp.text := by
  unfold tryParse tryParsePartial tryParseWith
  rcases run_cases hl env (good_start inp) (ready_init hl inp) fuel n with
    ⟨h1, h2⟩ | ⟨s, h1, h2⟩ | ⟨q', t', s, h1, h2, hq, hs⟩ <;> rw [h1]
  · simp [finishRun]
  · simp [finishRun]
  · obtain ⟨s', he, _⟩ := eoi_run hq hs
    simp only [Out.andThen_some, he]
    have hle : q'.pos ≤ utf8Len inp.text := by
      rw [← hq.2]; exact Boundary.le hq.1
    by_cases ha : q'.atEnd = true
    · have ha' := ha
      simp only [Position.atEnd, Str.len, beq_iff_eq, hq.2] at ha'
      simp [if_pos ha, finishRun]
      omega
    · have ha' := ha
      simp only [Position.atEnd, Str.len, beq_iff_eq, hq.2] at ha'
      simp [if_neg ha, finishRun]
      omega

/-! ## C20 -/

/-- The cursor stays in the input, at a character boundary, and does not move backwards. -/
theorem C20_forward (hp : Good inp p) (hr : Ready so saved inp st) (fuel : Nat) (n : Node) (q : Position) (t : Tree)
    (st' : St S Tracker) (h : parse so realTracker env fuel n p st = .ok (some (q, t), st')) :
    q.input = p.input ∧ Boundary q.input.text q.pos ∧ p.pos ≤ q.pos ∧ q.pos ≤ utf8Len q.input.text := by
  obtain ⟨c, hco⟩ := corr_exists hp hr
  obtain ⟨hq, hle, _⟩ := parse_ok hl hp hr hco h
  exact ⟨hq.2.trans hp.2.symm, hq.1, hle, Boundary.le hq.1⟩

/-! ## C21 -/

theorem C21_no_panic (hp : Good inp p) (hr : Ready so saved inp st) (fuel : Nat) (n : Node) :
    parse so realTracker env fuel n p st ≠ .panic ∧ check so realTracker env fuel n p st ≠ .panic :=
  not_panic hl env hp hr fuel n

/-- The states the entry points start from are usable; none of the entry points panics. -/
theorem C21_entry_points (inp : Str) (fuel : Nat) (n : Node) :
    tryParse so env fuel n inp ≠ .panic ∧ tryParsePartial so env fuel n inp ≠ .panic ∧
      checkAll so env fuel n inp ≠ .panic ∧ checkPartial so env fuel n inp ≠ .panic := by
  unfold tryParse tryParsePartial checkAll checkPartial checkWith tryParseWith
  rcases run_cases hl env (good_start inp) (ready_init hl inp) fuel n with
    ⟨h1, h2⟩ | ⟨s, h1, h2⟩ | ⟨q', t', s, h1, h2, hq, hs⟩ <;> rw [h1, h2]
  · simp [finishRun]
  · simp [finishRun]
  · obtain ⟨s', he, _⟩ := eoi_run hq hs
    simp only [Out.andThen_some, he]
    by_cases ha : q'.atEnd = true
    · simp [if_pos ha, finishRun]
    · simp [if_neg ha, finishRun]

/-! ## C27 -/

/-- The open snapshots (their number and what they saved) are the same afterwards, on success and on
failure, for parsing and for checking; and the state is usable again. -/
theorem C27_balanced (hp : Good inp p) (hr : Ready so saved inp st) (fuel : Nat) (n : Node) :
    (∀ o st', parse so realTracker env fuel n p st = .ok (o, st') →
      saved st'.stk = saved st.stk ∧ Ready so saved inp st') ∧
    (∀ o st', check so realTracker env fuel n p st = .ok (o, st') →
      saved st'.stk = saved st.stk ∧ Ready so saved inp st') := by
  obtain ⟨c, hco⟩ := corr_exists hp hr
  have hP : ∀ o st', parse so realTracker env fuel n p st = .ok (o, st') →
      saved st'.stk = saved st.stk ∧ Ready so saved inp st' := by
    intro o st' h
    cases o with
    | none =>
      obtain ⟨h1, h2, _⟩ := parse_none hl hp hr hco h
      exact ⟨h2, h1⟩
    | some a =>
      obtain ⟨_, _, h1, h2, _⟩ := parse_ok hl hp hr hco h
      exact ⟨h2, h1⟩
  refine ⟨hP, ?_⟩
  intro o st' h
  cases o with
  | none => exact hP none st' ((C18_reject_iff hl env hp hr fuel n st').1 h)
  | some q =>
    obtain ⟨t, ht⟩ := (C18_accept_iff hl env hp hr fuel n q st').1 h
    exact hP _ st' ht

/-! ## C29 -/

/-- A rule's span starts where the rule was tried and ends where the remaining input starts. -/
theorem C29_rule_span (hp : Good inp p) (hr : Ready so saved inp st) (fuel : Nat) (id : RuleId) (q : Position)
    (t : Tree) (st' : St S Tracker)
    (h : parse so realTracker env fuel (.rule id) p st = .ok (some (q, t), st')) :
    ∃ content, t = .rule id content ⟨p.input, p.pos, q.pos⟩ := by
  obtain ⟨c, hco⟩ := corr_exists hp hr
  obtain ⟨hq, _, _, _, _, _, c', hco', hb⟩ := parse_ok hl hp hr hco h
  cases hb with
  | @rule _ _ _ _ _ t hb =>
    refine ⟨t, ?_⟩
    rw [spanOf, hco.at_.2, hco'.at_.2, hp.2]

/-! ## C35 -/

/-- The outcome does not depend on the tracker: two runs whose stacks hold the same spans return the
same position and tree and leave the same spans on the stack, whatever the trackers. -/
theorem C35_independent (hp : Good inp p) {st₁ st₂ : St S Tracker} (hr₁ : Ready so saved inp st₁)
    (hr₂ : Ready so saved inp st₂) (he : so.elems st₁.stk = so.elems st₂.stk) (n : Node) (q : Position) (t : Tree)
    (ss' : List Span) :
    (∃ fuel st', parse so realTracker env fuel n p st₁ = .ok (some (q, t), st') ∧ so.elems st'.stk = ss') ↔
    (∃ fuel st', parse so realTracker env fuel n p st₂ = .ok (some (q, t), st') ∧ so.elems st'.stk = ss') := by
  have key : ∀ {a b : St S Tracker}, Ready so saved inp a → Ready so saved inp b →
      so.elems a.stk = so.elems b.stk →
      (∃ fuel st', parse so realTracker env fuel n p a = .ok (some (q, t), st') ∧ so.elems st'.stk = ss') →
      (∃ fuel st', parse so realTracker env fuel n p b = .ok (some (q, t), st') ∧ so.elems st'.stk = ss') := by
    rintro a b ha hb he ⟨fuel, st', h, rfl⟩
    obtain ⟨c, hco⟩ := corr_exists hp ha
    have hco2 : Corr so p b c := ⟨hco.at_, by rw [← he]; exact hco.texts⟩
    obtain ⟨hq, _, _, _, _, _, c', hco', hbu⟩ := parse_ok hl hp ha hco h
    rw [he] at hbu
    obtain ⟨N, q2, st2, hN, hq2, hco3, he2⟩ := builds_parse hl hp hb hco2 hbu
    refine ⟨N, st2, ?_, he2⟩
    have : q = q2 := by
      rw [hq2]
      obtain ⟨qi, qp⟩ := q
      have h1 := hq.2
      have h2 := hco'.at_.2
      simp only at h1 h2
      rw [h1, h2]
    rw [this]
    exact hN N (Nat.le_refl _)
  exact ⟨key hr₁ hr₂ he, key hr₂ hr₁ he.symm⟩

theorem C35_independent_failure (hp : Good inp p) {st₁ st₂ : St S Tracker} (hr₁ : Ready so saved inp st₁)
    (hr₂ : Ready so saved inp st₂) (he : so.elems st₁.stk = so.elems st₂.stk) (n : Node) :
    (∃ fuel st', parse so realTracker env fuel n p st₁ = .ok (none, st')) ↔
    (∃ fuel st', parse so realTracker env fuel n p st₂ = .ok (none, st')) := by
  obtain ⟨c, hco⟩ := corr_exists hp hr₁
  have hco2 : Corr so p st₂ c := ⟨hco.at_, by rw [← he]; exact hco.texts⟩
  rw [C16_failure_iff hl env hp hr₁ hco, C16_failure_iff hl env hp hr₂ hco2]

/-- On return the mode flag and the open rules of the tracker are what they were. -/
theorem C35_restored (hp : Good inp p) (hr : Ready so saved inp st) (fuel : Nat) (n : Node) :
    (∀ o st', parse so realTracker env fuel n p st = .ok (o, st') → st'.trk.positive = st.trk.positive ∧
      st'.trk.stack.map (fun x => (x.1, x.2.1)) = st.trk.stack.map (fun x => (x.1, x.2.1))) ∧
    (∀ o st', check so realTracker env fuel n p st = .ok (o, st') → st'.trk.positive = st.trk.positive ∧
      st'.trk.stack.map (fun x => (x.1, x.2.1)) = st.trk.stack.map (fun x => (x.1, x.2.1))) := by
  obtain ⟨c, hco⟩ := corr_exists hp hr
  have hP : ∀ o st', parse so realTracker env fuel n p st = .ok (o, st') → st'.trk.positive = st.trk.positive ∧
      st'.trk.stack.map (fun x => (x.1, x.2.1)) = st.trk.stack.map (fun x => (x.1, x.2.1)) := by
    intro o st' h
    cases o with
    | none =>
      obtain ⟨_, _, h1, h2, _⟩ := parse_none hl hp hr hco h
      exact ⟨h2, h1⟩
    | some a =>
      obtain ⟨_, _, _, _, h1, h2, _⟩ := parse_ok hl hp hr hco h
      exact ⟨h2, h1⟩
  refine ⟨hP, ?_⟩
  intro o st' h
  cases o with
  | none => exact hP none st' ((C18_reject_iff hl env hp hr fuel n st').1 h)
  | some q =>
    obtain ⟨t, ht⟩ := (C18_accept_iff hl env hp hr fuel n q st').1 h
    exact hP _ st' ht

end

/-! ### Concrete cases for C16–C21, C27, C29, C35 -/

example : ∃ t, tryParsePartial idealOps exEnv 20 (.rule 1) exInput = .ok (.ok (⟨exInput, 6⟩, t)) := ⟨_, rfl⟩

example : ∃ t, tryParse idealOps exEnv 20 (.rule 1) ⟨7, ['a', 'b', ' ', ',', 'a', 'b']⟩ = .ok (.ok t) := ⟨_, rfl⟩

example : ∃ trk, tryParse idealOps exEnv 20 (.rule 1) exInput = .ok (.error trk) := ⟨_, rfl⟩

example : ∃ t st', parse idealOps realTracker exEnv 20 (.rule 1) (Position.fromStart exInput) (initSt idealOps exInput) =
    .ok (some (⟨exInput, 6⟩, t), st') ∧ st'.stk.cache = [⟨exInput, 0, 2⟩] ∧ st'.stk.saved = [] := ⟨_, _, rfl, rfl, rfl⟩

example : Good exInput (Position.fromStart exInput) ∧ Ready idealOps IdealStack.saved exInput (initSt idealOps exInput) ∧
    Corr idealOps (Position.fromStart exInput) (initSt idealOps exInput) (startCfg exInput) :=
  ⟨good_start _, ready_init ideal_lawful _, corr_start ideal_lawful _⟩

/-- A usable state with an open snapshot, a non-empty stack and a used tracker. -/
example : Ready idealOps IdealStack.saved exInput
    ⟨⟨[⟨exInput, 0, 2⟩], [[], [⟨exInput, 0, 1⟩]]⟩, ⟨⟨exInput, 3⟩, false, [(some 1, ⟨[2], [], []⟩)], [(1, ⟨exInput, 0⟩, true)]⟩⟩ := by
  have h : ∀ b, Boundary exInput.text b → (Span.mk exInput 0 b).Valid := fun b hb => ⟨Nat.zero_le _, boundary_zero _, hb⟩
  refine ⟨?_, ?_, rfl⟩
  · intro x hx
    simp only [idealOps, List.mem_singleton] at hx
    subst hx
    exact h 2 ⟨['a', 'b'], _, rfl, rfl⟩
  · intro c hc x hx
    simp only [List.mem_cons, List.not_mem_nil, or_false] at hc
    rcases hc with rfl | rfl
    · cases hx
    · simp only [List.mem_singleton] at hx
      subst hx
      exact h 1 ⟨['a'], _, rfl, rfl⟩

end Pest3.Props
