import Verif.Transfer

/-!
# Runs of the library, as relations between configurations

`Yields` and `FailsAt` are defined from runs of `parse` only; they are the vocabulary in which the
properties of the combinators are stated.  The lemmas connect them with the specification.
-/

namespace Pest3

section
variable {S : Type} (so : StackOps S) (saved : S → List (List Span)) (env : Env)

/-- `c` and `ss` describe a place in `inp` together with a stack: the consumed text and the text ahead
make up the input, and the spans `ss` refer to the texts `c.stk`. -/
structure Here (inp : Str) (c : Cfg) (ss : List Span) : Prop where
  text : inp.text = c.pre ++ c.suf
  texts : Texts ss c.stk

/-- Some run of `try_parse_with_partial` on input `inp`, started at `c` with spans `ss` on the stack,
succeeds at `c'` with spans `ss'` on the stack and returns the tree `t`. -/
def Yields (inp : Str) (n : Node) (c : Cfg) (ss : List Span) (c' : Cfg) (ss' : List Span) (t : Tree) : Prop :=
  ∃ fuel p st q st', Good inp p ∧ Ready so saved inp st ∧ Corr so p st c ∧ so.elems st.stk = ss ∧
    parse so realTracker env fuel n p st = .ok (some (q, t), st') ∧ Corr so q st' c' ∧ so.elems st'.stk = ss'

/-- Some run of `try_parse_with_partial` started at `c` fails. -/
def FailsAt (n : Node) (c : Cfg) : Prop :=
  ∃ inp fuel p st st', Good inp p ∧ Ready so saved inp st ∧ Corr so p st c ∧
    parse so realTracker env fuel n p st = .ok (none, st')

end

section
variable {S : Type} {so : StackOps S} {saved : S → List (List Span)} {env : Env}

theorem Corr.here {inp : Str} {p : Position} {st : St S Tracker} {c : Cfg} (hp : Good inp p)
    (h : Corr so p st c) : Here inp c (so.elems st.stk) :=
  ⟨by rw [← hp.2]; exact h.at_.1, h.texts⟩

/-- Every place and stack occurs in a run. -/
theorem here_realise (hl : Lawful so saved) {inp : Str} {c : Cfg} {ss : List Span} (h : Here inp c ss) :
    ∃ p st, Good inp p ∧ Ready so saved inp st ∧ Corr so p st c ∧ so.elems st.stk = ss := by
  have hstk : ∀ ss : List Span, ∃ s, so.elems s = ss ∧ saved s = [] := by
    intro ss
    generalize hr : ss.reverse = rs
    induction rs generalizing ss with
    | nil => exact ⟨so.empty, by rw [hl.elems_empty]; simpa using hr.symm, hl.saved_empty⟩
    | cons x xs ih =>
      have hss : ss = xs.reverse ++ [x] := by
        have := congrArg List.reverse hr; simpa using this
      obtain ⟨s, h1, h2⟩ := ih xs.reverse (by simp)
      exact ⟨so.push x s, by rw [hl.elems_push, h1, hss], by rw [hl.saved_push, h2]⟩
  obtain ⟨s, h1, h2⟩ := hstk ss
  have hat : (Position.mk inp (utf8Len c.pre)).At c.pre c.suf := ⟨h.text, rfl⟩
  refine ⟨⟨inp, utf8Len c.pre⟩, ⟨s, Tracker.new (Position.fromStart inp)⟩, ⟨hat.valid, rfl⟩, ⟨?_, ?_, rfl⟩,
    ⟨hat, by rw [h1]; exact h.texts⟩, h1⟩
  · rw [h1]; exact h.texts.valid
  · simp [h2]

theorem Builds.here {inp : Str} {n : Node} {c : Cfg} {ss : List Span} {c' : Cfg} {ss' : List Span} {ts : List Tree}
    (hl : Lawful so saved) (hh : Here inp c ss) (h : Builds env inp (.node n) c ss c' ss' ts) :
    Here inp c' ss' ∧ ∃ t, ts = [t] := by
  obtain ⟨p, st, hp, hr, hco, rfl⟩ := here_realise hl hh
  obtain ⟨N, o, st', hN, hcorr⟩ := parse_complete hl hp hr hco h.peg
  have hrun := real_run hl env hp hr hco N n
  rw [hN N (Nat.le_refl _)] at hrun
  revert hrun
  generalize check so realTracker env N n p st = y
  intro hrun
  cases hrun with
  | fail _ _ hnone => cases h.peg.det hnone
  | ok _ hq _ _ hb hco' =>
    obtain ⟨rfl, rfl, rfl⟩ := h.det hb
    exact ⟨hco'.here hq, _, rfl⟩

/-- What a successful run of the library returns. -/
theorem parse_ok (hl : Lawful so saved) {inp : Str} {p : Position} {st : St S Tracker} {c : Cfg}
    (hp : Good inp p) (hr : Ready so saved inp st) (hco : Corr so p st c) {fuel : Nat} {n : Node}
    {q : Position} {t : Tree} {st' : St S Tracker}
    (h : parse so realTracker env fuel n p st = .ok (some (q, t), st')) :
    Good inp q ∧ p.pos ≤ q.pos ∧ Ready so saved inp st' ∧ saved st'.stk = saved st.stk ∧
      st'.trk.frames = st.trk.frames ∧ st'.trk.positive = st.trk.positive ∧
      ∃ c', Corr so q st' c' ∧ Builds env inp (.node n) c (so.elems st.stk) c' (so.elems st'.stk) [t] := by
  have hrun := real_run hl env hp hr hco fuel n
  rw [h] at hrun
  revert hrun
  generalize check so realTracker env fuel n p st = y
  intro hrun
  cases hrun with
  | ok hg hq hle hsv hb hco' =>
    obtain ⟨i, hg⟩ := hg
    exact ⟨hq, hle, hg.ready, hsv, hg.frames, hg.positive, _, hco', hb⟩

/-- What a failing run of the library leaves behind. -/
theorem parse_none (hl : Lawful so saved) {inp : Str} {p : Position} {st : St S Tracker} {c : Cfg}
    (hp : Good inp p) (hr : Ready so saved inp st) (hco : Corr so p st c) {fuel : Nat} {n : Node}
    {st' : St S Tracker} (h : parse so realTracker env fuel n p st = .ok (none, st')) :
    Ready so saved inp st' ∧ saved st'.stk = saved st.stk ∧
      st'.trk.frames = st.trk.frames ∧ st'.trk.positive = st.trk.positive ∧ Peg env (.node n) c none := by
  have hrun := real_run hl env hp hr hco fuel n
  rw [h] at hrun
  revert hrun
  generalize check so realTracker env fuel n p st = y
  intro hrun
  cases hrun with
  | fail hg hsv hn =>
    obtain ⟨i, hg⟩ := hg
    exact ⟨hg.ready, hsv, hg.frames, hg.positive, hn⟩

/-- Every match of the specification is returned by the library. -/
theorem builds_parse (hl : Lawful so saved) {inp : Str} {p : Position} {st : St S Tracker} {c : Cfg}
    (hp : Good inp p) (hr : Ready so saved inp st) (hco : Corr so p st c) {n : Node} {c' : Cfg} {ss' : List Span}
    {t : Tree} (h : Builds env inp (.node n) c (so.elems st.stk) c' ss' [t]) :
    ∃ N q st', (∀ fuel, N ≤ fuel → parse so realTracker env fuel n p st = .ok (some (q, t), st')) ∧
      q = ⟨inp, utf8Len c'.pre⟩ ∧ Corr so q st' c' ∧ so.elems st'.stk = ss' := by
  obtain ⟨N, o, st', hN, hcorr⟩ := parse_complete hl hp hr hco h.peg
  cases hcorr with
  | @ok q' c2 e1 e2 e3 e4 =>
    obtain ⟨⟨q, t'⟩, rfl, rfl⟩ := Option.map_eq_some_iff.1 e1
    obtain ⟨hq, _, _, _, _, _, c3, hco3, hb⟩ := parse_ok hl hp hr hco (hN N (Nat.le_refl _))
    obtain ⟨rfl, rfl, hts⟩ := h.det hb
    cases hts
    refine ⟨N, q, st', hN, ?_, hco3, rfl⟩
    obtain ⟨qi, qp⟩ := q
    have h1 := hq.2
    have h2 := hco3.at_.2
    simp only at h1 h2
    rw [h1, h2]

/-- Every failure of the specification is returned by the library. -/
theorem none_parse (hl : Lawful so saved) {inp : Str} {p : Position} {st : St S Tracker} {c : Cfg}
    (hp : Good inp p) (hr : Ready so saved inp st) (hco : Corr so p st c) {n : Node}
    (h : Peg env (.node n) c none) :
    ∃ N st', ∀ fuel, N ≤ fuel → parse so realTracker env fuel n p st = .ok (none, st') := by
  obtain ⟨N, o, st', hN, hcorr⟩ := parse_complete hl hp hr hco h
  cases hcorr with
  | fail e1 _ =>
    rw [Option.map_eq_none_iff] at e1
    subst e1
    exact ⟨N, st', hN⟩

theorem yields_iff (hl : Lawful so saved) {inp : Str} {n : Node} {c : Cfg} {ss : List Span} {c' : Cfg} {ss' : List Span}
    {t : Tree} : Yields so saved env inp n c ss c' ss' t ↔
      Here inp c ss ∧ Builds env inp (.node n) c ss c' ss' [t] := by
  constructor
  · rintro ⟨fuel, p, st, q, st', hp, hr, hco, rfl, h, hco', rfl⟩
    obtain ⟨_, _, _, _, _, _, c2, hco2, hb⟩ := parse_ok hl hp hr hco h
    have := hco'.det hco2
    subst this
    exact ⟨hco.here hp, hb⟩
  · rintro ⟨hh, hb⟩
    obtain ⟨p, st, hp, hr, hco, rfl⟩ := here_realise hl hh
    obtain ⟨N, q, st', hN, _, hco', he⟩ := builds_parse hl hp hr hco hb
    exact ⟨N, p, st, q, st', hp, hr, hco, rfl, hN N (Nat.le_refl _), hco', he⟩

theorem failsAt_iff (hl : Lawful so saved) {n : Node} {c : Cfg} :
    FailsAt so saved env n c ↔ Peg env (.node n) c none := by
  constructor
  · rintro ⟨inp, fuel, p, st, st', hp, hr, hco, h⟩
    exact (parse_none hl hp hr hco h).2.2.2.2
  · intro h
    obtain ⟨ss, hss⟩ := texts_realise c.stk
    obtain ⟨p, st, hp, hr, hco, _⟩ := here_realise hl (inp := ⟨0, c.pre ++ c.suf⟩) (c := c) (ss := ss) ⟨rfl, hss⟩
    obtain ⟨N, st', hN⟩ := none_parse hl hp hr hco h
    exact ⟨_, N, p, st, st', hp, hr, hco, hN N (Nat.le_refl _)⟩

end

end Pest3
