import Verif.TraceFacts

/-!
# Runs, summaries of traces, and error collection
-/

namespace Pest3

/-- The event reports something itself: an illegal stack access, or a rule that tried no other rule. -/
def Ev.Reports : Ev → Prop
  | .special _ _ => True
  | .rule _ _ _ _ cs => ∀ e ∈ cs, e.isRule = false

theorem Ev.reports_own {ups : List (Label × Nat)} {e : Ev} (h : e.Reports) : ∃ x ∈ e.own ups, x.pos = e.pos := by
  cases e with
  | special pos s => exact ⟨_, List.mem_cons_self, rfl⟩
  | rule r pos f ok cs =>
    have : cs.any Ev.isRule = false := by
      rw [List.any_eq_false]; intro x hx; simp [h x hx]
    simp only [Ev.own, this]
    exact ⟨_, List.mem_cons_self, rfl⟩

theorem Ev.own_reports {ups : List (Label × Nat)} {e : Ev} {x} (h : x ∈ e.own ups) : e.Reports := by
  cases e with
  | special pos s => trivial
  | rule r pos f ok cs =>
    simp only [Ev.own] at h
    split at h
    · cases h
    · next hn =>
      intro y hy
      have hn : cs.any Ev.isRule = false := by simpa using hn
      rw [List.any_eq_false] at hn
      simpa using hn y hy

/-- Every event is followed by a reporting one that is at least as far. -/
def Covered (es : List Ev) : Prop :=
  ∀ ups ups' e, Within ups es ups' e → ∃ ups'' e', Within ups es ups'' e' ∧ e'.Reports ∧ e.pos ≤ e'.pos

theorem Covered.nil : Covered [] := by
  intro ups ups' e h
  cases h with
  | here h => cases h
  | inner h _ => cases h

theorem Within.left {ups es es' ups' e} (h : Within ups es ups' e) : Within ups (es ++ es') ups' e := by
  cases h with
  | here h => exact .here (List.mem_append_left _ h)
  | inner h h' => exact .inner (List.mem_append_left _ h) h'

theorem Within.right {ups es es' ups' e} (h : Within ups es' ups' e) : Within ups (es ++ es') ups' e := by
  cases h with
  | here h => exact .here (List.mem_append_right _ h)
  | inner h h' => exact .inner (List.mem_append_right _ h) h'

theorem Within.append {ups es es' ups' e} (h : Within ups (es ++ es') ups' e) :
    Within ups es ups' e ∨ Within ups es' ups' e := by
  cases h with
  | here hm =>
    rcases List.mem_append.1 hm with hm | hm
    · exact Or.inl (.here hm)
    · exact Or.inr (.here hm)
  | inner hm hw =>
    rcases List.mem_append.1 hm with hm | hm
    · exact Or.inl (.inner hm hw)
    · exact Or.inr (.inner hm hw)

theorem Covered.append {es es'} (h : Covered es) (h' : Covered es') : Covered (es ++ es') := by
  intro ups ups' e hw
  rcases hw.append with hw | hw
  · obtain ⟨u, e', h1, h2⟩ := h _ _ _ hw; exact ⟨u, e', h1.left, h2⟩
  · obtain ⟨u, e', h1, h2⟩ := h' _ _ _ hw; exact ⟨u, e', h1.right, h2⟩

theorem Covered.rule {r pos f ok cs} (h : Covered cs) (hb : ∀ ups ups' e, Within ups cs ups' e → pos ≤ e.pos) :
    Covered [.rule r pos f ok cs] := by
  intro ups ups' e hw
  cases hw with
  | here hm =>
    rw [List.mem_singleton] at hm
    subst hm
    by_cases hr : ∀ e ∈ cs, e.isRule = false
    · exact ⟨ups, _, .here List.mem_cons_self, hr, Nat.le_refl _⟩
    · have : ∃ e ∈ cs, e.isRule = true := by
        apply Classical.byContradiction
        intro hn
        apply hr
        intro e he
        cases hi : e.isRule with
        | false => rfl
        | true => exact absurd ⟨e, he, hi⟩ hn
      obtain ⟨e1, he1, _⟩ := this
      have hw1 : Within ((r, pos) :: ups) cs ((r, pos) :: ups) e1 := .here he1
      obtain ⟨u, e', h1, h2, h3⟩ := h _ _ _ hw1
      exact ⟨u, e', .inner List.mem_cons_self h1, h2, Nat.le_trans (hb _ _ _ hw1) h3⟩
  | inner hm hw =>
    rw [List.mem_singleton] at hm
    cases hm
    obtain ⟨u, e', h1, h2, h3⟩ := h _ _ _ hw
    exact ⟨u, e', .inner List.mem_cons_self h1, h2, h3⟩

theorem Beyond.le {pre suf : Text} {off : Nat} (h : Beyond pre suf off) : utf8Len pre ≤ off := by
  obtain ⟨a, b, _, rfl⟩ := h
  simp

theorem Beyond.boundary {pre suf : Text} {off : Nat} (h : Beyond pre suf off) : Boundary (pre ++ suf) off := by
  obtain ⟨a, b, rfl, rfl⟩ := h
  exact ⟨pre ++ a, b, by simp, rfl⟩

theorem Traces.covered {env : Env} {f item c r es} (h : Traces env f item c r es) : Covered es := by
  induction h with
  | leafOk h1 h2 => exact .nil
  | @leafFail f l c h1 =>
    unfold leafEvents
    split
    · intro ups ups' e hw
      cases hw with
      | here hm => rw [List.mem_singleton] at hm; subst hm; exact ⟨ups, _, .here List.mem_cons_self, trivial, Nat.le_refl _⟩
      | inner hm _ => rw [List.mem_singleton] at hm; cases hm
    · exact .nil
  | rule h ih => exact .rule ih fun _ _ _ hw => (h.beyond _ _ _ hw).le
  | altsNil => exact .nil
  | fieldsNil => exact .nil
  | repsMax => exact .nil
  | altsMiss _ _ ih1 ih2 => exact ih1.append ih2
  | fieldsFirst h _ ih1 ih2 => exact ih1.append ih2
  | fieldsNext h h' _ ih1 ih2 ih3 => exact ih1.append (ih2.append ih3)
  | fieldsNextFail h _ ih1 ih2 => exact ih1.append ih2
  | unitNext h _ ih1 ih2 => exact ih1.append ih2
  | repsMore _ h _ ih1 ih2 => exact ih1.append ih2
  | positiveOk _ ih => exact ih
  | positiveFail _ ih => exact ih
  | negativeOk _ ih => exact ih
  | negativeFail _ ih => exact ih
  | pushOk _ ih => exact ih
  | pushFail _ ih => exact ih
  | optSome _ ih => exact ih
  | optNone _ ih => exact ih
  | rep _ ih => exact ih
  | seq _ ih => exact ih
  | choice _ ih => exact ih
  | altsHit _ ih => exact ih
  | fieldsFirstFail _ ih => exact ih
  | fieldsTriviaFail _ ih => exact ih
  | unitFirst _ ih => exact ih
  | unitTriviaFail _ ih => exact ih
  | repsFew _ _ _ ih => exact ih
  | repsStop _ _ _ ih => exact ih

/-! ## Runs -/

section
variable {S : Type} {so : StackOps S} {saved : S → List (List Span)} {env : Env}

/-- A run of the parser has a trace and leaves the tracker it describes. -/
theorem parse_trace (hl : Lawful so saved) {inp : Str} {p : Position} {st : St S Tracker} {c : Cfg}
    (hp : Good inp p) (hr : Ready so saved inp st) (hco : Corr so p st c) (ht : Tracker.Of inp st.trk)
    {fuel : Nat} {n : Node} {o} {st' : St S Tracker} (h : parse so realTracker env fuel n p st = .ok (o, st')) :
    ∃ r es, Traces env st.trk.positive (.node n) c r es ∧ CorrOut so saved inp (saved st.stk) (o.map (·.1)) st' r ∧
      st'.trk = st.trk.after inp es := by
  rcases run_cases hl env hp hr fuel n with ⟨h1, _⟩ | ⟨s, h1, h2⟩ | ⟨q, t, s, h1, h2, _⟩
  · rw [h] at h1; cases h1
  · rw [h] at h1; cases h1; exact check_trace hl env inp fuel n p st c hco hp.2 ht _ _ h2
  · rw [h] at h1; cases h1; exact check_trace hl env inp fuel n p st c hco hp.2 ht _ _ h2

theorem eoi_trace (hl : Lawful so saved) {inp : Str} {q : Position} {st : St S Tracker} {c : Cfg}
    (hin : q.input = inp) (hco : Corr so q st c) (ht : Tracker.Of inp st.trk) :
    eoiStep so realTracker q st =
      .ok (if c.suf = [] then some q else none,
        ⟨st.stk, st.trk.after inp [.rule eoiLabel (utf8Len c.pre) st.trk.positive (decide (c.suf = [])) []]⟩) := by
  have hpe : q = ⟨inp, utf8Len c.pre⟩ := by
    have := hco.at_.2
    cases q; simp only at hin this; rw [hin, this]
  have he : q.atEnd = decide (c.suf = []) := by
    rw [hco.at_.atEnd]; cases c.suf <;> rfl
  have key : ∀ b, (st.trk.enter eoiLabel q).leave eoiLabel q b =
      some (st.trk.after inp [.rule eoiLabel (utf8Len c.pre) st.trk.positive b []]) := by
    intro b
    rw [hpe]
    have := Tracker.leave_after ht eoiLabel (utf8Len c.pre) b []
    rw [Tracker.after_nil] at this
    exact this
  have _ := hl
  unfold eoiStep leafCheck
  rw [he]
  by_cases ha : c.suf = []
  · simp only [ha, decide_true, if_true, Out.bind_ok, Option.isSome_some, St.leave, St.enter, realTracker,
      key true, Option.map_some, Out.lift_some]
  · simp only [ha, decide_false, if_false, Out.bind_ok, Option.isSome_none, St.leave, St.enter, realTracker,
      key false, Option.map_some, Out.lift_some, Bool.false_eq_true]

/-- A successful call of an entry point that requires the whole input, or a failing one: all events. -/
inductive FullTraces (env : Env) (n : Node) (inp : Str) : Bool → List Ev → Prop
  | fail {es} : Traces env true (.node n) (startCfg inp) none es → FullTraces env n inp false es
  | ok {c' es} : Traces env true (.node n) (startCfg inp) (some c') es →
      FullTraces env n inp (decide (c'.suf = []))
        (es ++ [.rule eoiLabel (utf8Len c'.pre) true (decide (c'.suf = [])) []])

theorem full_trace (hl : Lawful so saved) {inp : Str} {fuel : Nat} {n : Node} {o} {st' : St S Tracker}
    (h : tryParseWith so realTracker env fuel n (Position.fromStart inp) (initSt so inp) = .ok (o, st')) :
    ∃ es, FullTraces env n inp o.isSome es ∧ st'.trk = (initSt so inp).trk.after inp es := by
  have hp := good_start inp
  have hr := ready_init hl inp
  have hco := corr_start hl inp
  have ht : Tracker.Of inp (initSt so inp).trk := ⟨rfl, by intro f hf; cases hf⟩
  unfold tryParseWith at h
  rcases Out.andThen_eq_ok.1 h with ⟨⟨q, t⟩, st1, h1, h2⟩ | ⟨st1, h1, h2⟩
  · obtain ⟨r, es, htr, hcorr, e⟩ := parse_trace hl hp hr hco ht h1
    cases hcorr with
    | fail e1 _ => cases e1
    | @ok q' c' e1 e2 e3 e4 =>
      cases e1
      have ht1 : Tracker.Of inp st1.trk := by rw [e]; exact ht.after es
      have he := eoi_trace hl e2 e3 ht1
      simp only at h2
      rw [he] at h2
      rw [e, ← Tracker.after_append] at h2
      have hok := FullTraces.ok (env := env) (n := n) (inp := inp) htr
      by_cases hsuf : c'.suf = []
      · simp only [hsuf, if_true, Out.andThen_some, decide_true] at h2 hok
        cases h2
        exact ⟨_, hok, rfl⟩
      · simp only [hsuf, if_false, decide_false, Out.andThen, Out.bind_ok] at h2 hok
        cases h2
        exact ⟨_, hok, rfl⟩
  · cases h2
    obtain ⟨r, es, htr, hcorr, e⟩ := parse_trace hl hp hr hco ht h1
    cases hcorr with
    | fail e1 e2 => exact ⟨es, .fail htr, e⟩
    | ok e1 _ _ _ => cases e1

end

theorem lookup_mem {m : List (Option Label × Tracked)} (hs : KeysSorted m) (k : Option Label) (v : Tracked) :
    (k, v) ∈ m ↔ lookupKey k m = some v := by
  induction m with
  | nil => simp [lookupKey]
  | cons x m ih =>
    obtain ⟨k', v'⟩ := x
    unfold KeysSorted at hs
    rw [List.pairwise_cons] at hs
    have ih := ih hs.2
    by_cases h : k' = k
    · subst h
      have hnot : (k', v) ∉ m := by
        intro hm
        have := hs.1 _ hm
        rw [keyLt_irrefl] at this
        cases this
      simp [lookupKey, hnot, eq_comm]
    · have e : (k' == k) = false := by simpa using h
      unfold lookupKey at ih ⊢
      rw [List.mem_cons, List.find?_cons]
      simp only [e, ih, Prod.mk.injEq, Ne.symm h, false_and, false_or]

end Pest3
