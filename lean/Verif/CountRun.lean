import Verif.Props.Messages
import Verif.WorkSpec

/-!
# Counting how often rules are tried

The model of the library with a tracker that counts (the functions of `Verif/Interp.lean` take the tracker as a parameter): every call of
`Tracker::record_option_during_with` (`core/src/typed/tracker.rs:178-196`), which is what applying a rule does (`core/src/typed/template` and the code that the generator writes for
rules), adds one.
-/

namespace Pest3

/-- A tracker that counts the rules that are tried (`core/src/typed/tracker.rs:178-196`). -/
def counter : TrackerOps (Bool × Nat) where
  positive t := t.1
  setPositive b t := (b, t.2)
  enter _ _ t := (t.1, t.2 + 1)
  leave _ _ _ t := some t
  special _ _ t := some t

/-- `try_parse` (`core/src/typed/traits.rs:14-36`): whether it succeeds, and how many times a rule is tried on the way. -/
def countTries {S : Type} (so : StackOps S) (env : Env) (fuel : Nat) (n : Node) (inp : Str) : Res (Bool × Nat) :=
  match tryParseWith so counter env fuel n (Position.fromStart inp) ⟨so.empty, (true, 0)⟩ with
  | .ok (o, st) => .ok (o.isSome, st.trk.2)
  | .panic => .panic
  | .oof => .oof

theorem Ev.countList_add : ∀ a b : List Ev, Ev.countList (a ++ b) = Ev.countList a + Ev.countList b
  | [], b => by simp [Ev.countList]
  | e :: a, b => by simp [Ev.countList, Ev.countList_add a b, Nat.add_assoc]

theorem follows_counter (inp : Str) : Follows counter inp (fun _ => True) (fun t es => (t.1, t.2 + Ev.countList es)) where
  nil _ := rfl
  append t a b := by simp [Ev.countList_add, Nat.add_assoc]
  positive _ _ := rfl
  of_after _ _ := trivial
  of_set _ _ := trivial
  set _ _ := rfl
  back _ _ _ := rfl
  of_enter _ _ _ _ := trivial
  enter _ _ _ := rfl
  special _ pos e := by simp [counter, Ev.countList, Ev.count]
  leave _ r pos ok es := by simp [counter, Ev.countList, Ev.count, Nat.add_assoc]

section
variable {S : Type} {so : StackOps S} {saved : S → List (List Span)}

/-- The relation between a run with the counter and a run without a tracker.  World: the saved stacks. -/
structure CSt (so : StackOps S) (saved : S → List (List Span)) (w : List (List Span)) (s : St S (Bool × Nat)) (i : St IdealStack Unit) : Prop where
  elems : so.elems s.stk = i.stk.cache
  saved : saved s.stk = i.stk.saved
  world : i.stk.saved = w
  valid : ∀ x ∈ i.stk.cache, x.Valid
  svalid : ∀ c ∈ i.stk.saved, ∀ x ∈ c, x.Valid

theorem CSt.trk {w} {s : St S (Bool × Nat)} {i : St IdealStack Unit} (h : CSt so saved w s i) (t : Bool × Nat) (t' : Unit) : CSt so saved w ⟨s.stk, t⟩ ⟨i.stk, t'⟩ :=
  ⟨h.elems, h.saved, h.world, h.valid, h.svalid⟩

theorem compat_counter (hl : Lawful so saved) (inp : Str) :
    Compat so counter idealOps noTracker (fun _ => True) (RPos inp) (CSt so saved) where
  leaf := by
    rintro w l p _ s i _ ⟨rfl, hv, hin⟩ hs
    obtain ⟨pre, suf, hp⟩ := Position.valid_iff_at.1 hv
    obtain ⟨stk, ht⟩ := texts_of_valid hs.valid
    have ht1 : Texts (so.elems s.stk) stk := by rw [hs.elems]; exact ht
    have ht2 : Texts (idealOps.elems i.stk) stk := ht
    rw [leafCheck_eq hl counter hp ht1 l, leafCheck_eq ideal_lawful noTracker hp ht2 l]
    have key : ∀ b, CSt so saved w ⟨leafStk so l b s.stk, s.trk⟩ ⟨leafStk idealOps l b i.stk, i.trk⟩ := by
      intro b
      have e1 := leafStk_elems hl l b s.stk
      have e2 : (leafStk idealOps l b i.stk).cache = _ := leafStk_elems ideal_lawful l b i.stk
      have e3 := leafStk_saved hl l b s.stk
      have e4 := leafStk_saved ideal_lawful l b i.stk
      constructor
      · simp only; rw [e1, e2, hs.elems]; rfl
      · simp only; rw [e3, e4, hs.saved]
      · simp only; rw [e4, hs.world]
      · intro x hx
        simp only at hx
        rw [e2] at hx
        exact hs.valid x (leafElems_subset l b _ x hx)
      · intro c hc
        simp only at hc
        rw [e4] at hc
        exact hs.svalid c hc
    cases h : leafSpecial l stk.length with
    | some e => exact .ok .none ((key false).trk _ _)
    | none =>
      refine .ok ?_ (key _)
      cases hsp : leafSpec l ⟨pre, suf, stk⟩ with
      | none => exact .none
      | some r =>
        obtain ⟨m, stk'⟩ := r
        obtain ⟨rest, hr⟩ := leafSpec_prefix hsp
        simp only at hr
        subst hr
        exact .some ⟨⟨rfl, hp.advance.valid, hin⟩, by simp [Position.after], by simp [Position.after]⟩
  snapshot := by
    intro w s i hs
    refine ⟨i.stk.cache :: w, ?_, ?_, ?_⟩
    · exact ⟨(hl.elems_snapshot _).trans hs.elems,
        by simp only [St.snapshot, hl.saved_snapshot, hs.elems, hs.saved]; rfl,
        by simp only [St.snapshot, idealOps, hs.world], hs.valid,
        by
          intro c hc
          rcases List.mem_cons.1 hc with rfl | hc
          · exact hs.valid
          · exact hs.svalid c hc⟩
    · intro s' i' h
      refine ⟨(hl.elems_clear _).trans h.elems, ?_, ?_, h.valid, ?_⟩
      · simp only [St.clear, hl.saved_clear, h.saved]; rfl
      · have := h.world; simp only [St.clear, idealOps]; rw [this]; rfl
      · intro c hc
        exact h.svalid c (List.mem_of_mem_tail hc)
    · intro s' i' h
      have hw := h.world
      have hw' : saved s'.stk = i.stk.cache :: w := h.saved.trans hw
      refine ⟨?_, ?_, ?_, ?_, ?_⟩
      · simp only [St.restore, idealOps, hw, hl.elems_restore _ _ _ hw']
      · simp only [St.restore, hl.saved_restore, hw', idealOps, hw]; rfl
      · simp only [St.restore, idealOps, hw]
      · simp only [St.restore, idealOps, hw]
        exact h.svalid _ (by rw [hw]; simp)
      · simp only [St.restore, idealOps, hw]
        intro c hc
        exact h.svalid c (by rw [hw]; simp [hc])
  during := by
    intro w b s i hs
    exact ⟨w, hs.trk _ _, fun s' i' h => h.trk _ _⟩
  rule := by
    rintro w r p _ s i ⟨rfl, hv, hin⟩ hs
    exact ⟨w, hs.trk _ _, fun b s' i' h => ⟨s', i', rfl, rfl, h⟩⟩
  push := by
    rintro w p _ q _ s i ⟨rfl, hv, hin⟩ ⟨rfl, hv', hin'⟩ hs hle _
    have e := Position.span_eq_some (hin.trans hin'.symm) hv hv' hle
    refine ⟨_, _, e, e, ⟨?_, ?_, hs.world, ?_, hs.svalid⟩⟩
    · simp only [St.push, hl.elems_push, hs.elems]; rfl
    · simp only [St.push, hl.saved_push, hs.saved]; rfl
    · intro x hx
      simp only [St.push, idealOps, List.mem_append, List.mem_singleton] at hx
      rcases hx with hx | rfl
      · exact hs.valid x hx
      · refine ⟨hle, hv, ?_⟩
        have : q.input.text = p.input.text := by rw [hin, hin']
        rw [← this]; exact hv'

theorem closed_counter (hl : Lawful so saved) (inp : Str) : Closed so counter inp (fun w s => ∃ i, CSt so saved w s i) where
  valid := by
    rintro w s ⟨i, h⟩ x hx
    rw [h.elems] at hx
    exact h.valid x hx
  chk := by
    rintro env fuel n w p s hp ⟨i, h⟩
    have := check_rel (compat_counter hl inp) env (fun _ => node_all_true _) fuel n (node_all_true n) w p p s i hp.rpos h
    revert this
    generalize check so counter env fuel n p s = x
    generalize check idealOps noTracker env fuel n p i = y
    intro this
    cases this with
    | oof => exact .oof
    | ok ho hs =>
      cases ho with
      | none => exact .fail ⟨_, hs⟩
      | some ha =>
        obtain ⟨⟨_, h1, h2⟩, h3, _⟩ := ha
        exact .ok ⟨_, hs⟩ ⟨h1, h2⟩ h3
  snapshot := by
    rintro w s ⟨i, h⟩
    obtain ⟨w', h1, h2, h3⟩ := (compat_counter hl inp).snapshot w s i h
    exact ⟨w', ⟨_, h1⟩, fun s' ⟨_, h⟩ => ⟨_, h2 _ _ h⟩, fun s' ⟨_, h⟩ => ⟨_, h3 _ _ h⟩⟩
  during := by
    rintro w b s ⟨i, h⟩
    obtain ⟨w', h1, h2⟩ := (compat_counter hl inp).during w b s i h
    exact ⟨w', ⟨_, h1⟩, fun s' ⟨_, h⟩ => ⟨_, h2 _ _ h⟩⟩
  rule := by
    rintro w r p s hp ⟨i, h⟩
    obtain ⟨w', h1, h2⟩ := (compat_counter hl inp).rule w r p p s i hp.rpos h
    refine ⟨w', ⟨_, h1⟩, fun b s' ⟨_, h⟩ => ?_⟩
    obtain ⟨_, _, e1, _, h3⟩ := h2 b _ _ h
    exact ⟨_, e1, _, h3⟩
  push := by
    rintro w p q s hp hq ⟨i, h⟩ hle
    obtain ⟨_, _, e1, e2, h1⟩ := (compat_counter hl inp).push w p p q q s i hp.rpos hq.rpos h hle hle
    exact ⟨_, e1, _, h1⟩

theorem eoi_counter (hl : Lawful so saved) {inp : Str} {q : Position} {st : St S (Bool × Nat)} {c : Cfg} (hco : Corr so q st c) :
    eoiStep so counter q st = .ok (if c.suf = [] then some q else none, ⟨st.stk, (st.trk.1, st.trk.2 + 1)⟩) := by
  have he : q.atEnd = decide (c.suf = []) := by
    rw [hco.at_.atEnd]; cases c.suf <;> rfl
  have _ := hl
  have _ := inp
  unfold eoiStep leafCheck
  rw [he]
  by_cases ha : c.suf = []
  · simp only [ha, decide_true, if_true, Out.bind_ok, St.leave, St.enter, counter, Option.map_some, Out.lift_some]
  · simp only [ha, decide_false, if_false, Out.bind_ok, St.leave, St.enter, counter, Option.map_some, Out.lift_some, Bool.false_eq_true]

/-- The counter counts the events of the run. -/
theorem counted (hl : Lawful so saved) {env : Env} {inp : Str} {fuel : Nat} {n : Node} {ok : Bool} {k : Nat}
    (h : countTries so env fuel n inp = .ok (ok, k)) : ∃ es, FullTraces env n inp ok es ∧ k = Ev.countList es := by
  have hp := good_start inp
  have hco : Corr so (Position.fromStart inp) (⟨so.empty, (true, 0)⟩ : St S (Bool × Nat)) (startCfg inp) := ⟨⟨rfl, rfl⟩, (corr_start hl inp).texts⟩
  have hG : CSt so saved [] ⟨so.empty, (true, 0)⟩ ⟨⟨[], []⟩, ()⟩ :=
    ⟨hl.elems_empty, hl.saved_empty, rfl, (by intro x hx; cases hx), (by intro x hx; cases hx)⟩
  have run := parse_run hl (closed_counter hl inp) env fuel n _ _ (⟨so.empty, (true, 0)⟩ : St S (Bool × Nat)) _ hp ⟨_, hG⟩ hco
  have tr := check_follows hl env (follows_counter inp) fuel n _ ⟨so.empty, (true, 0)⟩ _ hco hp.2 trivial
  unfold countTries tryParseWith at h
  revert run tr h
  generalize parse so counter env fuel n (Position.fromStart inp) ⟨so.empty, (true, 0)⟩ = x
  generalize check so counter env fuel n (Position.fromStart inp) ⟨so.empty, (true, 0)⟩ = y
  intro h run tr
  cases run with
  | oof => cases h
  | @fail s _ _ _ =>
    obtain ⟨r, es, h1, h2, h3⟩ := tr _ _ rfl
    cases h2 with
    | ok e _ _ _ => cases e
    | fail _ _ =>
      cases h
      exact ⟨es, .fail h1, by rw [h3]; exact Nat.zero_add _⟩
  | @ok q a s c' _ _ _ _ _ hc' =>
    obtain ⟨r, es, h1, h2, h3⟩ := tr _ _ rfl
    cases h2 with
    | fail e _ => cases e
    | @ok q' c'' e1 e2 e3 e4 =>
      cases e1
      have hok := FullTraces.ok (env := env) (n := n) (inp := inp) h1
      simp only [Out.andThen_some] at h
      rw [eoi_counter hl (inp := inp) e3] at h
      refine ⟨es ++ [.rule eoiLabel (utf8Len c''.pre) true (decide (c''.suf = [])) []], ?_, ?_⟩
      · by_cases hs : c''.suf = []
        · simp only [hs, if_true, Out.andThen_some] at h hok ⊢
          cases h
          exact hok
        · simp only [hs, if_false, Out.andThen, Out.bind_ok] at h hok ⊢
          cases h
          exact hok
      · have : k = s.trk.2 + 1 := by
          by_cases hs : c''.suf = []
          · simp only [hs, if_true, Out.andThen_some] at h
            cases h; rfl
          · simp only [hs, if_false, Out.andThen, Out.bind_ok] at h
            cases h; rfl
        rw [this, h3, Ev.countList_add]
        show 0 + _ + 1 = _
        simp [Ev.countList, Ev.count]

/-- The counting run ends whenever the specification has a result. -/
theorem counts (hl : Lawful so saved) {env : Env} {inp : Str} {n : Node} {ok : Bool} {es : List Ev} (h : FullTraces env n inp ok es) :
    ∃ N, ∀ fuel, N ≤ fuel → countTries so env fuel n inp = .ok (ok, Ev.countList es) := by
  have hp := good_start inp
  have hco : Corr so (Position.fromStart inp) (⟨so.empty, (true, 0)⟩ : St S (Bool × Nat)) (startCfg inp) := ⟨⟨rfl, rfl⟩, (corr_start hl inp).texts⟩
  have hG : CSt so saved [] (⟨so.empty, (true, 0)⟩ : St S (Bool × Nat)) ⟨⟨[], []⟩, ()⟩ :=
    ⟨hl.elems_empty, hl.saved_empty, rfl, (by intro x hx; cases hx), (by intro x hx; cases hx)⟩
  have hpeg : ∃ r, Peg env (.node n) (startCfg inp) r := by
    cases h with
    | fail h => exact ⟨_, h.peg⟩
    | ok h => exact ⟨_, h.peg⟩
  obtain ⟨r, hpeg⟩ := hpeg
  obtain ⟨o, st', ⟨N, hN⟩, -⟩ := peg_complete hpeg (Position.fromStart inp) ⟨⟨[], []⟩, ()⟩ ⟨hco.at_, by exact .nil⟩
  have hrel := check_rel (compat_counter hl inp) env (fun _ => node_all_true _) N n (node_all_true n) _ _ _ _ _ hp.rpos hG
  have hb := hN N (Nat.le_refl _)
  simp only [runItem] at hb
  rw [hb] at hrel
  have run := parse_run hl (closed_counter hl inp) env N n _ _ (⟨so.empty, (true, 0)⟩ : St S (Bool × Nat)) _ hp ⟨_, hG⟩ hco
  have hparse : ∃ o st', parse so counter env N n (Position.fromStart inp) ⟨so.empty, (true, 0)⟩ = .ok (o, st') ∧ ∀ q t, o = some (q, t) → ∃ c, Corr so q st' c := by
    revert hrel run
    generalize parse so counter env N n (Position.fromStart inp) ⟨so.empty, (true, 0)⟩ = x
    generalize check so counter env N n (Position.fromStart inp) ⟨so.empty, (true, 0)⟩ = y
    intro hrel run
    cases run with
    | oof => cases hrel
    | fail => exact ⟨_, _, rfl, by intro q t h; cases h⟩
    | ok _ _ _ _ _ hc => exact ⟨_, _, rfl, by intro q t h; cases h; exact ⟨_, hc⟩⟩
  obtain ⟨o, st1, e1, e2⟩ := hparse
  refine ⟨N, fun fuel hf => ?_⟩
  have e3 : parse so counter env fuel n (Position.fromStart inp) ⟨so.empty, (true, 0)⟩ = .ok (o, st1) := by
    rcases parse_mono so counter env hf n (Position.fromStart inp) ⟨so.empty, (true, 0)⟩ with k | k
    · rw [e1] at k; cases k
    · rw [← k, e1]
  have hres : ∃ b k, countTries so env fuel n inp = .ok (b, k) := by
    unfold countTries tryParseWith
    rw [e3]
    cases o with
    | none => exact ⟨_, _, rfl⟩
    | some a =>
      obtain ⟨q, t⟩ := a
      obtain ⟨c, hc⟩ := e2 q t rfl
      simp only [Out.andThen_some]
      rw [eoi_counter hl (inp := inp) hc]
      by_cases hs : c.suf = []
      · simp only [hs, if_true, Out.andThen_some]; exact ⟨_, _, rfl⟩
      · simp only [hs, if_false, Out.andThen, Out.bind_ok]; exact ⟨_, _, rfl⟩
  obtain ⟨b, k, hk⟩ := hres
  obtain ⟨es', h1, rfl⟩ := counted hl hk
  obtain ⟨rfl, rfl⟩ := Props.fullTraces_det h1 h
  exact hk

end
end Pest3
