import Verif.Safety
import Verif.PegTree

/-!
# The bare run against the declarative semantics: soundness and completeness
-/

namespace Pest3

/-- A successful match consumes a prefix of the text ahead. -/
theorem Peg.consumes {env : Env} {item : Item} {c : Cfg} {r : Option Cfg} (h : Peg env item c r) :
    ∀ c', r = some c' → ∃ m, c'.pre = c.pre ++ m ∧ c.suf = m ++ c'.suf := by
  have refl : ∀ c : Cfg, ∃ m, c.pre = c.pre ++ m ∧ c.suf = m ++ c.suf := fun c => ⟨[], by simp, by simp⟩
  have trans : ∀ {a b c : Cfg}, (∃ m, b.pre = a.pre ++ m ∧ a.suf = m ++ b.suf) →
      (∃ m, c.pre = b.pre ++ m ∧ b.suf = m ++ c.suf) →
      ∃ m, c.pre = a.pre ++ m ∧ a.suf = m ++ c.suf := by
    rintro a b c ⟨m, h1, h2⟩ ⟨m', h3, h4⟩
    exact ⟨m ++ m', by simp [h3, h1], by simp [h2, h4]⟩
  induction h with
  | leafOk h1 h2 => rintro c' ⟨⟩; exact ⟨_, rfl, h2⟩
  | leafFail _ => rintro c' ⟨⟩
  | positiveOk _ _ => rintro c' ⟨⟩; exact refl _
  | positiveFail _ _ => rintro c' ⟨⟩
  | negativeOk _ _ => rintro c' ⟨⟩; exact refl _
  | negativeFail _ _ => rintro c' ⟨⟩
  | pushOk _ ih =>
    rintro c' ⟨⟩
    obtain ⟨m', h1, h2⟩ := ih _ rfl
    simp only [List.append_cancel_left_eq] at h1 h2 ⊢
    exact ⟨m', by rw [h1], h2⟩
  | pushFail _ _ => rintro c' ⟨⟩
  | optSome _ ih => rintro c' ⟨⟩; exact ih _ rfl
  | optNone _ _ => rintro c' ⟨⟩; exact refl _
  | rep _ ih => exact ih
  | seq _ ih => exact ih
  | choice _ ih => exact ih
  | rule _ ih => exact ih
  | altsNil => rintro c' ⟨⟩
  | altsHit _ ih => rintro c' ⟨⟩; exact ih _ rfl
  | altsMiss _ _ _ ih => exact ih
  | fieldsNil => rintro c' ⟨⟩; exact refl _
  | fieldsFirst _ _ ih1 ih2 => intro c' hc; exact trans (ih1 _ rfl) (ih2 _ hc)
  | fieldsFirstFail _ _ => rintro c' ⟨⟩
  | fieldsNext _ _ _ ih1 ih2 ih3 => intro c' hc; exact trans (ih1 _ rfl) (trans (ih2 _ rfl) (ih3 _ hc))
  | fieldsTriviaFail _ _ => rintro c' ⟨⟩
  | fieldsNextFail _ _ _ _ => rintro c' ⟨⟩
  | unitFirst _ ih => exact ih
  | unitNext _ _ ih1 ih2 => intro c' hc; exact trans (ih1 _ rfl) (ih2 _ hc)
  | unitTriviaFail _ _ => rintro c' ⟨⟩
  | repsMax _ => rintro c' ⟨⟩; exact refl _
  | repsMore _ _ _ ih1 ih2 => intro c' hc; exact trans (ih1 _ rfl) (ih2 _ hc)
  | repsFew _ _ _ _ => rintro c' ⟨⟩
  | repsStop _ _ _ _ => rintro c' ⟨⟩; exact refl _

section Corr
variable {S T : Type} {so : StackOps S} {saved : S → List (List Span)}

/-- The cursor and stack of a run correspond to a configuration. -/
structure Corr (so : StackOps S) (p : Position) (st : St S T) (c : Cfg) : Prop where
  at_ : p.At c.pre c.suf
  texts : Texts (so.elems st.stk) c.stk

/-- The result of a run started on `inp` with open snapshots `sv` corresponds to a result of the
specification. -/
inductive CorrOut (so : StackOps S) (saved : S → List (List Span)) (inp : Str) (sv : List (List Span))
    (o : Option Position) (st : St S T) : Option Cfg → Prop
  | fail : o = none → saved st.stk = sv → CorrOut so saved inp sv o st none
  | ok {q c'} : o = some q → q.input = inp → Corr so q st c' → saved st.stk = sv →
      CorrOut so saved inp sv o st (some c')

theorem Corr.of_elems {p : Position} {st st' : St S T} {c : Cfg} (h : Corr so p st c)
    (he : so.elems st'.stk = so.elems st.stk) : Corr so p st' c :=
  ⟨h.at_, by rw [he]; exact h.texts⟩

theorem Corr.setPositive {p : Position} {st : St S T} {c} {tk : TrackerOps T} {b : Bool} (h : Corr so p st c) :
    Corr so p (st.setPositive tk b) c := ⟨h.at_, h.texts⟩

theorem Corr.snapshot (hl : Lawful so saved) {p : Position} {st : St S T} {c} (h : Corr so p st c) :
    Corr so p (st.snapshot so) c := h.of_elems (hl.elems_snapshot _)

theorem Corr.clear (hl : Lawful so saved) {p : Position} {st : St S T} {c} (h : Corr so p st c) :
    Corr so p (st.clear so) c := h.of_elems (hl.elems_clear _)

theorem restore_elems (hl : Lawful so saved) {st st' : St S T}
    (h : saved st'.stk = saved (st.snapshot so).stk) :
    so.elems (st'.restore so).stk = so.elems st.stk :=
  hl.elems_restore _ _ _ (h.trans (hl.saved_snapshot _))

theorem restore_saved (hl : Lawful so saved) {st st' : St S T}
    (h : saved st'.stk = saved (st.snapshot so).stk) :
    saved (st'.restore so).stk = saved st.stk := by
  have := hl.saved_restore st'.stk
  rw [h, St.snapshot, hl.saved_snapshot] at this
  exact this

theorem clear_saved (hl : Lawful so saved) {st st' : St S T}
    (h : saved st'.stk = saved (st.snapshot so).stk) :
    saved (st'.clear so).stk = saved st.stk := by
  have := hl.saved_clear st'.stk
  rw [h, St.snapshot, hl.saved_snapshot] at this
  exact this

theorem Corr.push (hl : Lawful so saved) {p q : Position} {st : St S T} {c : Cfg} {m rest : Text} {stk : List Text}
    (h : p.At c.pre c.suf) (hm : c.suf = m ++ rest)
    (hq : Corr so q st ⟨c.pre ++ m, rest, stk⟩) (hin : q.input = p.input) :
    p.span q = some (spanOf p.input c.pre (c.pre ++ m)) ∧
      Corr so q (st.push so (spanOf p.input c.pre (c.pre ++ m))) ⟨c.pre ++ m, rest, stk ++ [m]⟩ := by
  have hp : p.At c.pre (m ++ rest) := by rw [← hm]; exact h
  have hqp : q.pos = p.pos + utf8Len m := by
    have h1 := hq.at_.2
    simp only [utf8Len_append] at h1
    rw [h1, h.2]
  have hs : spanOf p.input c.pre (c.pre ++ m) = ⟨p.input, p.pos, p.pos + utf8Len m⟩ := by
    simp [spanOf, h.2]
  have e : q = ⟨p.input, p.pos + utf8Len m⟩ := by
    cases q; simp only at hqp hin; rw [hqp, hin]
  rw [hs]
  constructor
  · rw [e]; exact hp.span
  · refine ⟨hq.at_, ?_⟩
    simp only [St.push, hl.elems_push]
    exact hq.texts.append (.cons hp.span_is .nil)

end Corr

theorem Out.bind_eq_ok {S T α β : Type} {x : Out S T α} {k : Option α → St S T → Out S T β} {r} :
    x.bind k = .ok r ↔ ∃ o st, x = .ok (o, st) ∧ k o st = .ok r := by
  cases x with
  | ok a =>
    obtain ⟨o, st⟩ := a
    simp only [Out.bind_ok, Res.ok.injEq, Prod.mk.injEq]
    constructor
    · intro h; exact ⟨o, st, ⟨rfl, rfl⟩, h⟩
    · rintro ⟨_, _, ⟨rfl, rfl⟩, h⟩; exact h
  | panic => simp
  | oof => simp

theorem Out.andThen_eq_ok {S T α β : Type} {x : Out S T α} {k : α → St S T → Out S T β} {r} :
    x.andThen k = .ok r ↔ (∃ a st, x = .ok (some a, st) ∧ k a st = .ok r) ∨
      (∃ st, x = .ok (none, st) ∧ r = (none, st)) := by
  unfold Out.andThen
  rw [Out.bind_eq_ok]
  constructor
  · rintro ⟨o, st, h1, h2⟩
    cases o with
    | none => right; exact ⟨st, h1, by cases h2; rfl⟩
    | some a => left; exact ⟨a, st, h1, h2⟩
  · rintro (⟨a, st, h1, h2⟩ | ⟨st, h1, rfl⟩)
    · exact ⟨some a, st, h1, h2⟩
    · exact ⟨none, st, h1, rfl⟩

/-! ## Completeness -/

/-- State of the bare run. -/
abbrev BareSt := St IdealStack Unit

/-- The bare run of an item. -/
def runItem (env : Env) (fuel : Nat) (item : Item) (p : Position) (st : BareSt) :
    Out IdealStack Unit Position :=
  let rec_ := check idealOps noTracker env fuel
  match item with
  | .node n => rec_ n p st
  | .alts l => checkAlts idealOps rec_ p l st
  | .fields first l => checkFields rec_ first p l st
  | .unit n tr i => checkUnit rec_ n tr i p st
  | .reps n tr min max i => checkRep idealOps rec_ n tr min (max - i) i p st

theorem restore_after {st st' : BareSt} (h : st'.stk.saved = (st.snapshot idealOps).stk.saved) :
    st'.restore idealOps = st := by
  obtain ⟨⟨cache, saved⟩, ⟨⟩⟩ := st
  obtain ⟨⟨cache', saved'⟩, ⟨⟩⟩ := st'
  simp only [St.snapshot, idealOps] at h
  subst h
  rfl

theorem clear_after {st st' : BareSt} (h : st'.stk.saved = (st.snapshot idealOps).stk.saved) :
    (st'.clear idealOps).stk.saved = st.stk.saved := by
  simp only [St.clear, idealOps]
  rw [h]; rfl

/-- With enough fuel the run returns `(o, st')`. -/
def Returns (env : Env) (item : Item) (p : Position) (st : BareSt) (o : Option Position) (st' : BareSt) :
    Prop :=
  ∃ N, ∀ fuel, N ≤ fuel → runItem env fuel item p st = .ok (o, st')

theorem Returns.step {env : Env} {n : Node} {p st o st'} (N : Nat)
    (h : ∀ fuel, N ≤ fuel →
      checkStep idealOps noTracker (check idealOps noTracker env fuel) env n p st = .ok (o, st')) :
    Returns env (.node n) p st o st' := by
  refine ⟨N + 1, fun fuel hf => ?_⟩
  cases fuel with
  | zero => omega
  | succ fuel => exact h fuel (by omega)

/-- Every derivation of the specification is found by the run. -/
theorem peg_complete {env : Env} {item : Item} {c : Cfg} {r : Option Cfg} (h : Peg env item c r) :
    ∀ (p : Position) (st : BareSt), Corr idealOps p st c →
      ∃ o st', Returns env item p st o st' ∧ CorrOut idealOps IdealStack.saved p.input st.stk.saved o st' r := by
  induction h with
  | @leafOk l c m stk rest h1 h2 =>
    intro p st hc
    have hs : leafSpecial l c.stk.length = none := by
      cases hs : leafSpecial l c.stk.length with
      | none => rfl
      | some e => rw [leafSpecial_spec hs] at h1; cases h1
    have heq := leafCheck_eq ideal_lawful noTracker hc.at_ (st := st) (stk := c.stk) hc.texts l
    rw [hs] at heq
    simp only [h1, Option.map_some, Option.isSome_some] at heq
    refine ⟨_, _, .step 0 fun _ _ => heq, .ok rfl rfl ?_ (leafStk_saved ideal_lawful _ _ _)⟩
    have hp : p.At c.pre (m ++ rest) := by rw [← h2]; exact hc.at_
    refine ⟨hp.advance, ?_⟩
    have he := leafStk_elems ideal_lawful l true st.stk
    simp only
    rw [he, leafSpec_stk h1]
    exact hc.texts.leafElems l true
  | @leafFail l c h1 =>
    intro p st hc
    have heq := leafCheck_eq ideal_lawful noTracker hc.at_ (st := st) (stk := c.stk) hc.texts l
    cases hs : leafSpecial l c.stk.length with
    | none =>
      rw [hs] at heq
      simp only [h1, Option.map_none] at heq
      exact ⟨_, _, .step 0 fun _ _ => heq, .fail rfl (leafStk_saved ideal_lawful _ _ _)⟩
    | some e =>
      rw [hs] at heq
      simp only [noTracker, Out.lift_some] at heq
      exact ⟨_, _, .step 0 fun _ _ => heq, .fail rfl (leafStk_saved ideal_lawful _ _ _)⟩
  | @positiveOk n c c' _ ih =>
    intro p st hc
    obtain ⟨o, st', ⟨N, hN⟩, hco⟩ := ih p _ ((hc.setPositive (tk := noTracker) (b := true)).snapshot ideal_lawful)
    cases hco with
    | @ok q c' e1 e2 e3 e4 =>
      refine ⟨some p, st, .step N fun fuel hf => ?_, .ok rfl rfl hc rfl⟩
      have := hN fuel hf
      simp only [runItem] at this
      simp only [checkStep, this, Out.bind_ok, e1, Option.map_some]
      rw [restore_after e4]; rfl
  | @positiveFail n c _ ih =>
    intro p st hc
    obtain ⟨o, st', ⟨N, hN⟩, hco⟩ := ih p _ ((hc.setPositive (tk := noTracker) (b := true)).snapshot ideal_lawful)
    cases hco with
    | fail e1 e4 =>
      refine ⟨none, st, .step N fun fuel hf => ?_, .fail rfl rfl⟩
      have := hN fuel hf
      simp only [runItem] at this
      simp only [checkStep, this, Out.bind_ok, e1, Option.map_none]
      rw [restore_after e4]; rfl
  | @negativeOk n c _ ih =>
    intro p st hc
    obtain ⟨o, st', ⟨N, hN⟩, hco⟩ := ih p _ ((hc.setPositive (tk := noTracker) (b := false)).snapshot ideal_lawful)
    cases hco with
    | fail e1 e4 =>
      refine ⟨some p, st, .step N fun fuel hf => ?_, .ok rfl rfl hc rfl⟩
      have := hN fuel hf
      simp only [runItem] at this
      simp only [checkStep, this, Out.bind_ok, e1]
      rw [restore_after e4]; rfl
  | @negativeFail n c c' _ ih =>
    intro p st hc
    obtain ⟨o, st', ⟨N, hN⟩, hco⟩ := ih p _ ((hc.setPositive (tk := noTracker) (b := false)).snapshot ideal_lawful)
    cases hco with
    | @ok q c' e1 e2 e3 e4 =>
      refine ⟨none, st, .step N fun fuel hf => ?_, .fail rfl rfl⟩
      have := hN fuel hf
      simp only [runItem] at this
      simp only [checkStep, this, Out.bind_ok, e1]
      rw [restore_after e4]; rfl
  | @pushOk n c m rest stk hpeg ih =>
    intro p st hc
    obtain ⟨o, st', ⟨N, hN⟩, hco⟩ := ih p _ hc
    cases hco with
    | @ok q c' e1 e2 e3 e4 =>
      obtain ⟨m', hm1, hm2⟩ := hpeg.consumes _ rfl
      simp only [List.append_cancel_left_eq] at hm1 hm2
      subst hm1
      obtain ⟨hs, hc'⟩ := Corr.push ideal_lawful hc.at_ hm2 e3 e2
      refine ⟨some q, _, .step N fun fuel hf => ?_, .ok rfl e2 hc' e4⟩
      have := hN fuel hf
      simp only [runItem] at this
      simp only [checkStep, this, e1, Out.andThen_some, hs, Out.lift_some]
  | @pushFail n c _ ih =>
    intro p st hc
    obtain ⟨o, st', ⟨N, hN⟩, hco⟩ := ih p _ hc
    cases hco with
    | fail e1 e2 =>
      refine ⟨none, _, .step N fun fuel hf => ?_, .fail rfl e2⟩
      have := hN fuel hf
      simp only [runItem] at this
      simp only [checkStep, this, e1, Out.andThen_none]
  | @optSome n c c' _ ih =>
    intro p st hc
    obtain ⟨o, st', ⟨N, hN⟩, hco⟩ := ih p _ (hc.snapshot ideal_lawful)
    cases hco with
    | @ok q c' e1 e2 e3 e4 =>
      refine ⟨some q, _, .step N fun fuel hf => ?_, .ok rfl e2 (e3.clear ideal_lawful) (clear_after e4)⟩
      have := hN fuel hf
      simp only [runItem] at this
      simp only [checkStep, this, Out.bind_ok, e1]
  | @optNone n c _ ih =>
    intro p st hc
    obtain ⟨o, st', ⟨N, hN⟩, hco⟩ := ih p _ (hc.snapshot ideal_lawful)
    cases hco with
    | fail e1 e4 =>
      refine ⟨some p, st, .step N fun fuel hf => ?_, .ok rfl rfl hc rfl⟩
      have := hN fuel hf
      simp only [runItem] at this
      simp only [checkStep, this, Out.bind_ok, e1]
      rw [restore_after e4]
  | @rep n tr min max c r _ ih =>
    intro p st hc
    obtain ⟨o, st', ⟨N, hN⟩, hco⟩ := ih p _ hc
    exact ⟨o, st', .step N fun fuel hf => hN fuel hf, hco⟩
  | @seq fs c r _ ih =>
    intro p st hc
    obtain ⟨o, st', ⟨N, hN⟩, hco⟩ := ih p _ hc
    exact ⟨o, st', .step N fun fuel hf => hN fuel hf, hco⟩
  | @choice l c r _ ih =>
    intro p st hc
    obtain ⟨o, st', ⟨N, hN⟩, hco⟩ := ih p _ hc
    exact ⟨o, st', .step N fun fuel hf => hN fuel hf, hco⟩
  | @rule id c r _ ih =>
    intro p st hc
    obtain ⟨o, st', ⟨N, hN⟩, hco⟩ := ih p _ hc
    refine ⟨o, st', .step N fun fuel hf => ?_, hco⟩
    have := hN fuel hf
    simp only [runItem] at this
    simp only [checkStep]
    rw [show st.enter noTracker (env id).label p = st from rfl, this]
    rfl
  | @altsNil c =>
    intro p st hc
    exact ⟨none, st, ⟨0, fun _ _ => rfl⟩, .fail rfl rfl⟩
  | @altsHit a l c c' _ ih =>
    intro p st hc
    obtain ⟨o, st', ⟨N, hN⟩, hco⟩ := ih p _ (hc.snapshot ideal_lawful)
    cases hco with
    | @ok q c' e1 e2 e3 e4 =>
      refine ⟨some q, _, ⟨N, fun fuel hf => ?_⟩, .ok rfl e2 (e3.clear ideal_lawful) (clear_after e4)⟩
      have := hN fuel hf
      simp only [runItem] at this
      simp only [runItem, checkAlts, this, Out.bind_ok, e1]
  | @altsMiss a l c r _ _ ih1 ih2 =>
    intro p st hc
    obtain ⟨o1, st1, ⟨N1, hN1⟩, hco1⟩ := ih1 p _ (hc.snapshot ideal_lawful)
    obtain ⟨o2, st2, ⟨N2, hN2⟩, hco2⟩ := ih2 p _ hc
    cases hco1 with
    | fail e1 e4 =>
      refine ⟨o2, st2, ⟨max N1 N2, fun fuel hf => ?_⟩, hco2⟩
      have h1 := hN1 fuel (by omega)
      have h2 := hN2 fuel (by omega)
      simp only [runItem] at h1 h2
      simp only [runItem, checkAlts, h1, Out.bind_ok, e1]
      rw [restore_after e4]; exact h2
  | @fieldsNil first c =>
    intro p st hc
    exact ⟨some p, st, ⟨0, fun _ _ => rfl⟩, .ok rfl rfl hc rfl⟩
  | @fieldsFirst tr n l c c' r _ _ ih1 ih2 =>
    intro p st hc
    obtain ⟨o1, st1, ⟨N1, hN1⟩, hco1⟩ := ih1 p _ hc
    cases hco1 with
    | @ok q c' e1 e2 e3 e4 =>
      obtain ⟨o2, st2, ⟨N2, hN2⟩, hco2⟩ := ih2 q _ e3
      rw [e2, e4] at hco2
      refine ⟨o2, st2, ⟨max N1 N2, fun fuel hf => ?_⟩, hco2⟩
      have h1 := hN1 fuel (by omega)
      have h2 := hN2 fuel (by omega)
      simp only [runItem] at h1 h2
      simp only [runItem, checkFields, if_true, Out.andThen_some, h1, e1]
      exact h2
  | @fieldsFirstFail tr n l c _ ih1 =>
    intro p st hc
    obtain ⟨o1, st1, ⟨N1, hN1⟩, hco1⟩ := ih1 p _ hc
    cases hco1 with
    | fail e1 e2 =>
      refine ⟨none, st1, ⟨N1, fun fuel hf => ?_⟩, .fail rfl e2⟩
      have h1 := hN1 fuel (by omega)
      simp only [runItem] at h1
      simp only [runItem, checkFields, if_true, Out.andThen_some, h1, e1, Out.andThen_none]
  | @fieldsNext tr n l c c' c'' r _ _ _ ih1 ih2 ih3 =>
    intro p st hc
    obtain ⟨o1, st1, ⟨N1, hN1⟩, hco1⟩ := ih1 p _ hc
    cases hco1 with
    | @ok q c' e1 e2 e3 e4 =>
      obtain ⟨o2, st2, ⟨N2, hN2⟩, hco2⟩ := ih2 q _ e3
      cases hco2 with
      | @ok q' c'' f1 f2 f3 f4 =>
        obtain ⟨o3, st3, ⟨N3, hN3⟩, hco3⟩ := ih3 q' _ f3
        rw [f2, f4, e2, e4] at hco3
        refine ⟨o3, st3, ⟨max N1 (max N2 N3), fun fuel hf => ?_⟩, hco3⟩
        have h1 := hN1 fuel (by omega)
        have h2 := hN2 fuel (by omega)
        have h3 := hN3 fuel (by omega)
        simp only [runItem] at h1 h2 h3
        simp only [runItem, checkFields, Bool.false_eq_true, if_false, Out.andThen_some, h1, e1, h2, f1]
        exact h3
  | @fieldsTriviaFail tr n l c _ ih1 =>
    intro p st hc
    obtain ⟨o1, st1, ⟨N1, hN1⟩, hco1⟩ := ih1 p _ hc
    cases hco1 with
    | fail e1 e2 =>
      refine ⟨none, st1, ⟨N1, fun fuel hf => ?_⟩, .fail rfl e2⟩
      have h1 := hN1 fuel (by omega)
      simp only [runItem] at h1
      simp only [runItem, checkFields, Bool.false_eq_true, if_false, h1, e1, Out.andThen_none]
  | @fieldsNextFail tr n l c c' _ _ ih1 ih2 =>
    intro p st hc
    obtain ⟨o1, st1, ⟨N1, hN1⟩, hco1⟩ := ih1 p _ hc
    cases hco1 with
    | @ok q c' e1 e2 e3 e4 =>
      obtain ⟨o2, st2, ⟨N2, hN2⟩, hco2⟩ := ih2 q _ e3
      cases hco2 with
      | fail f1 f2 =>
        refine ⟨none, st2, ⟨max N1 N2, fun fuel hf => ?_⟩, .fail rfl (f2.trans e4)⟩
        have h1 := hN1 fuel (by omega)
        have h2 := hN2 fuel (by omega)
        simp only [runItem] at h1 h2
        simp only [runItem, checkFields, Bool.false_eq_true, if_false, Out.andThen_some, h1, e1, h2, f1,
          Out.andThen_none]
  | @unitFirst n tr c r _ ih =>
    intro p st hc
    obtain ⟨o1, st1, ⟨N1, hN1⟩, hco1⟩ := ih p _ hc
    refine ⟨o1, st1, ⟨N1, fun fuel hf => ?_⟩, hco1⟩
    have h1 := hN1 fuel (by omega)
    simp only [runItem] at h1
    simp only [runItem, checkUnit, gt_iff_lt, Nat.lt_irrefl, if_false, Out.andThen_some, h1]
    cases o1 <;> rfl
  | @unitNext n tr i c c' r _ _ ih1 ih2 =>
    intro p st hc
    obtain ⟨o1, st1, ⟨N1, hN1⟩, hco1⟩ := ih1 p _ hc
    cases hco1 with
    | @ok q c' e1 e2 e3 e4 =>
      obtain ⟨o2, st2, ⟨N2, hN2⟩, hco2⟩ := ih2 q _ e3
      rw [e2, e4] at hco2
      refine ⟨o2, st2, ⟨max N1 N2, fun fuel hf => ?_⟩, hco2⟩
      have h1 := hN1 fuel (by omega)
      have h2 := hN2 fuel (by omega)
      simp only [runItem] at h1 h2
      simp only [runItem, checkUnit, gt_iff_lt, Nat.zero_lt_succ, if_true, Out.andThen_some, h1, e1, h2]
      cases o2 <;> rfl
  | @unitTriviaFail n tr i c _ ih1 =>
    intro p st hc
    obtain ⟨o1, st1, ⟨N1, hN1⟩, hco1⟩ := ih1 p _ hc
    cases hco1 with
    | fail e1 e2 =>
      refine ⟨none, st1, ⟨N1, fun fuel hf => ?_⟩, .fail rfl e2⟩
      have h1 := hN1 fuel (by omega)
      simp only [runItem] at h1
      simp only [runItem, checkUnit, gt_iff_lt, Nat.zero_lt_succ, if_true, h1, e1, Out.andThen_none]
  | @repsMax n tr min max i c hle =>
    intro p st hc
    refine ⟨some p, st, ⟨0, fun _ _ => ?_⟩, .ok rfl rfl hc rfl⟩
    have : max - i = 0 := by omega
    simp only [runItem, this]; rfl
  | @repsMore n tr min max i c c' r hlt _ _ ih1 ih2 =>
    intro p st hc
    obtain ⟨o1, st1, ⟨N1, hN1⟩, hco1⟩ := ih1 p _ (hc.snapshot ideal_lawful)
    cases hco1 with
    | @ok q c' e1 e2 e3 e4 =>
      obtain ⟨o2, st2, ⟨N2, hN2⟩, hco2⟩ := ih2 q _ (e3.clear ideal_lawful)
      rw [e2, clear_after e4] at hco2
      refine ⟨o2, st2, ⟨Nat.max N1 N2, fun fuel hf => ?_⟩, hco2⟩
      have h1 := hN1 fuel (Nat.le_trans (Nat.le_max_left _ _) hf)
      have h2 := hN2 fuel (Nat.le_trans (Nat.le_max_right _ _) hf)
      simp only [runItem] at h1 h2
      have hk : max - i = (max - (i + 1)) + 1 := by omega
      simp only [runItem, hk, checkRep, restoreOnNone, h1, Out.bind_ok, e1]
      exact h2
  | @repsFew n tr min max i c hlt _ hmin ih1 =>
    intro p st hc
    obtain ⟨o1, st1, ⟨N1, hN1⟩, hco1⟩ := ih1 p _ (hc.snapshot ideal_lawful)
    cases hco1 with
    | fail e1 e4 =>
      refine ⟨none, st, ⟨N1, fun fuel hf => ?_⟩, .fail rfl rfl⟩
      have h1 := hN1 fuel hf
      simp only [runItem] at h1
      have hk : max - i = (max - (i + 1)) + 1 := by omega
      simp only [runItem, hk, checkRep, restoreOnNone, h1, Out.bind_ok, e1, hmin, if_true]
      rw [restore_after e4]
  | @repsStop n tr min max i c hlt _ hmin ih1 =>
    intro p st hc
    obtain ⟨o1, st1, ⟨N1, hN1⟩, hco1⟩ := ih1 p _ (hc.snapshot ideal_lawful)
    cases hco1 with
    | fail e1 e4 =>
      refine ⟨some p, st, ⟨N1, fun fuel hf => ?_⟩, .ok rfl rfl hc rfl⟩
      have h1 := hN1 fuel hf
      simp only [runItem] at h1
      have hk : max - i = (max - (i + 1)) + 1 := by omega
      have hmin' : ¬ i < min := by omega
      simp only [runItem, hk, checkRep, restoreOnNone, h1, Out.bind_ok, e1, hmin', if_false]
      rw [restore_after e4]

end Pest3
