import Verif.ReportLemmas

/-!
# Facts about traces
-/

namespace Pest3

/-- A parse has one trace. -/
theorem Traces.det {env : Env} {f item c r es} (h : Traces env f item c r es) :
    ∀ {r' es'}, Traces env f item c r' es' → r = r' ∧ es = es' := by
  have same : ∀ {f f' item c a b es es'}, Traces env f item c a es → Traces env f' item c b es' → a = b :=
    fun h1 h2 => h1.peg.det h2.peg
  have bad : ∀ {f f' item c a es es'} {P : Prop}, Traces env f item c (some a) es → Traces env f' item c none es' → P :=
    fun h1 h2 => by cases h1.peg.det h2.peg
  induction h with
  | leafOk h1 h2 =>
    intro r' es' g
    cases g with
    | leafOk h1' h2' => exact ⟨same (f := true) (f' := true) (.leafOk h1 h2) (.leafOk h1' h2'), rfl⟩
    | leafFail h1' => rw [h1] at h1'; cases h1'
  | leafFail h1 =>
    intro r' es' g
    cases g with
    | leafOk h1' h2' => rw [h1] at h1'; cases h1'
    | leafFail h1' => exact ⟨rfl, rfl⟩
  | positiveOk h ih =>
    intro r' es' g
    cases g with
    | positiveOk g => exact ⟨rfl, (ih g).2⟩
    | positiveFail g => exact bad h g
  | positiveFail h ih =>
    intro r' es' g
    cases g with
    | positiveOk g => exact bad g h
    | positiveFail g => exact ⟨rfl, (ih g).2⟩
  | negativeOk h ih =>
    intro r' es' g
    cases g with
    | negativeOk g => exact ⟨rfl, (ih g).2⟩
    | negativeFail g => exact bad g h
  | negativeFail h ih =>
    intro r' es' g
    cases g with
    | negativeOk g => exact bad h g
    | negativeFail g => exact ⟨rfl, (ih g).2⟩
  | pushOk h ih =>
    intro r' es' g
    have e := same (Traces.pushOk h) g
    cases g with
    | pushOk g => exact ⟨e, (ih g).2⟩
    | pushFail g => exact bad h g
  | pushFail h ih =>
    intro r' es' g
    cases g with
    | pushOk g => exact bad g h
    | pushFail g => exact ih g
  | optSome h ih =>
    intro r' es' g
    cases g with
    | optSome g => exact ih g
    | optNone g => exact bad h g
  | optNone h ih =>
    intro r' es' g
    cases g with
    | optSome g => exact bad g h
    | optNone g => exact ⟨rfl, (ih g).2⟩
  | rep _ ih => intro r' es' g; cases g with | rep g => exact ih g
  | seq _ ih => intro r' es' g; cases g with | seq g => exact ih g
  | choice _ ih => intro r' es' g; cases g with | choice g => exact ih g
  | rule _ ih =>
    intro r' es' g
    cases g with
    | rule g => obtain ⟨rfl, rfl⟩ := ih g; exact ⟨rfl, rfl⟩
  | altsNil => intro r' es' g; cases g; exact ⟨rfl, rfl⟩
  | altsHit h ih =>
    intro r' es' g
    cases g with
    | altsHit g => exact ih g
    | altsMiss g _ => exact bad h g
  | altsMiss h _ ih1 ih2 =>
    intro r' es' g
    cases g with
    | altsHit g => exact bad g h
    | altsMiss g1 g2 => obtain ⟨_, rfl⟩ := ih1 g1; obtain ⟨rfl, rfl⟩ := ih2 g2; exact ⟨rfl, rfl⟩
  | fieldsNil => intro r' es' g; cases g; exact ⟨rfl, rfl⟩
  | fieldsFirst h _ ih1 ih2 =>
    intro r' es' g
    cases g with
    | fieldsFirst g1 g2 =>
      obtain ⟨e, rfl⟩ := ih1 g1
      cases e
      obtain ⟨rfl, rfl⟩ := ih2 g2
      exact ⟨rfl, rfl⟩
    | fieldsFirstFail g => exact bad h g
  | fieldsFirstFail h ih =>
    intro r' es' g
    cases g with
    | fieldsFirst g _ => exact bad g h
    | fieldsFirstFail g => exact ih g
  | fieldsNext h1 h2 _ ih1 ih2 ih3 =>
    intro r' es' g
    cases g with
    | fieldsNext g1 g2 g3 =>
      obtain ⟨e, rfl⟩ := ih1 g1
      cases e
      obtain ⟨e, rfl⟩ := ih2 g2
      cases e
      obtain ⟨rfl, rfl⟩ := ih3 g3
      exact ⟨rfl, rfl⟩
    | fieldsTriviaFail g => exact bad h1 g
    | fieldsNextFail g1 g2 => cases same h1 g1; exact bad h2 g2
  | fieldsTriviaFail h ih =>
    intro r' es' g
    cases g with
    | fieldsNext g _ _ => exact bad g h
    | fieldsTriviaFail g => exact ih g
    | fieldsNextFail g _ => exact bad g h
  | fieldsNextFail h1 h2 ih1 ih2 =>
    intro r' es' g
    cases g with
    | fieldsNext g1 g2 _ => cases same h1 g1; exact bad g2 h2
    | fieldsTriviaFail g => exact bad h1 g
    | fieldsNextFail g1 g2 =>
      obtain ⟨e, rfl⟩ := ih1 g1
      cases e
      obtain ⟨_, rfl⟩ := ih2 g2
      exact ⟨rfl, rfl⟩
  | unitFirst _ ih => intro r' es' g; cases g with | unitFirst g => exact ih g
  | unitNext h _ ih1 ih2 =>
    intro r' es' g
    cases g with
    | unitNext g1 g2 =>
      obtain ⟨e, rfl⟩ := ih1 g1
      cases e
      obtain ⟨rfl, rfl⟩ := ih2 g2
      exact ⟨rfl, rfl⟩
    | unitTriviaFail g => exact bad h g
  | unitTriviaFail h ih =>
    intro r' es' g
    cases g with
    | unitNext g _ => exact bad g h
    | unitTriviaFail g => exact ih g
  | repsMax h =>
    intro r' es' g
    cases g with
    | repsMax _ => exact ⟨rfl, rfl⟩
    | repsMore h' _ _ => omega
    | repsFew h' _ _ => omega
    | repsStop h' _ _ => omega
  | repsMore hi h _ ih1 ih2 =>
    intro r' es' g
    cases g with
    | repsMax _ => omega
    | repsMore _ g1 g2 =>
      obtain ⟨e, rfl⟩ := ih1 g1
      cases e
      obtain ⟨rfl, rfl⟩ := ih2 g2
      exact ⟨rfl, rfl⟩
    | repsFew _ g _ => exact bad h g
    | repsStop _ g _ => exact bad h g
  | repsFew hi h hj ih =>
    intro r' es' g
    cases g with
    | repsMax _ => omega
    | repsMore _ g _ => exact bad g h
    | repsFew _ g _ => exact ih g
    | repsStop _ _ _ => omega
  | repsStop hi h hj ih =>
    intro r' es' g
    cases g with
    | repsMax _ => omega
    | repsMore _ g _ => exact bad g h
    | repsFew _ _ _ => omega
    | repsStop _ g _ => exact ⟨rfl, (ih g).2⟩

/-- `e` is among the events `es` or happened during one of them; `ups'` are the rules being tried then,
innermost first (`ups` outside). -/
inductive Within : List (Label × Nat) → List Ev → List (Label × Nat) → Ev → Prop
  | here {ups es e} : e ∈ es → Within ups es ups e
  | inner {ups es r pos f ok cs ups' e} : Ev.rule r pos f ok cs ∈ es → Within ((r, pos) :: ups) cs ups' e →
      Within ups es ups' e

theorem Within.cons {ups es ups' e a} (h : Within ups es ups' e) : Within ups (a :: es) ups' e := by
  cases h with
  | here h => exact .here (List.mem_cons_of_mem _ h)
  | inner h h' => exact .inner (List.mem_cons_of_mem _ h) h'

/-- The report an event makes itself. -/
def Ev.own (ups : List (Label × Nat)) : Ev → List Report
  | .special pos e => [⟨upperOf ups pos, pos, .special e⟩]
  | .rule r pos flag ok cs => if cs.any Ev.isRule then [] else [⟨upperOf ups pos, pos, outcome r flag ok⟩]

mutual
theorem Ev.mem_reports (ups : List (Label × Nat)) : ∀ (e : Ev) (x : Report),
    x ∈ e.reports ups ↔ ∃ ups' e', Within ups [e] ups' e' ∧ x ∈ e'.own ups'
  | .special pos s, x => by
    constructor
    · intro h; exact ⟨ups, _, .here List.mem_cons_self, h⟩
    · rintro ⟨ups', e', h, hx⟩
      cases h with
      | here h => rw [List.mem_singleton] at h; subst h; exact hx
      | inner h _ => rw [List.mem_singleton] at h; cases h
  | .rule r pos f ok cs, x => by
    simp only [Ev.reports, List.mem_append]
    rw [Ev.mem_reportsList ((r, pos) :: ups) cs x]
    constructor
    · rintro (⟨ups', e', h, hx⟩ | h)
      · exact ⟨ups', e', .inner List.mem_cons_self h, hx⟩
      · exact ⟨ups, _, .here List.mem_cons_self, h⟩
    · rintro ⟨ups', e', h, hx⟩
      cases h with
      | here h => rw [List.mem_singleton] at h; subst h; exact Or.inr hx
      | inner h h' => rw [List.mem_singleton] at h; cases h; exact Or.inl ⟨ups', e', h', hx⟩
theorem Ev.mem_reportsList (ups : List (Label × Nat)) : ∀ (es : List Ev) (x : Report),
    x ∈ Ev.reportsList ups es ↔ ∃ ups' e', Within ups es ups' e' ∧ x ∈ e'.own ups'
  | [], x => by
    constructor
    · intro h; cases h
    · rintro ⟨ups', e', h, hx⟩
      cases h with
      | here h => cases h
      | inner h _ => cases h
  | a :: es, x => by
    simp only [Ev.reportsList, List.mem_append]
    rw [Ev.mem_reports ups a x, Ev.mem_reportsList ups es x]
    constructor
    · rintro (⟨ups', e', h, hx⟩ | ⟨ups', e', h, hx⟩)
      · refine ⟨ups', e', ?_, hx⟩
        cases h with
        | here h => rw [List.mem_singleton] at h; subst h; exact .here List.mem_cons_self
        | inner h h' => rw [List.mem_singleton] at h; subst h; exact .inner List.mem_cons_self h'
      · exact ⟨ups', e', h.cons, hx⟩
    · rintro ⟨ups', e', h, hx⟩
      cases h with
      | here h =>
        rcases List.mem_cons.1 h with rfl | h
        · exact Or.inl ⟨_, _, .here List.mem_cons_self, hx⟩
        · exact Or.inr ⟨_, _, .here h, hx⟩
      | inner h h' =>
        rcases List.mem_cons.1 h with rfl | h
        · exact Or.inl ⟨_, _, .inner List.mem_cons_self h', hx⟩
        · exact Or.inr ⟨_, _, .inner h h', hx⟩
end

/-- Where an event happened. -/
def Ev.pos : Ev → Nat
  | .rule _ pos _ _ _ => pos
  | .special pos _ => pos

/-- `off` is the offset of a character boundary of `pre ++ suf`, not before the end of `pre`. -/
def Beyond (pre suf : Text) (off : Nat) : Prop := ∃ a b, suf = a ++ b ∧ off = utf8Len (pre ++ a)

theorem Beyond.self (pre suf : Text) : Beyond pre suf (utf8Len pre) := ⟨[], suf, rfl, by simp⟩

theorem Beyond.step {pre m rest : Text} {off : Nat} (h : Beyond (pre ++ m) rest off) :
    Beyond pre (m ++ rest) off := by
  obtain ⟨a, b, rfl, h⟩ := h
  exact ⟨m ++ a, b, by simp, by simpa using h⟩

/-- All events happen at boundaries of the text ahead. -/
def AllBeyond (pre suf : Text) (es : List Ev) : Prop :=
  ∀ ups ups' e, Within ups es ups' e → Beyond pre suf e.pos

theorem AllBeyond.nil (pre suf) : AllBeyond pre suf [] := by
  intro ups ups' e h
  cases h with
  | here h => cases h
  | inner h _ => cases h

theorem AllBeyond.append {pre suf es es'} (h : AllBeyond pre suf es) (h' : AllBeyond pre suf es') :
    AllBeyond pre suf (es ++ es') := by
  intro ups ups' e hw
  cases hw with
  | here hm =>
    rcases List.mem_append.1 hm with hm | hm
    · exact h _ _ e (.here hm (ups := ups))
    · exact h' _ _ e (.here hm (ups := ups))
  | inner hm hw =>
    rcases List.mem_append.1 hm with hm | hm
    · exact h _ _ e (.inner hm hw)
    · exact h' _ _ e (.inner hm hw)

theorem AllBeyond.later {env : Env} {item c c'} {es} (hp : Peg env item c (some c'))
    (h : AllBeyond c'.pre c'.suf es) : AllBeyond c.pre c.suf es := by
  obtain ⟨m, h1, h2⟩ := hp.consumes _ rfl
  intro ups ups' e hw
  have := h ups ups' e hw
  rw [h1] at this
  rw [h2]
  exact this.step

theorem Traces.beyond {env : Env} {f item c r es} (h : Traces env f item c r es) : AllBeyond c.pre c.suf es := by
  induction h with
  | leafOk h1 h2 => exact .nil _ _
  | @leafFail f l c h1 =>
    unfold leafEvents
    split
    · intro ups ups' e hw
      cases hw with
      | here hm => rw [List.mem_singleton] at hm; subst hm; exact .self _ _
      | inner hm _ => rw [List.mem_singleton] at hm; cases hm
    · exact .nil _ _
  | rule _ ih =>
    intro ups ups' e hw
    cases hw with
    | here hm => rw [List.mem_singleton] at hm; subst hm; exact .self _ _
    | inner hm hw => rw [List.mem_singleton] at hm; cases hm; exact ih _ _ e hw
  | altsNil => exact .nil _ _
  | fieldsNil => exact .nil _ _
  | repsMax => exact .nil _ _
  | altsMiss _ _ ih1 ih2 => exact ih1.append ih2
  | fieldsFirst h _ ih1 ih2 => exact ih1.append (ih2.later h.peg)
  | fieldsNext h h' _ ih1 ih2 ih3 => exact ih1.append (((ih2.append (ih3.later h'.peg))).later h.peg)
  | fieldsNextFail h _ ih1 ih2 => exact ih1.append (ih2.later h.peg)
  | unitNext h _ ih1 ih2 => exact ih1.append (ih2.later h.peg)
  | repsMore _ h _ ih1 ih2 => exact ih1.append (ih2.later h.peg)
  | positiveOk _ ih => exact ih
  | positiveFail _ ih => exact ih
  | negativeOk _ ih => exact ih
  | negativeFail _ ih => exact ih
  | pushOk _ ih => exact ih
  | pushFail _ ih => exact ih
  | optSome _ ih => exact ih
  | optNone _ ih => exact ih
  | rep _ ih => exact ih
  | seq _ ih => exact ih
  | choice _ ih => exact ih
  | altsHit _ ih => exact ih
  | fieldsFirstFail _ ih => exact ih
  | fieldsTriviaFail _ ih => exact ih
  | unitFirst _ ih => exact ih
  | unitTriviaFail _ ih => exact ih
  | repsFew _ _ _ ih => exact ih
  | repsStop _ _ _ ih => exact ih

theorem Ev.own_pos {ups : List (Label × Nat)} {e : Ev} {x : Report} (h : x ∈ e.own ups) : x.pos = e.pos := by
  cases e with
  | special pos s => simp only [Ev.own, List.mem_singleton] at h; rw [h]; rfl
  | rule r pos f ok cs =>
    simp only [Ev.own] at h
    split at h
    · cases h
    · rw [List.mem_singleton] at h; rw [h]; rfl

end Pest3
