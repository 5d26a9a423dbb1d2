import Verif.Trace
import Verif.Transfer

/-!
# The tracker computes the reports of the trace
-/

namespace Pest3

theorem leafSpecial_eq (l : Leaf) (n : Nat) : leafSpecial l n = stackError l n := by
  cases l with
  | slice2 a b =>
    simp only [leafSpecial, stackError, constrainIdxs, constrainIdx_eq]
    cases resolveIdx a n <;> cases resolveIdx b n <;> simp
  | slice1 a =>
    simp only [leafSpecial, stackError, constrainIdxs, constrainIdx_eq]
    cases resolveIdx a n <;> simp
  | _ => rfl

/-! ## The effect of a report -/

/-- The part of the tracker that survives the parse. -/
abbrev Best := Position × List (Option Label × Tracked)

/-- Add one report to an entry. -/
def What.addTo (w : What) (v : Tracked) : Tracked :=
  match w with
  | .expected r => { v with positives := Tracker.pushNew v.positives r }
  | .unexpected r => { v with negatives := Tracker.pushNew v.negatives r }
  | .special e => { v with specials := v.specials ++ [e] }
  | .nothing => v

/-- Process one report. -/
def Best.step (inp : Str) (b : Best) (r : Report) : Best :=
  if r.pos < b.1.pos then b
  else
    let b : Best := if r.pos = b.1.pos then b else (⟨inp, r.pos⟩, [])
    if r.what = .nothing then b else (b.1, upsert r.upper r.what.addTo b.2)

/-- Set the flag of the top frame. -/
def markTop (b : Bool) (stack : List (Label × Position × Bool)) : List (Label × Position × Bool) :=
  match b, stack with
  | true, (r, p, _) :: rest => (r, p, true) :: rest
  | _, s => s

namespace Tracker

/-- Enclosing rules. -/
def ups (t : Tracker) : List (Label × Nat) := t.stack.map fun x => (x.1, x.2.1.pos)

/-- The tracker after the given events. -/
def after (t : Tracker) (inp : Str) (es : List Ev) : Tracker :=
  let b := (Ev.reportsList t.ups es).foldl (Best.step inp) (t.position, t.attempts)
  ⟨b.1, t.positive, b.2, markTop (es.any Ev.isRule) t.stack⟩

/-- The tracker belongs to a parse of `inp`. -/
structure Of (inp : Str) (t : Tracker) : Prop where
  text : t.position.input.text = inp.text
  frames : ∀ f ∈ t.stack, f.2.1.input = inp

end Tracker

theorem markTop_cons (b : Bool) (r p x s) : markTop b ((r, p, x) :: s) = (r, p, b || x) :: s := by
  cases b <;> rfl

theorem markTop_ups (b : Bool) (s : List (Label × Position × Bool)) :
    (markTop b s).map (fun x => (x.1, x.2.1.pos)) = s.map fun x => (x.1, x.2.1.pos) := by
  unfold markTop; split <;> rfl

theorem markTop_or (a b : Bool) (s : List (Label × Position × Bool)) :
    markTop b (markTop a s) = markTop (a || b) s := by
  cases a <;> cases b <;> cases s <;> rfl

theorem markTop_mem {b : Bool} {s : List (Label × Position × Bool)} {x} (h : x ∈ markTop b s) :
    ∃ y ∈ s, x.1 = y.1 ∧ x.2.1 = y.2.1 := by
  unfold markTop at h
  split at h
  · next r p _ rest =>
    rcases List.mem_cons.1 h with rfl | h
    · exact ⟨_, List.mem_cons_self, rfl, rfl⟩
    · exact ⟨x, List.mem_cons_of_mem _ h, rfl, rfl⟩
  · exact ⟨x, h, rfl, rfl⟩

theorem Ev.reportsList_append (ups) : ∀ (a b : List Ev),
    Ev.reportsList ups (a ++ b) = Ev.reportsList ups a ++ Ev.reportsList ups b
  | [], _ => rfl
  | e :: a, b => by
    simp only [List.cons_append, Ev.reportsList, Ev.reportsList_append ups a b, List.append_assoc]

theorem Best.step_text {inp : Str} {b : Best} (h : b.1.input.text = inp.text) (r : Report) :
    (Best.step inp b r).1.input.text = inp.text := by
  unfold Best.step
  split
  · exact h
  · dsimp only
    split <;> split <;> first | exact h | rfl

theorem Best.foldl_text {inp : Str} : ∀ (rs : List Report) (b : Best), b.1.input.text = inp.text →
    (rs.foldl (Best.step inp) b).1.input.text = inp.text
  | [], _, h => h
  | r :: rs, _, h => Best.foldl_text rs _ (Best.step_text h r)

namespace Tracker

theorem after_nil (t : Tracker) (inp : Str) : t.after inp [] = t := by
  cases t; rfl

theorem after_ups (t : Tracker) (inp : Str) (es) : (t.after inp es).ups = t.ups := by
  simp only [ups, after, markTop_ups]

theorem after_append (t : Tracker) (inp : Str) (a b : List Ev) :
    t.after inp (a ++ b) = (t.after inp a).after inp b := by
  have h := after_ups t inp a
  unfold after at h ⊢
  simp only [h, markTop_or, Ev.reportsList_append, List.foldl_append, List.any_append]

theorem after_positive (t : Tracker) (inp : Str) (es) : (t.after inp es).positive = t.positive := rfl

theorem Of.after {inp : Str} {t : Tracker} (h : Of inp t) (es : List Ev) : Of inp (t.after inp es) := by
  refine ⟨Best.foldl_text _ _ h.text, ?_⟩
  intro f hf
  obtain ⟨y, hy, _, e⟩ := markTop_mem hf
  rw [e]
  exact h.frames y hy

theorem Of.setPositive {inp : Str} {t : Tracker} (h : Of inp t) (b : Bool) :
    Of inp { t with positive := b } := ⟨h.text, h.frames⟩

theorem Of.enter {inp : Str} {t : Tracker} (h : Of inp t) (r : Label) {p : Position} (hp : p.input = inp) :
    Of inp (t.enter r p) := by
  refine ⟨h.text, ?_⟩
  have e : (t.enter r p).stack = (r, p, false) :: markTop true t.stack := by
    unfold Tracker.enter; cases t.stack <;> rfl
  rw [e]
  intro f hf
  rcases List.mem_cons.1 hf with rfl | hf
  · exact hp
  · obtain ⟨y, hy, _, e⟩ := markTop_mem hf
    rw [e]
    exact h.frames y hy

theorem upperRule_eq {inp : Str} {pos : Nat} : ∀ (s : List (Label × Position × Bool)),
    (∀ f ∈ s, f.2.1.input = inp) →
    upperRule s ⟨inp, pos⟩ = upperOf (s.map fun x => (x.1, x.2.1.pos)) pos
  | [], _ => rfl
  | (r, p, b) :: s, h => by
    have hp : p.input = inp := h _ List.mem_cons_self
    have ih := upperRule_eq (pos := pos) s (fun f hf => h f (List.mem_cons_of_mem _ hf))
    have e : p.eq ⟨inp, pos⟩ = (p.pos == pos) := by
      simp [Position.eq, hp, Str.ptrEq]
    unfold upperOf at ih ⊢
    simp only [upperRule, e, List.map_cons, List.find?_cons, bne]
    cases p.pos == pos <;> simp [ih, bne]

/-- Recording a report: `prepare` followed by the update of the entry. -/
theorem step_eq {inp : Str} {t : Tracker} (h : Of inp t) (pos : Nat) (w : What) (hw : w ≠ .nothing) :
    (match t.prepare ⟨inp, pos⟩ with
      | none => none
      | some (false, t) => some t
      | some (true, t) => some (t.updateEntry ⟨inp, pos⟩ w.addTo)) =
    some { t with
      position := (Best.step inp (t.position, t.attempts) ⟨upperOf t.ups pos, pos, w⟩).1
      attempts := (Best.step inp (t.position, t.attempts) ⟨upperOf t.ups pos, pos, w⟩).2 } := by
  have hu := upperRule_eq (pos := pos) t.stack h.frames
  unfold prepare Position.cmp Best.step
  rw [if_pos h.text.symm]
  simp only [Nat.compare_eq_ite_lt, updateEntry, if_neg hw]
  by_cases h1 : pos < t.position.pos
  · simp [h1]
  · by_cases h2 : t.position.pos < pos
    · have h3 : ¬ pos = t.position.pos := by omega
      simp [h1, h2, h3, hu, ups]
    · have h3 : pos = t.position.pos := by omega
      simp [← h3, hu, ups]

/-- Recording that nothing is to be reported. -/
theorem step_nothing {inp : Str} {t : Tracker} (h : Of inp t) (pos : Nat) (k : Option Label) :
    (match t.prepare ⟨inp, pos⟩ with
      | none => none
      | some (_, t) => some t) =
    some { t with
      position := (Best.step inp (t.position, t.attempts) ⟨k, pos, .nothing⟩).1
      attempts := (Best.step inp (t.position, t.attempts) ⟨k, pos, .nothing⟩).2 } := by
  unfold prepare Position.cmp Best.step
  rw [if_pos h.text.symm]
  simp only [Nat.compare_eq_ite_lt, if_true]
  by_cases h1 : pos < t.position.pos
  · simp [h1]
  · by_cases h2 : t.position.pos < pos
    · have h3 : ¬ pos = t.position.pos := by omega
      simp [h1, h2, h3]
    · have h3 : pos = t.position.pos := by omega
      simp [← h3]

theorem special_after {inp : Str} {t : Tracker} (h : Of inp t) (pos : Nat) (e : SpecialError) :
    t.special ⟨inp, pos⟩ e = some (t.after inp [.special pos e]) :=
  step_eq h pos (.special e) (by simp)

theorem record_after {inp : Str} {t : Tracker} (h : Of inp t) (r : Label) (pos : Nat) (ok : Bool) :
    t.record r ⟨inp, pos⟩ ok =
    some ⟨(Best.step inp (t.position, t.attempts) ⟨upperOf t.ups pos, pos, outcome r t.positive ok⟩).1, t.positive,
      (Best.step inp (t.position, t.attempts) ⟨upperOf t.ups pos, pos, outcome r t.positive ok⟩).2, t.stack⟩ := by
  have hpos : ∀ b t', t.prepare ⟨inp, pos⟩ = some (b, t') → t'.positive = t.positive := by
    intro b t' hb
    unfold prepare at hb
    split at hb <;> cases hb <;> rfl
  obtain ⟨f, hf⟩ : ∃ f, f = t.positive := ⟨_, rfl⟩
  have hout : outcome r t.positive ok = outcome r f ok := by rw [hf]
  rw [hout]
  cases f <;> cases ok
  · refine Eq.trans ?_ (step_nothing h pos _)
    unfold record
    cases hpr : t.prepare ⟨inp, pos⟩ with
    | none => rfl
    | some x =>
      obtain ⟨b, t'⟩ := x
      have := hpos b t' hpr
      cases b <;> simp [this, ← hf]
  · refine Eq.trans ?_ (step_eq h pos (.unexpected r) (by simp))
    unfold record
    cases hpr : t.prepare ⟨inp, pos⟩ with
    | none => rfl
    | some x =>
      obtain ⟨b, t'⟩ := x
      have := hpos b t' hpr
      cases b <;> simp [this, ← hf]
      rfl
  · refine Eq.trans ?_ (step_eq h pos (.expected r) (by simp))
    unfold record
    cases hpr : t.prepare ⟨inp, pos⟩ with
    | none => rfl
    | some x =>
      obtain ⟨b, t'⟩ := x
      have := hpos b t' hpr
      cases b <;> simp [this, ← hf]
      rfl
  · refine Eq.trans ?_ (step_nothing h pos _)
    unfold record
    cases hpr : t.prepare ⟨inp, pos⟩ with
    | none => rfl
    | some x =>
      obtain ⟨b, t'⟩ := x
      have := hpos b t' hpr
      cases b <;> simp [this, ← hf]

theorem enter_ups (t : Tracker) (r : Label) (p : Position) : (t.enter r p).ups = (r, p.pos) :: t.ups := by
  unfold ups enter
  cases h : t.stack <;> rfl

/-- A rule: enter, what happens inside, leave. -/
theorem leave_after {inp : Str} {t : Tracker} (h : Of inp t) (r : Label) (pos : Nat) (ok : Bool) (es : List Ev) :
    ((t.enter r ⟨inp, pos⟩).after inp es).leave r ⟨inp, pos⟩ ok =
      some (t.after inp [.rule r pos t.positive ok es]) := by
  have hst : (t.enter r ⟨inp, pos⟩).stack = (r, ⟨inp, pos⟩, false) :: markTop true t.stack := by
    unfold Tracker.enter; cases t.stack <;> rfl
  unfold leave
  simp only [after, enter_ups, hst]
  cases hany : es.any Ev.isRule with
  | true =>
    simp only [markTop_cons, Bool.or_false, if_true, Ev.reportsList, Ev.reports, hany, List.append_nil, List.any_cons,
      Ev.isRule, Bool.true_or]
    rfl
  | false =>
    simp only [markTop_cons, Bool.or_false, Bool.false_eq_true, if_false]
    rw [record_after]
    · simp only [Ev.reportsList, Ev.reports, hany, List.append_nil, List.any_cons, Ev.isRule,
        Bool.true_or, Bool.false_eq_true, if_false, List.foldl_append, List.foldl_cons, List.foldl_nil, ups]
      simp only [markTop_ups]
      rfl
    · refine ⟨Best.foldl_text _ _ h.text, ?_⟩
      intro f hf
      obtain ⟨y, hy, _, e⟩ := markTop_mem hf
      rw [e]
      exact h.frames y hy

end Tracker

end Pest3
