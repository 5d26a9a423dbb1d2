import Verif.Logical
import Verif.LeafLemmas

/-!
# The library's run against the bare run

A run of `check` with any lawful stack and the real tracker, started on valid arguments, never panics
and agrees with the run on the ideal stack without a tracker.
-/

namespace Pest3

namespace Tracker

theorem prepare_ok {t : Tracker} {p : Position} (h : p.input.text = t.position.input.text) :
    ∃ b t', t.prepare p = some (b, t') ∧ t'.position.input.text = t.position.input.text ∧
      t'.stack = t.stack ∧ t'.positive = t.positive := by
  unfold prepare Position.cmp
  rw [if_pos h]
  cases compare p.pos t.position.pos with
  | lt => exact ⟨_, _, rfl, rfl, rfl, rfl⟩
  | eq => exact ⟨_, _, rfl, rfl, rfl, rfl⟩
  | gt => exact ⟨_, _, rfl, h, rfl, rfl⟩

theorem special_ok {t : Tracker} {p : Position} (h : p.input.text = t.position.input.text)
    (e : SpecialError) :
    ∃ t', t.special p e = some t' ∧ t'.position.input.text = t.position.input.text ∧
      t'.stack = t.stack ∧ t'.positive = t.positive := by
  obtain ⟨b, t', h1, h2, h3, h4⟩ := prepare_ok h
  unfold special
  rw [h1]
  cases b with
  | false => exact ⟨_, rfl, h2, h3, h4⟩
  | true => exact ⟨_, rfl, h2, h3, h4⟩

theorem record_ok {t : Tracker} {p : Position} (h : p.input.text = t.position.input.text)
    (r : Label) (succ : Bool) :
    ∃ t', t.record r p succ = some t' ∧ t'.position.input.text = t.position.input.text ∧
      t'.stack = t.stack ∧ t'.positive = t.positive := by
  obtain ⟨b, t', h1, h2, h3, h4⟩ := prepare_ok h
  unfold record
  rw [h1]
  cases b with
  | false => exact ⟨_, rfl, h2, h3, h4⟩
  | true =>
    simp only
    split
    · exact ⟨_, rfl, h2, h3, h4⟩
    · exact ⟨_, rfl, h2, h3, h4⟩

/-- The rules on the tracker's stack with the positions where they started. -/
def frames (t : Tracker) : List (Label × Position) := t.stack.map fun x => (x.1, x.2.1)

theorem frames_enter (t : Tracker) (r : Label) (p : Position) :
    (t.enter r p).frames = (r, p) :: t.frames := by
  unfold frames enter
  cases h : t.stack with
  | nil => rfl
  | cons x xs => rfl

theorem leave_ok {t : Tracker} {p : Position} (h : p.input.text = t.position.input.text) {r : Label}
    {fs : List (Label × Position)} (hf : t.frames = (r, p) :: fs) (succ : Bool) :
    ∃ t', t.leave r p succ = some t' ∧ t'.position.input.text = t.position.input.text ∧
      t'.frames = fs ∧ t'.positive = t.positive := by
  unfold leave
  unfold frames at hf
  cases hs : t.stack with
  | nil => rw [hs] at hf; cases hf
  | cons x xs =>
    rw [hs] at hf
    obtain ⟨x1, x2, x3⟩ := x
    simp only [List.map_cons, List.cons.injEq] at hf
    simp only
    split
    · exact ⟨_, rfl, rfl, hf.2, rfl⟩
    · obtain ⟨t', h1, h2, h3, h4⟩ := record_ok (t := { t with stack := xs }) (p := p) h r succ
      refine ⟨t', h1, h2, ?_, h4⟩
      unfold frames; rw [h3]; exact hf.2

end Tracker

section
variable {S : Type} {so : StackOps S} {saved : S → List (List Span)}

/-- The relation between positions: equal, valid, in the given input. -/
def RPos (inp : Str) (p q : Position) : Prop := p = q ∧ p.Valid ∧ p.input = inp

/-- The relation between a run with a lawful stack and the real tracker, and a run with the ideal stack
and no tracker.  World: the saved stacks, the open rules, the mode flag. -/
structure RSt (so : StackOps S) (saved : S → List (List Span)) (inp : Str)
    (w : List (List Span) × List (Label × Position) × Bool) (s : St S Tracker) (i : St IdealStack Unit) :
    Prop where
  elems : so.elems s.stk = i.stk.cache
  saved : saved s.stk = i.stk.saved
  world : i.stk.saved = w.1
  valid : ∀ x ∈ i.stk.cache, x.Valid
  svalid : ∀ c ∈ i.stk.saved, ∀ x ∈ c, x.Valid
  text : inp.text = s.trk.position.input.text
  frames : s.trk.frames = w.2.1
  positive : s.trk.positive = w.2.2

theorem compat_bare (hl : Lawful so saved) (inp : Str) :
    Compat so realTracker idealOps noTracker (fun _ => True) (RPos inp) (RSt so saved inp) where
  leaf := by
    rintro w l p _ s i _ ⟨rfl, hv, hin⟩ hs
    obtain ⟨pre, suf, hp⟩ := Position.valid_iff_at.1 hv
    obtain ⟨stk, ht⟩ := texts_of_valid hs.valid
    have ht1 : Texts (so.elems s.stk) stk := by rw [hs.elems]; exact ht
    have ht2 : Texts (idealOps.elems i.stk) stk := ht
    rw [leafCheck_eq hl realTracker hp ht1 l, leafCheck_eq ideal_lawful noTracker hp ht2 l]
    have key : ∀ b, RSt so saved inp w ⟨leafStk so l b s.stk, s.trk⟩ ⟨leafStk idealOps l b i.stk, i.trk⟩ := by
      intro b
      have e1 := leafStk_elems hl l b s.stk
      have e2 : (leafStk idealOps l b i.stk).cache = _ := leafStk_elems ideal_lawful l b i.stk
      have e3 := leafStk_saved hl l b s.stk
      have e4 := leafStk_saved ideal_lawful l b i.stk
      constructor
      · simp only; rw [e1, e2, hs.elems]; rfl
      · simp only; rw [e3, e4, hs.saved]
      · simp only; rw [e4, hs.world]
      · intro x hx
        simp only at hx
        rw [e2] at hx
        exact hs.valid x (leafElems_subset l b _ x hx)
      · intro c hc
        simp only at hc
        rw [e4] at hc
        exact hs.svalid c hc
      · exact hs.text
      · exact hs.frames
      · exact hs.positive
    cases h : leafSpecial l stk.length with
    | some e =>
      simp only
      have hsp : (realTracker.special p e s.trk) = s.trk.special p e := rfl
      have hpt : p.input.text = s.trk.position.input.text := by rw [hin]; exact hs.text
      obtain ⟨t', h1, h2, h3, h4⟩ := Tracker.special_ok hpt e
      rw [hsp, h1]
      refine .ok .none ?_
      have k := key false
      exact ⟨k.elems, k.saved, k.world, k.valid, k.svalid, by rw [h2]; exact hs.text,
        by unfold Tracker.frames; rw [h3]; exact hs.frames, h4.trans hs.positive⟩
    | none =>
      refine .ok ?_ (key _)
      cases hsp : leafSpec l ⟨pre, suf, stk⟩ with
      | none => exact .none
      | some r =>
        obtain ⟨m, stk'⟩ := r
        obtain ⟨rest, hr⟩ := leafSpec_prefix hsp
        simp only at hr
        subst hr
        exact .some ⟨⟨rfl, hp.advance.valid, hin⟩, by simp [Position.after], by simp [Position.after]⟩
  snapshot := by
    intro w s i hs
    refine ⟨(i.stk.cache :: w.1, w.2), ?_, ?_, ?_⟩
    · exact ⟨(hl.elems_snapshot _).trans hs.elems,
        by simp only [St.snapshot, hl.saved_snapshot, hs.elems, hs.saved]; rfl,
        by simp only [St.snapshot, idealOps, hs.world], hs.valid,
        by
          intro c hc
          rcases List.mem_cons.1 hc with rfl | hc
          · exact hs.valid
          · exact hs.svalid c hc, hs.text, hs.frames, hs.positive⟩
    · intro s' i' h
      refine ⟨(hl.elems_clear _).trans h.elems, ?_, ?_, h.valid, ?_, h.text, h.frames, h.positive⟩
      · simp only [St.clear, hl.saved_clear, h.saved]; rfl
      · have := h.world; simp only [St.clear, idealOps]; rw [this]; rfl
      · intro c hc
        exact h.svalid c (List.mem_of_mem_tail hc)
    · intro s' i' h
      have hw := h.world
      simp only at hw
      have hw' : saved s'.stk = i.stk.cache :: w.1 := h.saved.trans hw
      refine ⟨?_, ?_, ?_, ?_, ?_, h.text, h.frames, h.positive⟩
      · simp only [St.restore, idealOps, hw, hl.elems_restore _ _ _ hw']
      · simp only [St.restore, hl.saved_restore, hw', idealOps, hw]; rfl
      · simp only [St.restore, idealOps, hw]
      · simp only [St.restore, idealOps, hw]
        exact h.svalid _ (by rw [hw]; simp)
      · simp only [St.restore, idealOps, hw]
        intro c hc
        exact h.svalid c (by rw [hw]; simp [hc])
  during := by
    intro w b s i hs
    refine ⟨(w.1, w.2.1, b), ⟨hs.elems, hs.saved, hs.world, hs.valid, hs.svalid, hs.text, hs.frames, rfl⟩, ?_⟩
    intro s' i' h
    exact ⟨h.elems, h.saved, h.world, h.valid, h.svalid, h.text, h.frames, hs.positive⟩
  rule := by
    rintro w r p _ s i ⟨rfl, hv, hin⟩ hs
    refine ⟨(w.1, (r, p) :: w.2.1, w.2.2), ⟨hs.elems, hs.saved, hs.world, hs.valid, hs.svalid, hs.text, ?_, hs.positive⟩, ?_⟩
    · simp only [St.enter, realTracker, Tracker.frames_enter, hs.frames]
    · intro b s' i' h
      have ht : p.input.text = s'.trk.position.input.text := by rw [hin]; exact h.text
      obtain ⟨t', h1, h2, h3, h4⟩ := Tracker.leave_ok ht h.frames b
      refine ⟨⟨s'.stk, t'⟩, i', ?_, rfl, ⟨h.elems, h.saved, h.world, h.valid, h.svalid, ?_, h3, h4.trans h.positive⟩⟩
      · simp only [St.leave, realTracker, h1, Option.map_some]
      · simp only; rw [h2]; exact h.text
  push := by
    rintro w p _ q _ s i ⟨rfl, hv, hin⟩ ⟨rfl, hv', hin'⟩ hs hle _
    have e := Position.span_eq_some (hin.trans hin'.symm) hv hv' hle
    refine ⟨_, _, e, e, ⟨?_, ?_, hs.world, ?_, hs.svalid, hs.text, hs.frames, hs.positive⟩⟩
    · simp only [St.push, hl.elems_push, hs.elems]; rfl
    · simp only [St.push, hl.saved_push, hs.saved]; rfl
    · intro x hx
      simp only [St.push, idealOps, List.mem_append, List.mem_singleton] at hx
      rcases hx with hx | rfl
      · exact hs.valid x hx
      · refine ⟨hle, hv, ?_⟩
        have : q.input.text = p.input.text := by rw [hin, hin']
        rw [← this]; exact hv'

end

end Pest3
