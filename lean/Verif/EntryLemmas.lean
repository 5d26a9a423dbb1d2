import Verif.Matches

/-!
# Entry points: lemmas
-/

namespace Pest3

section
variable {S : Type} {so : StackOps S} {saved : S → List (List Span)}

/-- The end-of-input test never panics and succeeds exactly at the end. -/
theorem eoi_run {inp : Str} {q : Position} {st : St S Tracker} (hq : Good inp q) (hr : Ready so saved inp st) :
    ∃ st', eoiStep so realTracker q st = .ok (if q.atEnd then some q else none, st') ∧
      saved st'.stk = saved st.stk ∧ so.elems st'.stk = so.elems st.stk ∧ Ready so saved inp st' ∧
      st'.trk.positive = st.trk.positive ∧ st'.trk.frames = st.trk.frames := by
  have key : ∀ b, ∃ t', (st.trk.enter eoiLabel q).leave eoiLabel q b = some t' ∧
      t'.position.input.text = st.trk.position.input.text ∧ t'.frames = st.trk.frames ∧
      t'.positive = st.trk.positive := by
    intro b
    obtain ⟨t', h1, h2, h3, h4⟩ := Tracker.leave_ok (t := st.trk.enter eoiLabel q) (p := q) (r := eoiLabel)
      (fs := st.trk.frames) (by rw [hq.2]; exact hr.text.symm) (Tracker.frames_enter _ _ _) b
    exact ⟨t', h1, h2, h3, h4⟩
  unfold eoiStep leafCheck
  by_cases ha : q.atEnd = true
  · obtain ⟨t', h1, h2, h3, h4⟩ := key true
    refine ⟨⟨st.stk, t'⟩, ?_, rfl, rfl, ⟨hr.valid, hr.svalid, h2.trans hr.text⟩, h4, h3⟩
    simp only [if_pos ha]
    simp only [Out.bind_ok, Option.isSome_some, St.leave, St.enter, realTracker, h1, Option.map_some, Out.lift_some]
  · obtain ⟨t', h1, h2, h3, h4⟩ := key false
    refine ⟨⟨st.stk, t'⟩, ?_, rfl, rfl, ⟨hr.valid, hr.svalid, h2.trans hr.text⟩, h4, h3⟩
    simp only [if_neg ha]
    simp only [Out.bind_ok, Option.isSome_none, St.leave, St.enter, realTracker, h1, Option.map_some, Out.lift_some]

theorem not_panic (hl : Lawful so saved) (env : Env) {inp : Str} {p : Position} {st : St S Tracker}
    (hp : Good inp p) (hr : Ready so saved inp st) (fuel : Nat) (n : Node) :
    parse so realTracker env fuel n p st ≠ .panic ∧ check so realTracker env fuel n p st ≠ .panic := by
  obtain ⟨c, hco⟩ := corr_exists hp hr
  have hrun := real_run hl env hp hr hco fuel n
  revert hrun
  generalize parse so realTracker env fuel n p st = x
  generalize check so realTracker env fuel n p st = y
  intro hrun
  cases hrun <;> exact ⟨by simp, by simp⟩

/-- The four cases of a run, parse and check together. -/
theorem run_cases (hl : Lawful so saved) (env : Env) {inp : Str} {p : Position} {st : St S Tracker}
    (hp : Good inp p) (hr : Ready so saved inp st) (fuel : Nat) (n : Node) :
    (parse so realTracker env fuel n p st = .oof ∧ check so realTracker env fuel n p st = .oof) ∨
    (∃ st', parse so realTracker env fuel n p st = .ok (none, st') ∧
      check so realTracker env fuel n p st = .ok (none, st')) ∨
    ∃ q t st', parse so realTracker env fuel n p st = .ok (some (q, t), st') ∧
      check so realTracker env fuel n p st = .ok (some q, st') ∧ Good inp q ∧ Ready so saved inp st' := by
  obtain ⟨c, hco⟩ := corr_exists hp hr
  have hrun := real_run hl env hp hr hco fuel n
  revert hrun
  generalize parse so realTracker env fuel n p st = x
  generalize check so realTracker env fuel n p st = y
  intro hrun
  cases hrun with
  | oof => exact .inl ⟨rfl, rfl⟩
  | fail => exact .inr (.inl ⟨_, rfl, rfl⟩)
  | ok hg hq =>
    obtain ⟨i, hg⟩ := hg
    exact .inr (.inr ⟨_, _, _, rfl, rfl, hq, hg.ready⟩)

end

end Pest3
