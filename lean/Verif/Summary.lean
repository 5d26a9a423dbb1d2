import Verif.CollectLemmas

/-!
# What a tracker reports about a list of events
-/

namespace Pest3


/-- `t` reports the furthest position of the events `es` (at least `start`), started inside the rules `ups`. -/
structure Furthest (inp : Str) (start : Nat) (ups : List (Label × Nat)) (es : List Ev) (t : Tracker) : Prop where
  input : t.position.input = inp
  valid : t.position.Valid
  start_le : start ≤ t.position.pos
  /-- No rule was tried, and no stack access made, further on. -/
  upper : ∀ ups' e, Within ups es ups' e → e.pos ≤ t.position.pos
  /-- Something was reported there. -/
  attained : t.position.pos = start ∨ ∃ ups' e, Within ups es ups' e ∧ e.Reports ∧ e.pos = t.position.pos

/-- The entries of `t` are exactly the failures (successes, illegal accesses) at its position. -/
structure Listed (ups : List (Label × Nat)) (es : List Ev) (t : Tracker) : Prop where
  /-- One entry per key, ordered. -/
  sorted : t.attempts.Pairwise fun a b => keyLt a.1 b.1 = true
  /-- No empty entries. -/
  nonempty : ∀ k v, (k, v) ∈ t.attempts → v.positives ≠ [] ∨ v.negatives ≠ [] ∨ v.specials ≠ []
  expected : ∀ k x, (∃ v, (k, v) ∈ t.attempts ∧ x ∈ v.positives) ↔
    ∃ ups' cs, Within ups es ups' (.rule x t.position.pos true false cs) ∧
      (∀ e ∈ cs, e.isRule = false) ∧ upperOf ups' t.position.pos = k
  unexpected : ∀ k x, (∃ v, (k, v) ∈ t.attempts ∧ x ∈ v.negatives) ↔
    ∃ ups' cs, Within ups es ups' (.rule x t.position.pos false true cs) ∧
      (∀ e ∈ cs, e.isRule = false) ∧ upperOf ups' t.position.pos = k
  special : ∀ k s, (∃ v, (k, v) ∈ t.attempts ∧ s ∈ v.specials) ↔
    ∃ ups', Within ups es ups' (.special t.position.pos s) ∧ upperOf ups' t.position.pos = k
  /-- The order of the lists: as they happened, consecutive repetitions dropped. -/
  order : ∀ k v, (k, v) ∈ t.attempts ↔
    entryFor t.position.pos k (Ev.reportsList ups es) = some v

theorem furthest_of {inp : Str} {t0 : Tracker} {es : List Ev} (hg : Good inp t0.position) {pre suf : Text}
    (hw : inp.text = pre ++ suf) (hb : AllBeyond pre suf es) (hc : Covered es) :
    Furthest inp t0.position.pos t0.ups es (t0.after inp es) := by
  have hst : t0.position = ⟨inp, t0.position.pos⟩ := by
    have := hg.2
    generalize t0.position = p at this ⊢
    cases p; simp only at this; rw [this]
  -- the position does not depend on the entries
  have hpos : ∀ (rs : List Report) (s : Nat) (m), (rs.foldl (Best.step inp) (⟨inp, s⟩, m)).1 = ⟨inp, furthest s rs⟩ := by
    intro rs
    induction rs with
    | nil => intro s m; rfl
    | cons r rs ih =>
      intro s m
      have : (Best.step inp (⟨inp, s⟩, m) r).1 = ⟨inp, max s r.pos⟩ := by
        unfold Best.step
        simp only
        by_cases h1 : r.pos < s
        · rw [if_pos h1]; simp only; congr; omega
        · rw [if_neg h1]
          by_cases h2 : r.pos = s
          · rw [if_pos h2]; split <;> (simp only; congr; omega)
          · rw [if_neg h2]; split <;> (simp only; congr; omega)
      simp only [List.foldl_cons]
      rw [show Best.step inp (⟨inp, s⟩, m) r = (⟨inp, max s r.pos⟩, (Best.step inp (⟨inp, s⟩, m) r).2) from
        Prod.ext this rfl, ih]
      rfl
  have hfin : (t0.after inp es).position = ⟨inp, furthest t0.position.pos (Ev.reportsList t0.ups es)⟩ := by
    unfold Tracker.after
    simp only
    rw [hst]
    exact hpos _ _ _
  obtain ⟨h1, h2, h3⟩ := furthest_spec (Ev.reportsList t0.ups es) t0.position.pos
  have hatt : furthest t0.position.pos (Ev.reportsList t0.ups es) = t0.position.pos ∨
      ∃ ups' e, Within t0.ups es ups' e ∧ e.Reports ∧
        e.pos = furthest t0.position.pos (Ev.reportsList t0.ups es) := by
    rcases h3 with h3 | ⟨r, hr, h3⟩
    · exact Or.inl h3
    · obtain ⟨ups', e', hw', hx⟩ := (Ev.mem_reportsList _ _ _).1 hr
      exact Or.inr ⟨ups', e', hw', Ev.own_reports hx, by rw [← h3, Ev.own_pos hx]⟩
  refine ⟨by rw [hfin], ?_, by rw [hfin]; exact h1, ?_, by rw [hfin]; exact hatt⟩
  · rw [hfin]
    show Boundary inp.text (furthest t0.position.pos (Ev.reportsList t0.ups es))
    rcases hatt with h | ⟨ups', e, hwi, _, h⟩
    · rw [h]
      have : Boundary t0.position.input.text t0.position.pos := hg.1
      rw [hg.2] at this
      exact this
    · rw [← h, hw]
      exact (hb _ _ _ hwi).boundary
  · intro ups' e hwi
    rw [hfin]
    obtain ⟨u, e', hw', hrep, hle⟩ := hc _ _ _ hwi
    obtain ⟨x, hx, hxp⟩ := Ev.reports_own (ups := u) hrep
    have := h2 x ((Ev.mem_reportsList _ _ _).2 ⟨u, e', hw', hx⟩)
    simp only
    omega

theorem listed_of {inp : Str} {t0 : Tracker} {es : List Ev} (hg : t0.position.input = inp) (ha : t0.attempts = []) :
    Listed t0.ups es (t0.after inp es) := by
  have hst : (t0.position, t0.attempts) = (⟨inp, t0.position.pos⟩, []) := by
    rw [ha]
    generalize t0.position = p at hg ⊢
    cases p; simp only at hg; rw [hg]
  have hH := Holds.foldl (Ev.reportsList t0.ups es) [] _ (Holds.start inp t0.position.pos)
  rw [← hst, List.nil_append] at hH
  obtain ⟨e1, e2, e3⟩ := hH
  have f1 : (t0.after inp es).position = ⟨inp, furthest t0.position.pos (Ev.reportsList t0.ups es)⟩ := e1
  have f2 : KeysSorted (t0.after inp es).attempts := e2
  have f3 : ∀ k v, (k, v) ∈ (t0.after inp es).attempts ↔
      entryFor (t0.after inp es).position.pos k (Ev.reportsList t0.ups es) = some v := by
    intro k v
    rw [lookup_mem f2, f1]
    simp only
    rw [← e3]
    rfl
  generalize ht : t0.after inp es = t at f1 f2 f3 ⊢
  generalize hrs : Ev.reportsList t0.ups es = rs at *
  -- reading an entry
  have hent : ∀ (P : Tracked → Prop) k, (∃ v, (k, v) ∈ t.attempts ∧ P v) ↔
      filed t.position.pos k rs ≠ [] ∧ P ⟨squash (expectedOf (filed t.position.pos k rs)),
        squash (unexpectedOf (filed t.position.pos k rs)), specialsOf (filed t.position.pos k rs)⟩ := by
    intro P k
    constructor
    · rintro ⟨v, hv, hP⟩
      rw [f3] at hv
      unfold entryFor at hv
      simp only at hv
      split at hv
      · cases hv
      · next hne => cases hv; exact ⟨hne, hP⟩
    · rintro ⟨hne, hP⟩
      refine ⟨_, (f3 k _).2 ?_, hP⟩
      unfold entryFor
      simp only
      rw [if_neg hne]
  have hfil : ∀ k r, r ∈ filed t.position.pos k rs ↔ r ∈ rs ∧ r.pos = t.position.pos ∧ r.upper = k ∧ r.what ≠ .nothing := by
    intro k r
    simp [filed, and_assoc]
  have hmem : ∀ (w : What) k, w ≠ .nothing → ((∃ r ∈ filed t.position.pos k rs, r.what = w) ↔
      ∃ ups' e, Within t0.ups es ups' e ∧ (⟨k, t.position.pos, w⟩ : Report) ∈ e.own ups') := by
    intro w k hw
    constructor
    · rintro ⟨⟨u, q, w'⟩, hr, rfl⟩
      rw [hfil] at hr
      obtain ⟨h1, h2, h3, h4⟩ := hr
      simp only at h2 h3
      subst h2 h3
      rw [← hrs] at h1
      exact (Ev.mem_reportsList _ _ _).1 h1
    · intro h
      have := (Ev.mem_reportsList _ _ _).2 h
      rw [hrs] at this
      exact ⟨_, (hfil _ _).2 ⟨this, rfl, rfl, hw⟩, rfl⟩
  have hown : ∀ (x : Label) k (flag : Bool) ups' (e : Ev),
      (⟨k, t.position.pos, outcome x flag (!flag)⟩ : Report) ∈ e.own ups' ↔
      ∃ cs, e = .rule x t.position.pos flag (!flag) cs ∧ (∀ e ∈ cs, e.isRule = false) ∧
        upperOf ups' t.position.pos = k := by
    intro x k flag ups' e
    constructor
    · intro h
      have hrep := Ev.own_reports h
      cases e with
      | special pos s => cases flag <;> simp [Ev.own, outcome] at h
      | rule r pos f ok cs =>
        simp only [Ev.own] at h
        split at h
        · cases h
        · rw [List.mem_singleton] at h
          simp only [Report.mk.injEq] at h
          obtain ⟨h1, h2, h3⟩ := h
          subst h2
          refine ⟨cs, ?_, hrep, h1.symm⟩
          cases flag <;> cases f <;> cases ok <;> simp only [outcome, Bool.not_true, Bool.not_false] at h3 <;>
            first | (cases h3; rfl) | cases h3
    · rintro ⟨cs, rfl, h1, h2⟩
      have : cs.any Ev.isRule = false := by
        rw [List.any_eq_false]; intro y hy; simp [h1 y hy]
      simp [Ev.own, this, h2]
  refine ⟨f2, ?_, ?_, ?_, ?_, ?_⟩
  · intro k v hv
    obtain ⟨hne, hP⟩ := (hent (fun x => x = v) k).1 ⟨v, hv, rfl⟩
    obtain ⟨r, l, hrl⟩ := List.exists_cons_of_ne_nil hne
    have hr : r ∈ filed t.position.pos k rs := by rw [hrl]; exact List.mem_cons_self
    have hnn := ((hfil _ _).1 hr).2.2.2
    have hP : v = ⟨squash (expectedOf (filed t.position.pos k rs)),
        squash (unexpectedOf (filed t.position.pos k rs)), specialsOf (filed t.position.pos k rs)⟩ := hP.symm
    subst hP
    cases hw : r.what with
    | nothing => exact absurd hw hnn
    | expected x =>
      left
      have : x ∈ squash (expectedOf (filed t.position.pos k rs)) := by
        rw [squash_mem]; exact List.mem_filterMap.2 ⟨r, hr, by rw [hw]⟩
      exact List.ne_nil_of_mem this
    | unexpected x =>
      right; left
      have : x ∈ squash (unexpectedOf (filed t.position.pos k rs)) := by
        rw [squash_mem]; exact List.mem_filterMap.2 ⟨r, hr, by rw [hw]⟩
      exact List.ne_nil_of_mem this
    | special x =>
      right; right
      have : x ∈ specialsOf (filed t.position.pos k rs) := List.mem_filterMap.2 ⟨r, hr, by rw [hw]⟩
      exact List.ne_nil_of_mem this
  · intro k x
    rw [hent (fun v => x ∈ v.positives) k]
    simp only
    rw [squash_mem]
    have e1 : (filed t.position.pos k rs ≠ [] ∧ x ∈ expectedOf (filed t.position.pos k rs)) ↔
        ∃ r ∈ filed t.position.pos k rs, r.what = .expected x := by
      constructor
      · rintro ⟨_, h⟩
        obtain ⟨r, hr, h⟩ := List.mem_filterMap.1 h
        refine ⟨r, hr, ?_⟩
        cases hw : r.what <;> rw [hw] at h <;> simp at h
        rw [h]
      · rintro ⟨r, hr, h⟩
        exact ⟨List.ne_nil_of_mem hr, List.mem_filterMap.2 ⟨r, hr, by rw [h]⟩⟩
    rw [e1, hmem _ _ (by simp)]
    constructor
    · rintro ⟨ups', e, hw, h⟩
      obtain ⟨cs, rfl, h1, h2⟩ := (hown x k true ups' e).1 h
      exact ⟨ups', cs, hw, h1, h2⟩
    · rintro ⟨ups', cs, hw, h1, h2⟩
      exact ⟨ups', _, hw, (hown x k true ups' _).2 ⟨cs, rfl, h1, h2⟩⟩
  · intro k x
    rw [hent (fun v => x ∈ v.negatives) k]
    simp only
    rw [squash_mem]
    have e1 : (filed t.position.pos k rs ≠ [] ∧ x ∈ unexpectedOf (filed t.position.pos k rs)) ↔
        ∃ r ∈ filed t.position.pos k rs, r.what = .unexpected x := by
      constructor
      · rintro ⟨_, h⟩
        obtain ⟨r, hr, h⟩ := List.mem_filterMap.1 h
        refine ⟨r, hr, ?_⟩
        cases hw : r.what <;> rw [hw] at h <;> simp at h
        rw [h]
      · rintro ⟨r, hr, h⟩
        exact ⟨List.ne_nil_of_mem hr, List.mem_filterMap.2 ⟨r, hr, by rw [h]⟩⟩
    rw [e1, hmem _ _ (by simp)]
    constructor
    · rintro ⟨ups', e, hw, h⟩
      obtain ⟨cs, rfl, h1, h2⟩ := (hown x k false ups' e).1 h
      exact ⟨ups', cs, hw, h1, h2⟩
    · rintro ⟨ups', cs, hw, h1, h2⟩
      exact ⟨ups', _, hw, (hown x k false ups' _).2 ⟨cs, rfl, h1, h2⟩⟩
  · intro k s
    rw [hent (fun v => s ∈ v.specials) k]
    simp only
    have e1 : (filed t.position.pos k rs ≠ [] ∧ s ∈ specialsOf (filed t.position.pos k rs)) ↔
        ∃ r ∈ filed t.position.pos k rs, r.what = .special s := by
      constructor
      · rintro ⟨_, h⟩
        obtain ⟨r, hr, h⟩ := List.mem_filterMap.1 h
        refine ⟨r, hr, ?_⟩
        cases hw : r.what <;> rw [hw] at h <;> simp at h
        rw [h]
      · rintro ⟨r, hr, h⟩
        exact ⟨List.ne_nil_of_mem hr, List.mem_filterMap.2 ⟨r, hr, by rw [h]⟩⟩
    rw [e1, hmem _ _ (by simp)]
    constructor
    · rintro ⟨ups', e, hw, h⟩
      cases e with
      | special pos s' =>
        simp only [Ev.own, List.mem_singleton, Report.mk.injEq, What.special.injEq] at h
        obtain ⟨h1, h2, h3⟩ := h
        subst h2 h3
        exact ⟨ups', hw, h1.symm⟩
      | rule r pos f ok cs =>
        simp only [Ev.own] at h
        split at h
        · cases h
        · rw [List.mem_singleton] at h
          cases f <;> cases ok <;> simp [outcome] at h
    · rintro ⟨ups', hw, h⟩
      exact ⟨ups', _, hw, by simp [Ev.own, h]⟩
  · rw [hrs]; exact f3

end Pest3
