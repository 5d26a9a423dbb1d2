import Verif.TraceRun
import Verif.EntryLemmas
import Verif.Collect
import Verif.LineLemmas

/-!
# What the tracker holds after a list of reports
-/

namespace Pest3

/-! ## The furthest report -/

theorem furthest_snoc (s : Nat) (rs : List Report) (r : Report) :
    furthest s (rs ++ [r]) = max (furthest s rs) r.pos := by
  simp [furthest, List.foldl_append]

theorem furthest_append (s : Nat) (rs rs' : List Report) :
    furthest s (rs ++ rs') = furthest (furthest s rs) rs' := by
  simp [furthest, List.foldl_append]

theorem furthest_spec : ∀ (rs : List Report) (s : Nat),
    s ≤ furthest s rs ∧ (∀ r ∈ rs, r.pos ≤ furthest s rs) ∧
      (furthest s rs = s ∨ ∃ r ∈ rs, r.pos = furthest s rs)
  | [], s => ⟨Nat.le_refl _, by simp, Or.inl rfl⟩
  | r :: rs, s => by
    obtain ⟨h1, h2, h3⟩ := furthest_spec rs (max s r.pos)
    have e : furthest s (r :: rs) = furthest (max s r.pos) rs := rfl
    rw [e]
    refine ⟨by omega, ?_, ?_⟩
    · intro x hx
      rcases List.mem_cons.1 hx with rfl | hx
      · omega
      · exact h2 x hx
    · rcases h3 with h3 | ⟨x, hx, h3⟩
      · by_cases h : r.pos ≤ s
        · left; omega
        · right; exact ⟨r, List.mem_cons_self, by omega⟩
      · right; exact ⟨x, List.mem_cons_of_mem _ hx, h3⟩

/-! ## Entries -/

/-- Looking a key up. -/
def lookupKey (k : Option Label) (m : List (Option Label × Tracked)) : Option Tracked :=
  (m.find? fun x => x.1 == k).map Prod.snd

/-- Keys strictly increasing. -/
def KeysSorted (m : List (Option Label × Tracked)) : Prop :=
  m.Pairwise fun a b => keyLt a.1 b.1 = true

theorem keyLt_trans {a b c : Option Label} (h1 : keyLt a b = true) (h2 : keyLt b c = true) : keyLt a c = true := by
  cases a <;> cases b <;> cases c <;> simp_all [keyLt]
  exact Nat.lt_trans h1 h2

theorem keyLt_irrefl (a : Option Label) : keyLt a a = false := by
  cases a <;> simp [keyLt]

theorem keyLt_total {a b : Option Label} (h1 : keyLt a b = false) (h2 : a ≠ b) : keyLt b a = true := by
  cases a <;> cases b <;> simp_all [keyLt]
  exact Nat.lt_of_le_of_ne h1 (Ne.symm h2)

theorem lookup_none {k : Option Label} {m : List (Option Label × Tracked)}
    (h : ∀ x ∈ m, keyLt k x.1 = true) : lookupKey k m = none := by
  unfold lookupKey
  rw [Option.map_eq_none_iff, List.find?_eq_none]
  intro x hx he
  rw [beq_iff_eq] at he
  have := h x hx
  rw [he, keyLt_irrefl] at this
  cases this

theorem mem_upsert {k : Option Label} {f : Tracked → Tracked} {m : List (Option Label × Tracked)} {x}
    (h : x ∈ upsert k f m) : x.1 = k ∨ x ∈ m := by
  induction m with
  | nil => simp only [upsert, List.mem_singleton] at h; left; rw [h]
  | cons y m ih =>
    obtain ⟨k', v⟩ := y
    simp only [upsert] at h
    split at h
    · rcases List.mem_cons.1 h with rfl | h
      · left; rfl
      · right; exact h
    · split at h
      · next e =>
        rcases List.mem_cons.1 h with rfl | h
        · left; exact e.symm
        · right; exact List.mem_cons_of_mem _ h
      · rcases List.mem_cons.1 h with rfl | h
        · right; exact List.mem_cons_self
        · rcases ih h with h | h
          · left; exact h
          · right; exact List.mem_cons_of_mem _ h

theorem upsert_sorted {k : Option Label} {f : Tracked → Tracked} : ∀ {m : List (Option Label × Tracked)},
    KeysSorted m → KeysSorted (upsert k f m)
  | [], _ => by simp [upsert, KeysSorted]
  | (k', v) :: m, h => by
    have h' := h
    unfold KeysSorted at h
    rw [List.pairwise_cons] at h
    simp only [upsert]
    split
    · next hlt =>
      refine List.pairwise_cons.2 ⟨?_, h'⟩
      intro x hx
      rcases List.mem_cons.1 hx with rfl | hx
      · exact hlt
      · exact keyLt_trans hlt (h.1 x hx)
    · split
      · next e => exact List.pairwise_cons.2 ⟨h.1, h.2⟩
      · next h1 h2 =>
        refine List.pairwise_cons.2 ⟨?_, upsert_sorted h.2⟩
        intro x hx
        rcases mem_upsert hx with e | hx
        · simp only
          rw [e]
          exact keyLt_total (by simpa using h1) h2
        · exact h.1 x hx

theorem lookup_upsert {k : Option Label} {f : Tracked → Tracked} (k0 : Option Label) :
    ∀ {m : List (Option Label × Tracked)}, KeysSorted m →
    lookupKey k0 (upsert k f m) =
      if k0 = k then some (f ((lookupKey k m).getD .empty)) else lookupKey k0 m
  | [], _ => by
    by_cases h : k0 = k
    · simp [upsert, lookupKey, h]
    · simp [upsert, lookupKey, h, Ne.symm h]
  | (k', v) :: m, hs => by
    have hs' := hs
    unfold KeysSorted at hs
    rw [List.pairwise_cons] at hs
    have ih := lookup_upsert (k := k) (f := f) k0 (m := m) hs.2
    simp only [upsert]
    split
    · next hlt =>
      have hn : lookupKey k ((k', v) :: m) = none := by
        apply lookup_none
        intro x hx
        rcases List.mem_cons.1 hx with rfl | hx
        · exact hlt
        · exact keyLt_trans hlt (hs.1 x hx)
      by_cases h : k0 = k
      · subst h
        rw [hn]
        simp [lookupKey]
      · rw [if_neg h]
        simp [lookupKey, List.find?_cons, Ne.symm h]
    · split
      · next e =>
        subst e
        by_cases h : k0 = k
        · subst h; simp [lookupKey]
        · simp [lookupKey, h, Ne.symm h]
      · next h1 h2 =>
        by_cases h : k0 = k'
        · subst h
          have h' : ¬ k0 = k := fun e => h2 e.symm
          simp [lookupKey, h']
        · unfold lookupKey at ih ⊢
          simp only [List.find?_cons]
          have e1 : (k' == k0) = false := by simpa using Ne.symm h
          have e2 : (k' == k) = false := by simpa using Ne.symm h2
          simp only [e1, e2]
          exact ih

/-! ## Repetitions -/

theorem squash_getLast : ∀ (l : List Label), (squash l).getLast? = l.getLast?
  | [] => rfl
  | [a] => rfl
  | a :: b :: l => by
    have ih := squash_getLast (b :: l)
    have hne : squash (b :: l) ≠ [] := by
      intro h
      rw [h, List.getLast?_nil, eq_comm, List.getLast?_eq_none_iff] at ih
      cases ih
    simp only [squash]
    split
    · rw [ih]; simp [List.getLast?_cons_cons]
    · rw [List.getLast?_cons_cons, ← ih]
      obtain ⟨x, xs, hx⟩ := List.exists_cons_of_ne_nil hne
      rw [hx, List.getLast?_cons_cons]

theorem squash_snoc : ∀ (l : List Label) (x : Label), squash (l ++ [x]) = Tracker.pushNew (squash l) x
  | [], x => rfl
  | [a], x => by
    by_cases h : a = x <;> simp [squash, Tracker.pushNew, h]
  | a :: b :: l, x => by
    have ih := squash_snoc (b :: l) x
    have hne : squash (b :: l) ≠ [] := by
      intro h
      have := squash_getLast (b :: l)
      rw [h, List.getLast?_nil, eq_comm, List.getLast?_eq_none_iff] at this
      cases this
    obtain ⟨y, ys, hy⟩ := List.exists_cons_of_ne_nil hne
    simp only [List.cons_append] at ih ⊢
    simp only [squash]
    split
    · exact ih
    · rw [ih]
      simp only [Tracker.pushNew, hy, List.getLast?_cons_cons]
      split <;> simp

theorem squash_mem : ∀ (l : List Label) (x : Label), x ∈ squash l ↔ x ∈ l
  | [], x => Iff.rfl
  | [a], x => Iff.rfl
  | a :: b :: l, x => by
    have ih := squash_mem (b :: l) x
    simp only [squash]
    split
    · next e => rw [ih]; subst e; simp
    · rw [List.mem_cons, ih, List.mem_cons (a := x) (b := a)]

/-! ## The final entries -/

theorem filed_snoc (pos : Nat) (k : Option Label) (rs : List Report) (r : Report) :
    filed pos k (rs ++ [r]) =
      filed pos k rs ++ if r.pos = pos ∧ r.upper = k ∧ r.what ≠ .nothing then [r] else [] := by
  unfold filed
  rw [List.filter_append]
  congr 1
  by_cases h : r.pos = pos ∧ r.upper = k ∧ r.what ≠ .nothing
  · rw [if_pos h]
    obtain ⟨h1, h2, h3⟩ := h
    simp [h1, h2, h3]
  · rw [if_neg h, List.filter_eq_nil_iff]
    intro x hx
    rw [List.mem_singleton] at hx
    subst hx
    simpa [and_assoc] using h

theorem entry_snoc (l : List Report) (r : Report) (hr : r.what ≠ .nothing) :
    (⟨squash (expectedOf (l ++ [r])), squash (unexpectedOf (l ++ [r])), specialsOf (l ++ [r])⟩ : Tracked) =
      r.what.addTo ⟨squash (expectedOf l), squash (unexpectedOf l), specialsOf l⟩ := by
  obtain ⟨u, p, w⟩ := r
  cases w with
  | nothing => exact absurd rfl hr
  | expected x =>
    simp only [expectedOf, unexpectedOf, specialsOf, List.filterMap_append, What.addTo]
    rw [← squash_snoc]
    simp
  | unexpected x =>
    simp only [expectedOf, unexpectedOf, specialsOf, List.filterMap_append, What.addTo]
    rw [← squash_snoc]
    simp
  | special x =>
    simp only [expectedOf, unexpectedOf, specialsOf, List.filterMap_append, What.addTo]
    simp

theorem entryFor_snoc_other {pos : Nat} {k : Option Label} {rs : List Report} {r : Report}
    (h : ¬ (r.pos = pos ∧ r.upper = k ∧ r.what ≠ .nothing)) :
    entryFor pos k (rs ++ [r]) = entryFor pos k rs := by
  unfold entryFor
  rw [filed_snoc, if_neg h, List.append_nil]

theorem entryFor_snoc_same {pos : Nat} {rs : List Report} {r : Report}
    (h1 : r.pos = pos) (h2 : r.what ≠ .nothing) :
    entryFor pos r.upper (rs ++ [r]) = some (r.what.addTo ((entryFor pos r.upper rs).getD .empty)) := by
  have e : filed pos r.upper (rs ++ [r]) = filed pos r.upper rs ++ [r] := by
    rw [filed_snoc, if_pos ⟨h1, rfl, h2⟩]
  unfold entryFor
  rw [e]
  simp only
  rw [if_neg (show ¬ (filed pos r.upper rs ++ [r] = []) by simp), entry_snoc _ _ h2]
  split
  · next e => rw [e]; rfl
  · rfl

theorem entryFor_beyond {pos : Nat} {k : Option Label} {rs : List Report} (h : ∀ r ∈ rs, r.pos < pos) :
    entryFor pos k rs = none := by
  unfold entryFor
  rw [if_pos]
  unfold filed
  rw [List.filter_eq_nil_iff]
  intro x hx
  have := h x hx
  simp; intro e; omega

/-- What the tracker holds after the reports `rs`, started at offset `s`. -/
structure Holds (inp : Str) (s : Nat) (rs : List Report) (b : Best) : Prop where
  pos : b.1 = ⟨inp, furthest s rs⟩
  sorted : KeysSorted b.2
  entries : ∀ k, lookupKey k b.2 = entryFor (furthest s rs) k rs

theorem Holds.snoc {inp : Str} {s : Nat} {rs : List Report} {b : Best} (h : Holds inp s rs b) (r : Report) :
    Holds inp s (rs ++ [r]) (Best.step inp b r) := by
  obtain ⟨p, m⟩ := b
  obtain ⟨hp, hs, he⟩ := h
  simp only at hp hs he
  subst hp
  have hf := furthest_snoc s rs r
  obtain ⟨hge, hall, hx⟩ := furthest_spec rs s
  clear hx
  unfold Best.step
  simp only
  by_cases h1 : r.pos < furthest s rs
  · rw [if_pos h1]
    have e : furthest s (rs ++ [r]) = furthest s rs := by omega
    refine ⟨by rw [e], hs, fun k => ?_⟩
    rw [e, entryFor_snoc_other (by omega)]
    exact he k
  · rw [if_neg h1]
    by_cases h2 : r.pos = furthest s rs
    · rw [if_pos h2]
      have e : furthest s (rs ++ [r]) = furthest s rs := by omega
      by_cases h3 : r.what = .nothing
      · rw [if_pos h3]
        refine ⟨by rw [e], hs, fun k => ?_⟩
        rw [e, entryFor_snoc_other (by simp [h3])]
        exact he k
      · rw [if_neg h3]
        refine ⟨by rw [e], upsert_sorted hs, fun k => ?_⟩
        simp only
        rw [e, lookup_upsert k hs]
        by_cases h4 : k = r.upper
        · subst h4
          rw [if_pos rfl, entryFor_snoc_same h2 h3, he]
        · rw [if_neg h4, entryFor_snoc_other (fun hh => h4 hh.2.1.symm)]
          exact he k
    · rw [if_neg h2]
      have e : furthest s (rs ++ [r]) = r.pos := by omega
      have hb : ∀ k, entryFor r.pos k rs = none := fun k =>
        entryFor_beyond fun x hx => by have := hall x hx; omega
      by_cases h3 : r.what = .nothing
      · rw [if_pos h3]
        refine ⟨by rw [e], .nil, fun k => ?_⟩
        rw [e, entryFor_snoc_other (by simp [h3]), hb]
        rfl
      · rw [if_neg h3]
        refine ⟨by rw [e], upsert_sorted .nil, fun k => ?_⟩
        simp only
        rw [e, lookup_upsert k .nil]
        by_cases h4 : k = r.upper
        · subst h4
          rw [if_pos rfl, entryFor_snoc_same rfl h3, hb]
          rfl
        · rw [if_neg h4, entryFor_snoc_other (fun hh => h4 hh.2.1.symm), hb]
          rfl

theorem Holds.foldl {inp : Str} {s : Nat} : ∀ (rs' rs : List Report) (b : Best), Holds inp s rs b →
    Holds inp s (rs ++ rs') (rs'.foldl (Best.step inp) b)
  | [], rs, b, h => by simpa using h
  | r :: rs', rs, b, h => by
    have := Holds.foldl rs' (rs ++ [r]) _ (h.snoc r)
    simpa using this

theorem Holds.start (inp : Str) (s : Nat) : Holds inp s [] (⟨inp, s⟩, []) :=
  ⟨rfl, .nil, fun _ => rfl⟩

end Pest3
