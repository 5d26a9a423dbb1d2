import Verif.GraphLemmas

namespace Pest3.Gen
open Pest3 Pest3.Meta

/-! ## Collecting the references of all rules -/

theorem RefersTo.cons {r : Rule} {rest : List Rule} {a b : Name} :
    RefersTo (r :: rest) a b ↔ (r.name = a ∧ Refers b r.node) ∨ RefersTo rest a b := by
  simp [RefersTo]

theorem Defined.cons {r : Rule} {rest : List Rule} {a : Name} :
    Defined (r :: rest) a ↔ r.name = a ∨ Defined rest a := by
  simp [Defined]

theorem RefersTo.defined {rules : List Rule} {a b : Name} (h : RefersTo rules a b) : Defined rules a := by
  obtain ⟨r, hr, hn, _⟩ := h; exact ⟨r, hr, hn⟩

/-- The requirement checked by `collect_used_rule`. -/
def TriviaOk (opt man : Bool) (r : Rule) : Prop :=
  (UsesTrivia .optional r.node → opt = true) ∧ (UsesTrivia .mandatory r.node → man = true)

theorem set_self (m : RefMap) (k : Name) (v : Option (List Name)) : m.set k v k = v := by simp [RefMap.set]
theorem set_other (m : RefMap) {k x : Name} (v : Option (List Name)) (h : x ≠ k) : m.set k v x = m x := by
  simp [RefMap.set, h]

theorem collectRefs_spec (opt man : Bool) : ∀ (rules : List Rule) (m : RefMap),
    ((∃ r ∈ rules, ¬ TriviaOk opt man r) → collectRefs opt man rules m = none) ∧
    ((∀ r ∈ rules, TriviaOk opt man r) → ∃ m', collectRefs opt man rules m = some m' ∧
      (∀ a, (m' a).isSome ↔ (m a).isSome ∨ Defined rules a) ∧
      (∀ a x, x ∈ (m' a).getD [] ↔ x ∈ (m a).getD [] ∨ RefersTo rules a x))
  | [], m => ⟨by simp, fun _ => ⟨m, rfl, by simp [Defined], by simp [RefersTo]⟩⟩
  | r :: rest, m => by
    have hc := collectUsedRule_spec r opt man ((m r.name).getD [])
    constructor
    · rintro ⟨q, hq, hbad⟩
      unfold collectRefs
      rcases List.mem_cons.mp hq with rfl | hq
      · rw [hc.1 hbad]
      · cases collectUsedRule r opt man ((m r.name).getD []) with
        | none => rfl
        | some s => exact (collectRefs_spec opt man rest _).1 ⟨q, hq, hbad⟩
    · intro hall
      obtain ⟨s, hs, hmem⟩ := hc.2 (hall r (by simp))
      obtain ⟨m', h1, h2, h3⟩ := (collectRefs_spec opt man rest (m.set r.name (some s))).2
        fun q hq => hall q (by simp [hq])
      refine ⟨m', ?_, fun a => ?_, fun a x => ?_⟩
      · unfold collectRefs; rw [hs]; exact h1
      · rw [h2 a, Defined.cons]
        by_cases ha : a = r.name
        · subst ha; simp [set_self]
        · rw [set_other m _ ha]
          constructor
          · rintro (h | h)
            · exact .inl h
            · exact .inr (.inr h)
          · rintro (h | h | h)
            · exact .inl h
            · exact absurd h.symm ha
            · exact .inr h
      · rw [h3 a x, RefersTo.cons]
        by_cases ha : a = r.name
        · subst ha
          rw [set_self]
          simp only [Option.getD_some, hmem x, true_and, or_assoc]
        · rw [set_other m _ ha]
          constructor
          · rintro (h | h)
            · exact .inl h
            · exact .inr (.inr h)
          · rintro (h | h | h)
            · exact .inl h
            · exact absurd h.1.symm ha
            · exact .inr h

theorem triviaDefined_iff (rules : List Rule) :
    TriviaDefined rules ↔
      ∀ r ∈ rules, TriviaOk (definesRule rules optName) (definesRule rules manName) r := by
  unfold TriviaDefined TriviaOk
  simp only [definesRule_iff, optName, manName]

/-! ## Soundness: everything collected is reachable -/

/-- Every recorded name is reachable by references. -/
def Sound (rules : List Rule) (m : RefMap) : Prop :=
  ∀ a s x, m a = some s → x ∈ s → ∃ n, Chain rules (fun _ => True) n a x

theorem Chain.trans {rules : List Rule} {P : Name → Prop} {i j : Nat} {a b c : Name}
    (h1 : Chain rules P i a b) (h2 : Chain rules P j b c) : Chain rules P (i + j) a c := by
  induction h1 with
  | one hp h => rw [Nat.add_comm]; exact .step hp h h2
  | step hp h _ ih =>
    have := Chain.step hp h (ih h2)
    rwa [Nat.add_right_comm]

theorem mem_extendRefs {m : RefMap} {cur : List Name} {x : Name} :
    x ∈ extendRefs m cur ↔ x ∈ cur ∨ ∃ y ∈ cur, ∃ s, m y = some s ∧ x ∈ s := by
  unfold extendRefs
  simp only [List.mem_append, List.mem_flatMap]
  constructor
  · rintro (h | ⟨y, hy, h⟩)
    · exact .inl h
    · cases hm : m y with
      | none => simp [hm] at h
      | some s => exact .inr ⟨y, hy, s, hm, by simpa [hm] using h⟩
  · rintro (h | ⟨y, hy, s, hs, h⟩)
    · exact .inl h
    · exact .inr ⟨y, hy, by simpa [hs] using h⟩

theorem Sound.remove {rules : List Rule} {m : RefMap} (h : Sound rules m) (k : Name) :
    Sound rules (m.set k none) := by
  intro a s x ha hx
  by_cases hk : a = k
  · subst hk; simp [set_self] at ha
  · rw [set_other m _ hk] at ha; exact h a s x ha hx

theorem Sound.extend {rules : List Rule} {m : RefMap} (h : Sound rules m) {k : Name} {cur : List Name}
    (hk : m k = some cur) {x : Name} (hx : x ∈ extendRefs (m.set k none) cur) :
    ∃ n, Chain rules (fun _ => True) n k x := by
  rcases mem_extendRefs.mp hx with hx | ⟨y, hy, s, hs, hx⟩
  · exact h k cur x hk hx
  · obtain ⟨i, hi⟩ := h k cur y hk hy
    obtain ⟨j, hj⟩ := h.remove k y s x hs hx
    exact ⟨_, hi.trans hj⟩

theorem reachPass_sound {rules : List Rule} : ∀ (rest : List Rule) (m : RefMap), Sound rules m →
    Sound rules (reachPass rest m) ∧
    ∀ a, (m a).isSome → (reachPass rest m a).isSome ∨ ∃ n, Chain rules (fun _ => True) n a a
  | [], m, h => ⟨h, fun _ ha => .inl ha⟩
  | r :: rest, m, h => by
    unfold reachPass
    cases hm : m r.name with
    | none => exact reachPass_sound rest m h
    | some cur =>
      simp only
      by_cases hc : (extendRefs (m.set r.name none) cur).contains r.name = true
      · rw [if_pos hc]
        obtain ⟨h1, h2⟩ := reachPass_sound rest (m.set r.name none) (h.remove r.name)
        refine ⟨h1, fun a ha => ?_⟩
        by_cases hk : a = r.name
        · subst hk
          exact .inr (h.extend hm (by simpa using hc))
        · exact h2 a (by rwa [set_other m _ hk])
      · rw [if_neg hc]
        obtain ⟨h1, h2⟩ := reachPass_sound rest
          ((m.set r.name none).set r.name (some (extendRefs (m.set r.name none) cur))) (by
            intro a s x ha hx
            by_cases hk : a = r.name
            · subst hk
              rw [set_self] at ha
              injection ha with ha
              subst ha
              exact h.extend hm hx
            · rw [set_other _ _ hk] at ha; exact h.remove r.name a s x ha hx)
        refine ⟨h1, fun a ha => h2 a ?_⟩
        by_cases hk : a = r.name
        · subst hk; simp [set_self]
        · rwa [set_other _ _ hk, set_other _ _ hk]

theorem reachLoop_sound {rules : List Rule} : ∀ (k : Nat) (m : RefMap), Sound rules m →
    Sound rules (reachLoop rules k m) ∧
    ∀ a, (m a).isSome → (reachLoop rules k m a).isSome ∨ ∃ n, Chain rules (fun _ => True) n a a
  | 0, m, h => ⟨h, fun _ ha => .inl ha⟩
  | k + 1, m, h => by
    obtain ⟨h1, h2⟩ := reachPass_sound rules m h
    obtain ⟨h3, h4⟩ := reachLoop_sound k _ h1
    refine ⟨h3, fun a ha => ?_⟩
    rcases h2 a ha with h | h
    · exact h4 a h
    · exact .inr h

/-! ## Completeness: chains of kept rules are recorded -/

/-- Keys only disappear. -/
theorem reachPass_keys : ∀ (rest : List Rule) (m : RefMap) (a : Name),
    (reachPass rest m a).isSome → (m a).isSome
  | [], m, a, h => h
  | r :: rest, m, a, h => by
    unfold reachPass at h
    cases hm : m r.name with
    | none => rw [hm] at h; exact reachPass_keys rest m a h
    | some cur =>
      rw [hm] at h
      simp only at h
      by_cases hk : a = r.name
      · subst hk; simp [hm]
      · split at h
        · have := reachPass_keys rest _ a h; rwa [set_other _ _ hk] at this
        · have := reachPass_keys rest _ a h; rwa [set_other _ _ hk, set_other _ _ hk] at this

theorem reachLoop_keys {rules : List Rule} : ∀ (k : Nat) (m : RefMap) (a : Name),
    (reachLoop rules k m a).isSome → (m a).isSome
  | 0, _, _, h => h
  | k + 1, m, a, h => reachPass_keys rules m a (reachLoop_keys k _ a h)

/-- The entry of `a` contains the ends of all chains of at most `i` steps through rules in `K`. -/
def Holds (rules : List Rule) (K : Name → Prop) (i : Nat) (m : RefMap) (a : Name) : Prop :=
  ∃ s, m a = some s ∧ ∀ n b, n ≤ i → Chain rules K n a b → b ∈ s

theorem Holds.mono {rules : List Rule} {K : Name → Prop} {i j : Nat} {m : RefMap} {a : Name}
    (h : Holds rules K j m a) (hij : i ≤ j) : Holds rules K i m a := by
  obtain ⟨s, hs, h⟩ := h
  exact ⟨s, hs, fun n b hn => h n b (Nat.le_trans hn hij)⟩

theorem Chain.head {rules : List Rule} {P : Name → Prop} {n : Nat} {a b : Name} (h : Chain rules P n a b) : P a := by
  cases h <;> assumption

theorem Chain.pos {rules : List Rule} {P : Name → Prop} {n : Nat} {a b : Name} (h : Chain rules P n a b) : 1 ≤ n := by
  cases h <;> omega

theorem reachPass_holds {rules : List Rule} {K : Name → Prop} {i : Nat} (hi : 1 ≤ i) :
    ∀ (rest : List Rule) (m : RefMap), (∀ a, K a → (reachPass rest m a).isSome) →
    (∀ a, K a → Holds rules K i m a) →
    (∀ a, K a → Holds rules K i (reachPass rest m) a) ∧
    (∀ a, K a → (∃ r ∈ rest, r.name = a) → Holds rules K (i + 1) (reachPass rest m) a)
  | [], m, _, h => ⟨h, by simp⟩
  | r :: rest, m, hk, h => by
    unfold reachPass at hk ⊢
    cases hm : m r.name with
    | none =>
      rw [hm] at hk
      obtain ⟨h1, h2⟩ := reachPass_holds hi rest m hk h
      refine ⟨h1, fun a ha hr => ?_⟩
      obtain ⟨q, hq, hqa⟩ := hr
      rcases List.mem_cons.mp hq with rfl | hq
      · obtain ⟨s, hs, _⟩ := h a ha
        rw [hqa, hs] at hm; simp at hm
      · exact h2 a ha ⟨q, hq, hqa⟩
    | some cur =>
      rw [hm] at hk
      simp only at hk ⊢
      by_cases hc : (extendRefs (m.set r.name none) cur).contains r.name = true
      · rw [if_pos hc] at hk ⊢
        have hnot : ∀ a, K a → a ≠ r.name := by
          rintro a ha rfl
          have := reachPass_keys _ _ _ (hk _ ha)
          simp [set_self] at this
        obtain ⟨h1, h2⟩ := reachPass_holds hi rest _ hk (fun a ha => by
          obtain ⟨s, hs, hh⟩ := h a ha
          exact ⟨s, by rw [set_other _ _ (hnot a ha), hs], hh⟩)
        refine ⟨h1, fun a ha hr => ?_⟩
        obtain ⟨q, hq, hqa⟩ := hr
        rcases List.mem_cons.mp hq with rfl | hq
        · exact absurd hqa.symm (hnot a ha)
        · exact h2 a ha ⟨q, hq, hqa⟩
      · rw [if_neg hc] at hk ⊢
        have hself : K r.name → Holds rules K (i + 1)
            ((m.set r.name none).set r.name (some (extendRefs (m.set r.name none) cur))) r.name := by
          intro hr
          refine ⟨_, set_self _ _ _, fun n b hn hch => ?_⟩
          obtain ⟨s, hs, hh⟩ := h _ hr
          rw [hm] at hs
          injection hs with hs
          subst hs
          have hin : ∀ {b}, RefersTo rules r.name b → b ∈ cur := fun hb => hh 1 _ hi (.one hr hb)
          cases hch with
          | one _ hb => exact mem_extendRefs.mpr (.inl (hin hb))
          | @step n' _ x _ _ hx hch =>
            obtain ⟨sx, hsx, hhx⟩ := h x hch.head
            refine mem_extendRefs.mpr (.inr ⟨x, hin hx, sx, ?_, hhx n' b (by omega) hch⟩)
            rw [set_other _ _ (fun (hxr : x = r.name) => hc ?_), hsx]
            rw [List.contains_iff_mem]
            exact mem_extendRefs.mpr (.inl (hxr ▸ hin hx))
        have hinner : ∀ a, K a → Holds rules K i
            ((m.set r.name none).set r.name (some (extendRefs (m.set r.name none) cur))) a := by
          intro a ha
          by_cases hka : a = r.name
          · subst hka; exact (hself ha).mono (by omega)
          · obtain ⟨s, hs, hh⟩ := h a ha
            exact ⟨s, by rw [set_other _ _ hka, set_other _ _ hka, hs], hh⟩
        obtain ⟨h1, h2⟩ := reachPass_holds hi rest _ hk hinner
        refine ⟨h1, fun a ha hr => ?_⟩
        obtain ⟨q, hq, hqa⟩ := hr
        by_cases hlater : ∃ q ∈ rest, q.name = a
        · exact h2 a ha hlater
        · rcases List.mem_cons.mp hq with rfl | hq
          · -- later passes over other rules leave the entry alone
            have hkeep : ∀ (rest : List Rule) (m : RefMap), (¬ ∃ p ∈ rest, p.name = a) →
                reachPass rest m a = m a := by
              intro rest
              induction rest with
              | nil => intro m _; rfl
              | cons p rest ih =>
                intro m hp
                have hpa : a ≠ p.name := fun h => hp ⟨p, by simp, h.symm⟩
                have hp' : ¬ ∃ q ∈ rest, q.name = a := fun ⟨q, hq, h⟩ => hp ⟨q, by simp [hq], h⟩
                unfold reachPass
                cases m p.name with
                | none => exact ih m hp'
                | some cur =>
                  simp only
                  split
                  · rw [ih _ hp', set_other _ _ hpa]
                  · rw [ih _ hp', set_other _ _ hpa, set_other _ _ hpa]
            subst hqa
            obtain ⟨s, hs, hh⟩ := hself ha
            exact ⟨s, by rw [hkeep rest _ hlater, hs], hh⟩
          · exact absurd ⟨q, hq, hqa⟩ hlater

theorem reachLoop_holds {rules : List Rule} {K : Name → Prop} (hdef : ∀ a, K a → Defined rules a) :
    ∀ (k i : Nat) (m : RefMap), 1 ≤ i → (∀ a, K a → (reachLoop rules k m a).isSome) →
    (∀ a, K a → Holds rules K i m a) → ∀ a, K a → Holds rules K (i + k) (reachLoop rules k m) a
  | 0, _, _, _, _, h => h
  | k + 1, i, m, hi, hk, h => by
    have h1 := (reachPass_holds hi rules m (fun a ha => reachLoop_keys k _ a (hk a ha)) h).2
    have := reachLoop_holds hdef k (i + 1) (reachPass rules m) (by omega) hk
      (fun a ha => h1 a ha (hdef a ha))
    intro a ha
    have h2 := this a ha
    rwa [Nat.add_right_comm] at h2

/-! ## Kept rules are not on a cycle -/

/-- Entries do not contain their own key once processed. -/
theorem reachPass_no_self : ∀ (rest : List Rule) (m : RefMap) (a : Name) (s : List Name),
    ((∃ r ∈ rest, r.name = a) ∨ ∀ s, m a = some s → a ∉ s) → reachPass rest m a = some s → a ∉ s
  | [], m, a, s, h, hs => by
    rcases h with ⟨r, hr, _⟩ | h
    · nomatch hr
    · exact h s hs
  | r :: rest, m, a, s, h, hs => by
    unfold reachPass at hs
    cases hm : m r.name with
    | none =>
      rw [hm] at hs
      refine reachPass_no_self rest m a s ?_ hs
      rcases h with ⟨q, hq, hqa⟩ | h
      · rcases List.mem_cons.mp hq with rfl | hq
        · exact .inr fun s' hs' => by rw [← hqa, hm] at hs'; simp at hs'
        · exact .inl ⟨q, hq, hqa⟩
      · exact .inr h
    | some cur =>
      rw [hm] at hs
      simp only at hs
      by_cases hka : a = r.name
      · by_cases hc : (extendRefs (m.set r.name none) cur).contains r.name = true
        · rw [if_pos hc] at hs
          exact reachPass_no_self rest _ a s (.inr fun s' hs' => by simp [hka, set_self] at hs') hs
        · rw [if_neg hc] at hs
          refine reachPass_no_self rest _ a s (.inr fun s' hs' => ?_) hs
          rw [hka, set_self] at hs'
          injection hs' with hs'
          rw [← hs', hka]
          simpa using hc
      · have h' : (∃ q ∈ rest, q.name = a) ∨ ∀ s, m a = some s → a ∉ s := by
          rcases h with ⟨q, hq, hqa⟩ | h
          · rcases List.mem_cons.mp hq with rfl | hq
            · exact absurd hqa.symm hka
            · exact .inl ⟨q, hq, hqa⟩
          · exact .inr h
        split at hs
        · exact reachPass_no_self rest _ a s (by rwa [set_other _ _ hka]) hs
        · exact reachPass_no_self rest _ a s (by rwa [set_other _ _ hka, set_other _ _ hka]) hs

theorem reachLoop_no_self {rules : List Rule} : ∀ (k : Nat) (m : RefMap) (a : Name) (s : List Name),
    1 ≤ k → Defined rules a → reachLoop rules k m a = some s → a ∉ s
  | 1, m, a, s, _, hd, h => reachPass_no_self rules m a s (.inl hd) h
  | k + 2, m, a, s, _, hd, h => reachLoop_no_self (k + 1) (reachPass rules m) a s (by omega) hd h

/-- A chain of `n` steps either passes through `n` different rules or contains a shorter cycle. -/
theorem Chain.nodup_or_cycle {rules : List Rule} {P : Name → Prop} {n : Nat} {a b : Name}
    (h : Chain rules P n a b) :
    (∃ j c, j < n ∧ Chain rules P j c c) ∨
    ∃ l : List Name, l.length = n ∧ l.Nodup ∧ (∀ x ∈ l, Defined rules x) ∧
      ∀ y ∈ l, y = a ∨ ∃ j, j < n ∧ Chain rules P j a y := by
  induction h with
  | @one a b hp h => exact .inr ⟨[a], rfl, by simp, by simp [h.defined], by simp⟩
  | @step n a x c hp h hch ih =>
    have hn := hch.pos
    rcases ih with ⟨j, c, hj, hc⟩ | ⟨l, hl, hnd, hdef, hreach⟩
    · exact .inl ⟨j, c, by omega, hc⟩
    · by_cases ha : a ∈ l
      · rcases hreach a ha with rfl | ⟨j, hj, hj'⟩
        · exact .inl ⟨1, a, by omega, .one hp h⟩
        · exact .inl ⟨j + 1, a, by omega, .step hp h hj'⟩
      · refine .inr ⟨a :: l, by simp [hl], by simp [ha, hnd], ?_, ?_⟩
        · intro y hy
          rcases List.mem_cons.mp hy with rfl | hy
          · exact h.defined
          · exact hdef y hy
        · intro y hy
          rcases List.mem_cons.mp hy with rfl | hy
          · exact .inl rfl
          · rcases hreach y hy with rfl | ⟨j, hj, hj'⟩
            · exact .inr ⟨1, by omega, .one hp h⟩
            · exact .inr ⟨j + 1, by omega, .step hp h hj'⟩

theorem nodup_defined_length {rules : List Rule} {l : List Name} (hnd : l.Nodup)
    (h : ∀ x ∈ l, Defined rules x) : l.length ≤ rules.length := by
  have := List.Nodup.length_le_of_subset (l₂ := rules.map Rule.name) hnd (fun x hx => by
    obtain ⟨r, hr, hn⟩ := h x hx
    exact List.mem_map.mpr ⟨r, hr, hn⟩)
  simpa using this

/-- A chain longer than the number of rules contains a cycle of at most that length. -/
theorem Chain.short_cycle {rules : List Rule} {P : Name → Prop} : ∀ (n : Nat) {a b : Name},
    rules.length < n → Chain rules P n a b → ∃ j c, j ≤ rules.length ∧ Chain rules P j c c := by
  intro n
  induction n using Nat.strongRecOn with
  | _ n ih =>
    intro a b hn h
    rcases h.nodup_or_cycle with ⟨j, c, hj, hc⟩ | ⟨l, hl, hnd, hdef, _⟩
    · by_cases hle : j ≤ rules.length
      · exact ⟨j, c, hle, hc⟩
      · exact ih j hj (by omega) hc
    · have := nodup_defined_length hnd hdef
      omega

/-- The result of the whole computation. -/
theorem collectReachability_spec (rules : List Rule) :
    (¬ TriviaDefined rules → collectReachability rules = none) ∧
    (TriviaDefined rules → ∃ m, collectReachability rules = some m ∧
      (∀ a, (m a).isSome → Defined rules a) ∧
      (∀ n a, ¬ Chain rules (fun x => (m x).isSome) n a a) ∧
      (∀ a, Defined rules a → (m a).isSome ∨ ∃ n, Chain rules (fun _ => True) n a a)) := by
  have hs := collectRefs_spec (definesRule rules optName) (definesRule rules manName) rules (fun _ => none)
  constructor
  · intro h
    unfold collectReachability
    rw [hs.1 ?_]
    · rfl
    · rw [triviaDefined_iff] at h
      exact Classical.byContradiction fun hc => h fun r hr => Classical.byContradiction fun hb => hc ⟨r, hr, hb⟩
  · intro h
    obtain ⟨m0, h0, hkeys, hrefs⟩ := hs.2 ((triviaDefined_iff rules).mp h)
    simp only [Option.isSome_none, Bool.false_eq_true, false_or, Option.getD_none,
      List.not_mem_nil] at hkeys hrefs
    have hsound : Sound rules m0 := by
      intro a s x ha hx
      exact ⟨1, .one trivial ((hrefs a x).mp (by simpa [ha] using hx))⟩
    refine ⟨reachLoop rules rules.length m0, ?_, ?_, ?_, ?_⟩
    · unfold collectReachability; rw [h0]; rfl
    · intro a ha; exact (hkeys a).mp (reachLoop_keys _ _ a ha)
    · generalize hK : (fun x => ((reachLoop rules rules.length m0 x).isSome : Prop)) = K
      have hKdef : ∀ a, K a → Defined rules a := by
        intro a ha
        rw [← hK] at ha
        exact (hkeys a).mp (reachLoop_keys _ _ a ha)
      have hbase : ∀ a, K a → Holds rules K 1 m0 a := by
        intro a ha
        have := (hkeys a).mpr (hKdef a ha)
        obtain ⟨s, hs⟩ := Option.isSome_iff_exists.mp this
        refine ⟨s, hs, fun n b hn hch => ?_⟩
        have hpos := hch.pos
        cases hch with
        | one _ hb => have := (hrefs a b).mpr hb; simpa [hs] using this
        | step _ _ hch => have := hch.pos; omega
      have hall := reachLoop_holds hKdef rules.length 1 m0 (Nat.le_refl _)
        (fun a ha => by rw [← hK] at ha; exact ha) hbase
      have hno : ∀ n a, n ≤ rules.length → ¬ Chain rules K n a a := by
        intro n a hn hch
        obtain ⟨s, hs, hh⟩ := hall a hch.head
        have hpos := hch.pos
        exact reachLoop_no_self rules.length m0 a s (by omega) (hKdef a hch.head) hs
          (hh n a (by omega) hch)
      intro n a hch
      by_cases hn : n ≤ rules.length
      · exact hno n a hn hch
      · obtain ⟨j, c, hj, hc⟩ := Chain.short_cycle n (by omega) hch
        exact hno j c hj hc
    · intro a ha
      exact (reachLoop_sound rules.length m0 hsound).2 a ((hkeys a).mpr ha)

/-- If no cycle consists of unboxed rules only, every rule has a finite size. -/
theorem finiteSize_of_no_cycle {rules : List Rule} {K : Name → Prop}
    (hno : ∀ n a, ¬ Chain rules K n a a) (a : Name) : FiniteSize rules (fun x => ¬ K x) a := by
  refine Classical.byContradiction fun hbad => ?_
  have key : ∀ n a, ¬ FiniteSize rules (fun x => ¬ K x) a →
      ∃ b, Chain rules K (n + 1) a b ∧ ¬ FiniteSize rules (fun x => ¬ K x) b := by
    have next : ∀ a, ¬ FiniteSize rules (fun x => ¬ K x) a →
        K a ∧ ∃ b, RefersTo rules a b ∧ ¬ FiniteSize rules (fun x => ¬ K x) b := by
      intro a ha
      refine ⟨Classical.byContradiction fun hk => ha (.pointer hk), ?_⟩
      refine Classical.byContradiction fun hc => ha (.contains fun b hb => ?_)
      exact Classical.byContradiction fun hf => hc ⟨b, hb, hf⟩
    intro n
    induction n with
    | zero =>
      intro a ha
      obtain ⟨hk, b, hb, hf⟩ := next a ha
      exact ⟨b, .one hk hb, hf⟩
    | succ n ih =>
      intro a ha
      obtain ⟨hk, b, hb, hf⟩ := next a ha
      obtain ⟨c, hc, hf'⟩ := ih b hf
      exact ⟨c, .step hk hb hc, hf'⟩
  obtain ⟨b, hch, _⟩ := key rules.length a hbad
  obtain ⟨j, c, _, hc⟩ := Chain.short_cycle (rules.length + 1) (by omega) hch
  exact hno j c hc

end Pest3.Gen
