import Verif.LoaderSpec

namespace Pest3.Load
open Pest3 Pest3.Gen

section
variable {w : World}

theorem Reaches.extend {r t' q t p} (h : Reaches w r t' q) (hq : w.read q = some t) (hp : ImportsFile w q t p) :
    Reaches w r t' p := by
  induction h with
  | direct h => exact .step h hq (.direct hp)
  | step h1 h2 _ ih => exact .step h1 h2 (ih hq hp)

theorem acc_irrefl {q : FPath} (h : Acc (Above w) q) : ∀ t, w.read q = some t → ¬ Reaches w q t q := by
  induction h with
  | intro q _ ih =>
    intro t ht hr
    cases hr with
    | direct h => exact ih q ⟨t, ht, h⟩ t ht (.direct h)
    | step h1 h2 h3 => exact ih _ ⟨t, ht, h1⟩ _ h2 (h3.extend ht h1)

/-- What can be loaded has no infinite chain of imports. -/
theorem loads_acc {item} (h : Loads w item) :
    match item with
    | .file root text _ => ∀ p, ImportsFile w root text p → Acc (Above w) p
    | .items root l _ _ => ∀ i p, .imp i ∈ l → i.isBuiltin = false → i.target root = some p → Acc (Above w) p := by
  induction h with
  | file h1 _ ih =>
    rintro p ⟨items, i, a1, a2, a3, a4⟩
    rw [h1] at a1; injection a1 with a1; subst a1
    exact ih i p a2 a3 a4
  | nil => intro i p h; simp at h
  | doc _ ih => intro i p h; exact ih i p (by simpa using h)
  | rule _ ih => intro i p h; exact ih i p (by simpa using h)
  | builtin h2 h3 _ ih =>
    intro i p h hb
    rcases List.mem_cons.mp h with h | h
    · injection h with h; subst h; rw [h3] at hb; simp at hb
    · exact ih i p h hb
  | file_ h2 h3 h4 h5 _ _ ih1 ih2 =>
    intro i p h hb ht
    rcases List.mem_cons.mp h with h | h
    · injection h with h; subst h
      rw [h4] at ht; injection ht with ht; subst ht
      refine .intro _ fun q hq => ?_
      obtain ⟨t, a1, a2⟩ := hq
      rw [h5] at a1; injection a1 with a1; subst a1
      exact ih1 q a2
    · exact ih2 i p h hb ht

/-- What can be loaded consists of readable grammars. -/
theorem loads_ok {item} (h : Loads w item) :
    match item with
    | .file root text _ => AllOk w root text
    | .items root l _ _ => .invalid ∉ l ∧ .panics ∉ l ∧ ∀ i, .imp i ∈ l → (i.name ≠ none ∧
        (i.isBuiltin = false → i.target root ≠ none)) ∧
        (i.isBuiltin = false → ∀ p, i.target root = some p → ∃ t, w.read p = some t ∧ AllOk w p t) := by
  induction h with
  | @file root text l rules imports h1 _ ih =>
    refine ⟨⟨l, h1, ih.1, ih.2.1, fun i hi => (ih.2.2 i hi).1⟩, fun p hp => ?_⟩
    have dir : ∀ p, ImportsFile w root text p → ∃ t, w.read p = some t ∧ AllOk w p t := by
      rintro p ⟨items, i, a1, a2, a3, a4⟩
      rw [h1] at a1; injection a1 with a1; subst a1
      exact (ih.2.2 i a2).2 a3 p a4
    cases hp with
    | direct h => obtain ⟨t, a1, a2⟩ := dir p h; exact ⟨t, a1, a2.1⟩
    | step b1 b2 b3 =>
      obtain ⟨t, a1, a2⟩ := dir _ b1
      rw [b2] at a1; injection a1 with a1; subst a1
      exact a2.2 p b3
  | nil => exact ⟨by simp, by simp, fun i h => by simp at h⟩
  | doc _ ih => exact ⟨by simpa using ih.1, by simpa using ih.2.1, fun i h => ih.2.2 i (by simpa using h)⟩
  | rule _ ih => exact ⟨by simpa using ih.1, by simpa using ih.2.1, fun i h => ih.2.2 i (by simpa using h)⟩
  | builtin h2 h3 _ ih =>
    refine ⟨by simpa using ih.1, by simpa using ih.2.1, fun i h => ?_⟩
    rcases List.mem_cons.mp h with h | h
    · injection h with h; subst h
      exact ⟨⟨by simp [h2], by simp [h3]⟩, by simp [h3]⟩
    · exact ih.2.2 i h
  | file_ h2 h3 h4 h5 _ _ ih1 ih2 =>
    refine ⟨by simpa using ih2.1, by simpa using ih2.2.1, fun i h => ?_⟩
    rcases List.mem_cons.mp h with h | h
    · injection h with h; subst h
      refine ⟨⟨by simp [h2], by simp [h4]⟩, fun _ p hp => ?_⟩
      rw [h4] at hp; injection hp with hp; subst hp
      exact ⟨_, h5, ih1⟩
    · exact ih2.2.2 i h

theorem loads_det {item} (h : Loads w item) :
    match item with
    | .file root text m => ∀ m', Loads w (.file root text m') → m' = m
    | .items root l rules imports => ∀ r' i', Loads w (.items root l r' i') → r' = rules ∧ i' = imports := by
  induction h with
  | file h1 _ ih =>
    intro m' h
    cases h with
    | file a1 a2 =>
      rw [h1] at a1; injection a1 with a1; subst a1
      obtain ⟨rfl, rfl⟩ := ih _ _ a2; rfl
  | nil => intro r i h; cases h; exact ⟨rfl, rfl⟩
  | doc _ ih => intro r i h; cases h with | doc h => exact ih _ _ h
  | rule _ ih => intro r i h; cases h with | rule h => obtain ⟨rfl, rfl⟩ := ih _ _ h; exact ⟨rfl, rfl⟩
  | builtin h2 h3 _ ih =>
    intro r i h
    cases h with
    | builtin a2 a3 a4 =>
      rw [h2] at a2; injection a2 with a2
      obtain ⟨rfl, rfl⟩ := ih _ _ a4; subst a2; exact ⟨rfl, rfl⟩
    | file_ a2 a3 => rw [h3] at a3; simp at a3
  | file_ h2 h3 h4 h5 _ _ ih1 ih2 =>
    intro r i h
    cases h with
    | builtin a2 a3 => rw [h3] at a3; simp at a3
    | file_ a2 a3 a4 a5 a6 a7 =>
      rw [h2] at a2; injection a2 with a2
      rw [h4] at a4; injection a4 with a4; subst a4
      rw [h5] at a5; injection a5 with a5; subst a5
      obtain ⟨rfl, rfl⟩ := ih2 _ _ a7
      have := ih1 _ a6
      subst a2 this; exact ⟨rfl, rfl⟩

/-! ## Sets -/

theorem mem_insertDep {l : List FPath} {p q} : q ∈ insertDep l p ↔ q ∈ l ∨ q = p := by
  unfold insertDep
  split
  · rename_i h
    exact ⟨.inl, fun h' => h'.elim id fun e => e ▸ h⟩
  · simp

theorem mem_extendDeps {m l : List FPath} {q} : q ∈ extendDeps l m ↔ q ∈ l ∨ q ∈ m := by
  induction m generalizing l with
  | nil => simp [extendDeps]
  | cons p m ih =>
    have : extendDeps l (p :: m) = extendDeps (insertDep l p) m := rfl
    rw [this, ih, mem_insertDep, List.mem_cons, or_assoc]

theorem cacheGet_mem {p} {l : List (FPath × LMod)} : (∃ m, cacheGet p l = some m) ↔ p ∈ l.map Prod.fst := by
  induction l with
  | nil => simp [cacheGet]
  | cons a l ih =>
    obtain ⟨q, m⟩ := a
    simp only [cacheGet, List.map_cons, List.mem_cons]
    by_cases e : q = p
    · simp [e]
    · rw [if_neg e, ih]; exact ⟨.inr, fun h => h.resolve_left fun e' => e e'.symm⟩

/-! ## The cache -/

/-- The files in the cache. -/
def LState.keys (st : LState) : List FPath := st.cache.map Prod.fst

variable (w) in
/-- The cache holds modules of files, with those of the files they import. -/
def GoodSt (st : LState) : Prop :=
  ∀ p m, cacheGet p st.cache = some m → ∃ t, w.read p = some t ∧ Loads w (.file p t m.module) ∧
    ∀ q, ImportsFile w p t q → q ∈ st.keys

/-- What was read was not known before, is reached, is a dependency, and is known now. -/
structure Grown (Rch : FPath → Prop) (st st' : LState) (deps deps' : List FPath) (new : List FPath) : Prop where
  reads : st'.reads = st.reads ++ new
  nodup : new.Nodup
  keys : ∀ p, p ∈ st'.keys ↔ p ∈ st.keys ∨ p ∈ new
  fresh : ∀ p ∈ new, p ∉ st.keys
  reached : ∀ p ∈ new, Rch p
  deps : ∀ p, p ∈ deps' ↔ p ∈ deps ∨ p ∈ new

theorem Grown.refl {Rch st deps} : Grown Rch st st deps deps [] :=
  ⟨by simp, .nil, by simp, by simp, by simp, by simp⟩

theorem Grown.trans {Rch st st1 st2 d d1 d2 n1 n2} (h1 : Grown Rch st st1 d d1 n1) (h2 : Grown Rch st1 st2 d1 d2 n2) :
    Grown Rch st st2 d d2 (n1 ++ n2) where
  reads := by rw [h2.reads, h1.reads, List.append_assoc]
  nodup := List.nodup_append.mpr ⟨h1.nodup, h2.nodup, fun a ha b hb e => by
    subst e
    exact h2.fresh a hb ((h1.keys a).mpr (.inr ha))⟩
  keys p := by rw [h2.keys, h1.keys, List.mem_append, or_assoc]
  fresh p hp := by
    rcases List.mem_append.mp hp with hp | hp
    · exact h1.fresh p hp
    · exact fun hk => h2.fresh p hp ((h1.keys p).mpr (.inl hk))
  reached p hp := by
    rcases List.mem_append.mp hp with hp | hp
    · exact h1.reached p hp
    · exact h2.reached p hp
  deps p := by rw [h2.deps, h1.deps, List.mem_append, or_assoc]

variable (w) in
/-- What is shown about a call of `_parse`. -/
def LoadOk (load : FPath → Text → LState → Out (LMod × LState)) : Prop :=
  ∀ root text st m st', GoodSt w st → load root text st = .ok (m, st') →
    GoodSt w st' ∧ Loads w (.file root text m.module) ∧ (∀ p, ImportsFile w root text p → p ∈ st'.keys) ∧
    ∃ new, Grown (Reaches w root text) st st' [] m.deps new

theorem importFile_ok {load} (hl : LoadOk w load) {Rch : FPath → Prop} {path m st module m' st'} (hg : GoodSt w st)
    (hr : Rch path) (hr' : ∀ t p, w.read path = some t → Reaches w path t p → Rch p)
    (h : importFile w load path m st = .ok (module, m', st')) :
    GoodSt w st' ∧ (∃ t, w.read path = some t ∧ Loads w (.file path t module.module)) ∧ path ∈ st'.keys ∧
    m'.rules = m.rules ∧ m'.imports = m.imports ∧ ∃ new, Grown Rch st st' m.deps m'.deps new := by
  unfold importFile at h
  cases hc : cacheGet path st.cache with
  | some mod =>
    rw [hc] at h
    simp only [Out.ok.injEq, Prod.mk.injEq] at h
    obtain ⟨rfl, rfl, rfl⟩ := h
    obtain ⟨t, a1, a2, _⟩ := hg _ _ hc
    exact ⟨hg, ⟨t, a1, a2⟩, cacheGet_mem.mp ⟨_, hc⟩, rfl, rfl, [], .refl⟩
  | none =>
    rw [hc] at h
    dsimp only at h
    cases ht : w.read path with
    | none => rw [ht] at h; simp at h
    | some text =>
      rw [ht] at h
      dsimp only at h
      cases hL : load path text { st with reads := st.reads ++ [path] } with
      | ok r =>
        obtain ⟨mod, st1⟩ := r
        rw [hL] at h
        simp only [Out.ok.injEq, Prod.mk.injEq] at h
        obtain ⟨rfl, rfl, rfl⟩ := h
        obtain ⟨g1, l1, d1, new, gr⟩ := hl _ _ { st with reads := st.reads ++ [path] } _ _ (fun p m hp => hg p m hp) hL
        have hacc : Acc (Above w) path := .intro _ fun q ⟨t, a1, a2⟩ => by
          rw [ht] at a1; injection a1 with a1; subst a1
          exact loads_acc l1 q a2
        have hnew : path ∉ new := fun hp => acc_irrefl hacc text ht (gr.reached path hp)
        have hkeys : ∀ p, p ∈ LState.keys ⟨(path, mod) :: st1.cache, st1.reads⟩ ↔ p = path ∨ p ∈ st1.keys := by
          intro p; simp [LState.keys]
        refine ⟨fun p m1 hp => ?_, ⟨text, rfl, l1⟩, (hkeys path).mpr (.inl rfl), rfl, rfl, path :: new, ?_⟩
        · simp only [cacheGet] at hp
          by_cases e : path = p
          · subst e
            rw [if_pos rfl] at hp
            injection hp with hp; subst hp
            exact ⟨text, ht, l1, fun q hq => (hkeys q).mpr (.inr (d1 q hq))⟩
          · rw [if_neg e] at hp
            obtain ⟨t, a1, a2, a3⟩ := g1 p m1 hp
            exact ⟨t, a1, a2, fun q hq => (hkeys q).mpr (.inr (a3 q hq))⟩
        · have hk : path ∉ st.keys := fun hk => by
            obtain ⟨m, hm⟩ := cacheGet_mem.mpr hk
            rw [hm] at hc; simp at hc
          refine ⟨by rw [gr.reads]; simp, List.nodup_cons.mpr ⟨hnew, gr.nodup⟩, fun p => ?_, fun p hp => ?_, fun p hp => ?_,
            fun p => ?_⟩
          · rw [hkeys, gr.keys, List.mem_cons]
            show p = path ∨ p ∈ st.keys ∨ p ∈ new ↔ p ∈ st.keys ∨ p = path ∨ p ∈ new
            constructor
            · rintro (h | h | h)
              · exact .inr (.inl h)
              · exact .inl h
              · exact .inr (.inr h)
            · rintro (h | h | h)
              · exact .inr (.inl h)
              · exact .inl h
              · exact .inr (.inr h)
          · rcases List.mem_cons.mp hp with rfl | hp
            · exact hk
            · exact gr.fresh p hp
          · rcases List.mem_cons.mp hp with rfl | hp
            · exact hr
            · exact hr' text p ht (gr.reached p hp)
          · have := gr.deps p
            simp only [List.not_mem_nil, false_or] at this
            rw [mem_extendDeps, mem_insertDep, this, List.mem_cons, or_assoc]
      | err => rw [hL] at h; simp at h
      | panic => rw [hL] at h; simp at h
      | oof => rw [hL] at h; simp at h

theorem runItems_ok {load} (hl : LoadOk w load) {root : FPath} {Rch : FPath → Prop} (items : List FileItem) :
    ∀ {m st m' st'}, GoodSt w st →
    (∀ i p, .imp i ∈ items → i.isBuiltin = false → i.target root = some p → Rch p ∧
      ∀ t q, w.read p = some t → Reaches w p t q → Rch q) →
    runItems w load root items m st = .ok (m', st') →
    GoodSt w st' ∧ (∃ rules imports, Loads w (.items root items rules imports) ∧ m'.rules = m.rules ++ rules ∧
      m'.imports = m.imports ++ imports) ∧
    (∀ i p, .imp i ∈ items → i.isBuiltin = false → i.target root = some p → p ∈ st'.keys) ∧
    ∃ new, Grown Rch st st' m.deps m'.deps new := by
  induction items with
  | nil =>
    intro m st m' st' hg _ h
    simp only [runItems, Out.ok.injEq, Prod.mk.injEq] at h
    obtain ⟨rfl, rfl⟩ := h
    exact ⟨hg, ⟨[], [], .nil, by simp, by simp⟩, by simp, [], .refl⟩
  | cons item items ih =>
    intro m st m' st' hg hR h
    have hR' : ∀ i p, .imp i ∈ items → i.isBuiltin = false → i.target root = some p → Rch p ∧
        ∀ t q, w.read p = some t → Reaches w p t q → Rch q := fun i p hi => hR i p (List.mem_cons_of_mem _ hi)
    cases item with
    | invalid => simp [runItems] at h
    | panics => simp [runItems] at h
    | doc =>
      obtain ⟨a1, ⟨rs, is, a2, a3, a4⟩, a5, a6⟩ := ih hg hR' h
      exact ⟨a1, ⟨rs, is, .doc a2, a3, a4⟩, fun i p hi => a5 i p (by simpa using hi), a6⟩
    | rule r =>
      obtain ⟨a1, ⟨rs, is, a2, a3, a4⟩, a5, a6⟩ := ih hg hR' h
      exact ⟨a1, ⟨r :: rs, is, .rule a2, by rw [a3]; simp, a4⟩, fun i p hi => a5 i p (by simpa using hi), a6⟩
    | imp i =>
      simp only [runItems] at h
      cases hn : i.name with
      | none => rw [hn] at h; simp at h
      | some alias =>
        rw [hn] at h
        dsimp only at h
        split at h
        · rename_i hb
          obtain ⟨a1, ⟨rs, is, a2, a3, a4⟩, a5, a6⟩ := ih hg hR' h
          refine ⟨a1, ⟨rs, _, .builtin hn hb a2, a3, by rw [a4]; simp⟩, fun j p hj hjb => ?_, a6⟩
          rcases List.mem_cons.mp hj with hj | hj
          · injection hj with hj; subst hj; rw [hb] at hjb; simp at hjb
          · exact a5 j p hj hjb
        · rename_i hb
          have hb : i.isBuiltin = false := by simpa using hb
          cases htg : i.target root with
          | none => rw [htg] at h; simp at h
          | some path =>
            rw [htg] at h
            dsimp only at h
            cases hI : importFile w load path m st with
            | ok r =>
              obtain ⟨module, m1, st1⟩ := r
              rw [hI] at h
              dsimp only at h
              obtain ⟨r1, r2⟩ := hR i path List.mem_cons_self hb htg
              obtain ⟨b1, ⟨t, b2, b3⟩, b4, b5, b6, n1, b7⟩ := importFile_ok hl hg r1 r2 hI
              obtain ⟨a1, ⟨rs, is, a2, a3, a4⟩, a5, n2, a6⟩ := ih b1 hR' h
              refine ⟨a1, ⟨rs, _, .file_ hn hb htg b2 b3 a2, by rw [a3]; simp [b5], by rw [a4]; simp [b6]⟩,
                fun j p hj hjb hjt => ?_, _, b7.trans a6⟩
              rcases List.mem_cons.mp hj with hj | hj
              · injection hj with hj; subst hj
                rw [htg] at hjt; injection hjt with hjt; subst hjt
                exact (a6.keys _).mpr (.inl b4)
              · exact a5 j p hj hjb hjt
            | err => rw [hI] at h; simp at h
            | panic => rw [hI] at h; simp at h
            | oof => rw [hI] at h; simp at h

theorem parseText_ok (fuel : Nat) : LoadOk w (parseText w fuel) := by
  induction fuel with
  | zero => intro root text st m st' _ h; simp [parseText] at h
  | succ fuel ih =>
    intro root text st m st' hg h
    simp only [parseText] at h
    cases hp : w.parse text with
    | none => rw [hp] at h; simp at h
    | some items =>
      rw [hp] at h
      obtain ⟨a1, ⟨rs, is, a2, a3, a4⟩, a5, a6⟩ := runItems_ok ih (Rch := Reaches w root text) items hg
        (fun i p h1 h2 h3 => ⟨.direct ⟨items, i, hp, h1, h2, h3⟩, fun t q h4 h5 => .step ⟨items, i, hp, h1, h2, h3⟩ h4 h5⟩) h
      refine ⟨a1, ?_, fun p hp' => ?_, a6⟩
      · obtain ⟨d, r, im⟩ := m
        simp only [List.nil_append] at a3 a4
        subst a3 a4
        exact .file hp a2
      · obtain ⟨items', i, b1, b2, b3, b4⟩ := hp'
        rw [hp] at b1; injection b1 with b1; subst b1
        exact a5 i p b2 b3 b4

/-! ## Termination -/

theorem loads_run {item} (h : Loads w item) :
    match item with
    | .file root text m => ∃ N, ∀ fuel, N ≤ fuel → ∀ st, GoodSt w st →
        ∃ lm st', parseText w fuel root text st = .ok (lm, st') ∧ lm.module = m
    | .items root l _ _ => ∃ N, ∀ fuel, N ≤ fuel → ∀ m st, GoodSt w st →
        ∃ m' st', runItems w (parseText w fuel) root l m st = .ok (m', st') := by
  induction h with
  | @file root text l rules imports h1 h2 ih =>
    obtain ⟨N, ih⟩ := ih
    refine ⟨N + 1, fun fuel hf st hg => ?_⟩
    obtain ⟨fuel, rfl⟩ : ∃ k, fuel = k + 1 := ⟨fuel - 1, by omega⟩
    obtain ⟨m', st', hr⟩ := ih fuel (by omega) ⟨[], [], []⟩ st hg
    have hrun : parseText w (fuel + 1) root text st = .ok (m', st') := by simp only [parseText, h1, hr]
    refine ⟨m', st', hrun, ?_⟩
    exact loads_det (.file h1 h2) _ (parseText_ok _ _ _ _ _ _ hg hrun).2.1
  | nil => exact ⟨0, fun fuel _ m st _ => ⟨m, st, rfl⟩⟩
  | doc _ ih => exact ⟨ih.choose, fun fuel hf m st hg => ih.choose_spec fuel hf m st hg⟩
  | rule _ ih => exact ⟨ih.choose, fun fuel hf m st hg => ih.choose_spec fuel hf _ st hg⟩
  | builtin h2 h3 _ ih =>
    obtain ⟨N, ih⟩ := ih
    refine ⟨N, fun fuel hf m st hg => ?_⟩
    simp only [runItems, h2, h3, if_true]
    exact ih fuel hf _ st hg
  | @file_ root i x p t m l rules imports h2 h3 h4 h5 h6 h7 ih1 ih2 =>
    obtain ⟨N1, ih1⟩ := ih1
    obtain ⟨N2, ih2⟩ := ih2
    refine ⟨max N1 N2, fun fuel hf m0 st hg => ?_⟩
    obtain ⟨module, m1, st1, hI⟩ : ∃ module m1 st1, importFile w (parseText w fuel) p m0 st = .ok (module, m1, st1) := by
      unfold importFile
      cases hc : cacheGet p st.cache with
      | some module => exact ⟨_, _, _, rfl⟩
      | none =>
        simp only [h5]
        obtain ⟨lm, st', a1, a2⟩ := ih1 fuel (by omega) { st with reads := st.reads ++ [p] } (fun q m hq => hg q m hq)
        rw [a1]
        exact ⟨_, _, _, rfl⟩
    have hg1 := (importFile_ok (Rch := fun _ => True) (parseText_ok fuel) hg trivial (fun _ _ _ _ => trivial) hI).1
    simp only [runItems, h2, h3, h4, Bool.false_eq_true, if_false, hI]
    exact ih2 fuel (by omega) _ st1 hg1

/-- Readable grammars without infinite chain of imports can be loaded. -/
theorem loads_exists (p : FPath) (h : Acc (Above w) p) : ∀ t, w.read p = some t → AllOk w p t → ∃ m, Loads w (.file p t m) := by
  induction h with
  | intro p _ ih =>
    intro t ht hok
    exact loads_step hok fun q hq => ih q ⟨t, ht, hq⟩
where
  loads_step {root text} (hok : AllOk w root text)
      (ih : ∀ q, ImportsFile w root text q → ∀ t, w.read q = some t → AllOk w q t → ∃ m, Loads w (.file q t m)) :
      ∃ m, Loads w (.file root text m) := by
    obtain ⟨⟨items, hp, hinv, hpan, himp⟩, hreach⟩ := hok
    suffices ∀ l, (∀ a ∈ l, a ∈ items) → ∃ rs is, Loads w (.items root l rs is) by
      obtain ⟨rs, is, h⟩ := this items fun _ h => h
      exact ⟨_, .file hp h⟩
    intro l
    induction l with
    | nil => intro _; exact ⟨_, _, .nil⟩
    | cons a l ihl =>
      intro hl
      obtain ⟨rs, is, hrest⟩ := ihl fun b hb => hl b (List.mem_cons_of_mem _ hb)
      have ha := hl a List.mem_cons_self
      cases a with
      | invalid => exact absurd ha hinv
      | panics => exact absurd ha hpan
      | doc => exact ⟨_, _, .doc hrest⟩
      | rule r => exact ⟨_, _, .rule hrest⟩
      | imp i =>
        obtain ⟨b2, b3⟩ := himp i ha
        obtain ⟨x, hx⟩ := Option.ne_none_iff_exists'.mp b2
        cases hb : i.isBuiltin with
        | true => exact ⟨_, _, .builtin hx hb hrest⟩
        | false =>
          obtain ⟨q, hq⟩ := Option.ne_none_iff_exists'.mp (b3 hb)
          have hI : ImportsFile w root text q := ⟨items, i, hp, ha, hb, hq⟩
          obtain ⟨t, ht, htok⟩ := hreach q (.direct hI)
          obtain ⟨m, hm⟩ := ih q hI t ht ⟨htok, fun p' hp' => hreach p' (.step hI ht hp')⟩
          exact ⟨_, _, .file_ hx hb hq ht hm hrest⟩

/-! ## Failures -/

/-- Neither an error nor a panic. -/
def Out.fine {α : Type} : Out α → Prop
  | .ok _ => True
  | .oof => True
  | _ => False

theorem runItems_fine {load} (root : FPath) (items : List FileItem)
    (hl : ∀ i p, .imp i ∈ items → i.isBuiltin = false → i.target root = some p →
      ∃ t, w.read p = some t ∧ ∀ st, (load p t st).fine) (hinv : .invalid ∉ items)
    (hpan : .panics ∉ items) (himp : ∀ i, .imp i ∈ items → i.name ≠ none ∧ (i.isBuiltin = false → i.target root ≠ none)) :
    ∀ m st, (runItems w load root items m st).fine := by
  induction items with
  | nil => intro m st; trivial
  | cons a items ih =>
    intro m st
    have ih := ih (fun i p h => hl i p (List.mem_cons_of_mem _ h)) (fun h => hinv (List.mem_cons_of_mem _ h))
      (fun h => hpan (List.mem_cons_of_mem _ h)) (fun i h => himp i (List.mem_cons_of_mem _ h))
    cases a with
    | invalid => exact absurd List.mem_cons_self hinv
    | panics => exact absurd List.mem_cons_self hpan
    | doc => exact ih _ _
    | rule r => exact ih _ _
    | imp i =>
      obtain ⟨b2, b3⟩ := himp i List.mem_cons_self
      obtain ⟨x, hx⟩ := Option.ne_none_iff_exists'.mp b2
      simp only [runItems, hx]
      cases hb : i.isBuiltin with
      | true => simp only [if_true]; exact ih _ _
      | false =>
        obtain ⟨q, hq⟩ := Option.ne_none_iff_exists'.mp (b3 hb)
        obtain ⟨t, ht, hf⟩ := hl i q List.mem_cons_self hb hq
        simp only [Bool.false_eq_true, if_false, hq]
        have : (importFile w load q m st).fine := by
          unfold importFile
          cases cacheGet q st.cache with
          | some _ => trivial
          | none =>
            simp only [ht]
            have := hf { st with reads := st.reads ++ [q] }
            generalize load q t { st with reads := st.reads ++ [q] } = o at this
            cases o <;> first | trivial | exact this.elim
        generalize importFile w load q m st = o at this
        cases o with
        | ok r => exact ih _ _
        | oof => trivial
        | err => exact this.elim
        | panic => exact this.elim

theorem parseText_fine (fuel : Nat) : ∀ root text st, AllOk w root text → (parseText w fuel root text st).fine := by
  induction fuel with
  | zero => intro _ _ _ _; trivial
  | succ fuel ih =>
    intro root text st hok
    obtain ⟨⟨items, hp, hinv, hpan, himp⟩, hreach⟩ := hok
    simp only [parseText, hp]
    refine runItems_fine root items (fun i p h1 h2 h3 => ?_) hinv hpan himp _ _
    have hI : ImportsFile w root text p := ⟨items, i, hp, h1, h2, h3⟩
    obtain ⟨t, ht, htok⟩ := hreach p (.direct hI)
    exact ⟨t, ht, fun st => ih p t st ⟨htok, fun p' hp' => hreach p' (.step hI ht hp')⟩⟩

end
end Pest3.Load
