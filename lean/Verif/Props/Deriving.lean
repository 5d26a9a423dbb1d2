import Verif.DeriveLemmas
import Verif.Props.Files
import Verif.ItemLemmas

/-!
# C71: the derive macro generates the parser that the attributes ask for
-/

namespace Pest3.Props
open Pest3 Pest3.Gen Pest3.Load

/-- The attributes of a declaration are accepted exactly if each is written as it has to be and there is a grammar; the grammars
are taken in the order in which they are given, and of several values for an option the last one counts. -/
theorem C71_attributes (ident : Text → Bool) (attrs : List Attr) (sources : List Source) (o : Options) :
    parseDerive ident attrs = .ok (sources, o) ↔ (∀ a ∈ attrs, Understood ident a) ∧ sources = attrs.filterMap sourceOf ∧ sources ≠ [] ∧
      (o.noPair = true ↔ IsSet "no_pair".toList attrs) ∧ (o.noSpan = true ↔ IsSet "no_span".toList attrs) ∧
      (o.noWarnings = true ↔ IsSet "no_warnings".toList attrs) ∧ (o.boxOnlyIfNeeded = true ↔ IsSet "box_all_rules".toList attrs) ∧
      o.noGetter = false ∧ ∀ s, o.rulesMod = some s ↔ lastArg "rules_mod".toList attrs = some (.str s) := by
  have flag : ∀ (x : Name) (b : Bool), (∀ a ∈ attrs, Understood ident a) →
      x ∈ ["no_pair".toList, "no_span".toList, "no_warnings".toList, "box_all_rules".toList] →
      b = (match lastArg x attrs with | some m => flagOf m | none => false) → (b = true ↔ IsSet x attrs) := by
    intro x b hu hx hb
    subst hb
    unfold IsSet
    cases h : lastArg x attrs with
    | none => simp
    | some m =>
      obtain ⟨b, hf⟩ := (hu _ (lastArg_mem h)).flag x hx rfl
      change IsFlag m b at hf
      simp only [hf.flagOf, Option.some.injEq, exists_eq_left']
      constructor
      · rintro rfl; exact hf
      · intro h'; rw [← hf.flagOf, h'.flagOf]
  have key : ∀ acc, acc = attrs.foldl (fun acc a => effect a acc) ([], Options.default) → (∀ a ∈ attrs, Understood ident a) →
      acc.1 = attrs.filterMap sourceOf ∧
      (acc.2.noPair = true ↔ IsSet "no_pair".toList attrs) ∧ (acc.2.noSpan = true ↔ IsSet "no_span".toList attrs) ∧
      (acc.2.noWarnings = true ↔ IsSet "no_warnings".toList attrs) ∧ (acc.2.boxOnlyIfNeeded = true ↔ IsSet "box_all_rules".toList attrs) ∧
      acc.2.noGetter = false ∧ ∀ s, acc.2.rulesMod = some s ↔ lastArg "rules_mod".toList attrs = some (.str s) := by
    intro acc hacc hu
    refine ⟨by rw [hacc, effects_sources]; rfl, flag _ _ hu (by simp) (by rw [hacc, effects_noPair]; rfl),
      flag _ _ hu (by simp) (by rw [hacc, effects_noSpan]; rfl), flag _ _ hu (by simp) (by rw [hacc, effects_noWarnings]; rfl),
      flag _ _ hu (by simp) (by rw [hacc, effects_box]; rfl), by rw [hacc, effects_noGetter]; rfl, fun s => ?_⟩
    rw [hacc, effects_rulesMod]
    cases h : lastArg "rules_mod".toList attrs with
    | none => simp [Options.default]
    | some m =>
      obtain ⟨s', hm, -, -⟩ := (hu _ (lastArg_mem h)).rulesMod rfl
      change m = .str s' at hm
      subst hm
      simp
  constructor
  · intro h
    obtain ⟨acc, h1, h2⟩ := andThen_ok.mp h
    split at h2
    · cases h2
    rename_i hne
    cases h2
    obtain ⟨hu, he⟩ := parseAttrs_ok.mp h1
    obtain ⟨k1, k⟩ := key _ he hu
    exact ⟨hu, k1, hne, k⟩
  · rintro ⟨hu, hs, hne, p1, p2, p3, p4, p5, p6⟩
    obtain ⟨k1, k2, k3, k4, k5, k6, k7⟩ := key _ rfl hu
    refine andThen_ok.mpr ⟨_, parseAttrs_ok.mpr ⟨hu, rfl⟩, ?_⟩
    rw [if_neg (by rw [k1, ← hs]; exact hne)]
    congr 1
    refine Prod.ext (by rw [k1, hs]) ?_
    dsimp only
    generalize (attrs.foldl (fun acc a => effect a acc) ([], Options.default)).2 = o' at *
    obtain ⟨a1, a2, a3, a4, a5, a6⟩ := o
    obtain ⟨b1, b2, b3, b4, b5, b6⟩ := o'
    dsimp only at *
    have e1 := Bool.eq_iff_iff.mpr (k2.trans p1.symm)
    have e2 := Bool.eq_iff_iff.mpr (k3.trans p2.symm)
    have e3 := Bool.eq_iff_iff.mpr (k4.trans p3.symm)
    have e4 := Bool.eq_iff_iff.mpr (k5.trans p4.symm)
    have e6 : b6 = a6 := Option.ext fun s => (k7 s).trans (p6 s).symm
    subst e1 e2 e3 e4 e6 p5 k6
    rfl

/-- The attribute contains a grammar. -/
def givesGrammar (a : Attr) : Bool := a.name = some "grammar".toList || a.name = some "grammar_inline".toList

theorem sources_filter (l : List Attr) : l.filterMap sourceOf = (l.filter givesGrammar).filterMap sourceOf := by
  induction l with
  | nil => rfl
  | cons a l ih =>
    cases h : givesGrammar a with
    | true => rw [List.filter_cons_of_pos h, List.filterMap_cons, List.filterMap_cons, ih]
    | false =>
      rw [List.filter_cons_of_neg (by simp [h]), List.filterMap_cons, ih]
      have : sourceOf a = none := by
        simp only [givesGrammar, Bool.or_eq_false_iff, decide_eq_false_iff_not] at h
        unfold sourceOf
        split
        · rw [if_neg h.1, if_neg h.2]
        · rfl
      rw [this]

theorem lastArg_filter (x : Name) (l : List Attr) : lastArg x l = lastArg x (l.filter fun a => a.name = some x) := by
  induction l with
  | nil => rfl
  | cons a l ih =>
    by_cases h : a.name = some x
    · rw [List.filter_cons_of_pos (by simpa using h), lastArg_cons, lastArg_cons, ih]
    · rw [List.filter_cons_of_neg (by simpa using h), lastArg_cons, if_neg h, ih, Option.or_none]

/-- The options that the generated code depends on. -/
def usedOptions : List Name := ["no_pair".toList, "box_all_rules".toList, "rules_mod".toList]
/-- The options that are read, but that nothing depends on. -/
def unusedOptions : List Name := ["no_span".toList, "no_warnings".toList]

theorem parse_order {ident : Text → Bool} {l l' : List Attr} (hg : l.filter givesGrammar = l'.filter givesGrammar)
    (ho : ∀ x ∈ usedOptions, (l.filter fun a => a.name = some x) = l'.filter fun a => a.name = some x)
    (hu : ∀ a ∈ l', ∀ x ∈ unusedOptions, a.name = some x → ∃ b, IsFlag a.arg b) {sources o}
    (h : parseDerive ident l = .ok (sources, o)) :
    ∃ o', parseDerive ident l' = .ok (sources, o') ∧ o'.config = o.config ∧ o'.noPair = o.noPair := by
  obtain ⟨hu', hs, hne, p1, -, -, p4, p5, p6⟩ := (C71_attributes _ _ _ _).mp h
  have hmem : ∀ x ∈ usedOptions, ∀ a ∈ l', a.name = some x → a ∈ l := by
    intro x hx a ha hn
    have : a ∈ l'.filter fun a => a.name = some x := List.mem_filter.mpr ⟨ha, by simpa using hn⟩
    rw [← ho x hx] at this
    exact (List.mem_filter.mp this).1
  have hall : ∀ a ∈ l', Understood ident a := by
    intro a ha
    refine ⟨fun x hx hn => ?_, fun x hx hn => ?_, fun hn => ?_⟩
    · have h1 : a ∈ l'.filter givesGrammar := by
        refine List.mem_filter.mpr ⟨ha, ?_⟩
        simp only [List.mem_cons, List.not_mem_nil, or_false] at hx
        rcases hx with rfl | rfl
        · simp only [givesGrammar, hn, decide_true, Bool.true_or]
        · simp only [givesGrammar, hn, decide_true, Bool.or_true]
      rw [← hg] at h1
      exact (hu' a (List.mem_filter.mp h1).1).text x hx hn
    · simp only [List.mem_cons, List.not_mem_nil, or_false] at hx
      rcases hx with rfl | rfl | rfl | rfl
      · exact (hu' a (hmem _ (by simp [usedOptions]) a ha hn)).flag _ (by simp) hn
      · exact hu a ha _ (by simp [unusedOptions]) hn
      · exact hu a ha _ (by simp [unusedOptions]) hn
      · exact (hu' a (hmem _ (by simp [usedOptions]) a ha hn)).flag _ (by simp) hn
    · exact (hu' a (hmem _ (by simp [usedOptions]) a ha hn)).rulesMod hn
  have hlast : ∀ x ∈ usedOptions, lastArg x l' = lastArg x l := by
    intro x hx; rw [lastArg_filter x l', lastArg_filter x l, ho x hx]
  have hset : ∀ x ∈ usedOptions, (IsSet x l' ↔ IsSet x l) := by
    intro x hx; simp only [IsSet, hlast x hx]
  classical
  refine ⟨⟨o.noPair, decide (IsSet "no_span".toList l'), decide (IsSet "no_warnings".toList l'), o.boxOnlyIfNeeded, o.noGetter, o.rulesMod⟩,
    (C71_attributes _ _ _ _).mpr ⟨hall, ?_, hne, ?_, decide_eq_true_iff, decide_eq_true_iff, ?_, p5, ?_⟩, rfl, rfl⟩
  · rw [hs, sources_filter l, sources_filter l', hg]
  · exact p1.trans (hset _ (by simp [usedOptions])).symm
  · exact p4.trans (hset _ (by simp [usedOptions])).symm
  · intro t; rw [hlast _ (by simp [usedOptions])]; exact p6 t

/-- Nothing else counts: not how attributes of different kinds are mixed, nor `no_span` and `no_warnings`, nor any other attributes,
such as those for other macros. -/
theorem C71_order (env : Setting) (fuel : Nat) (l l' : List Attr) (hg : l.filter givesGrammar = l'.filter givesGrammar)
    (ho : ∀ x ∈ usedOptions, (l.filter fun a => a.name = some x) = l'.filter fun a => a.name = some x)
    (hu : ∀ a ∈ l ++ l', ∀ x ∈ unusedOptions, a.name = some x → ∃ b, IsFlag a.arg b) : derive env fuel l = derive env fuel l' := by
  unfold derive
  cases h : parseDerive env.ident l with
  | ok r =>
    obtain ⟨sources, o⟩ := r
    obtain ⟨o', h', hc, hp⟩ := parse_order hg ho (fun a ha => hu a (List.mem_append_right _ ha)) h
    rw [h']
    simp only [andThen, hc, hp]
  | oof =>
    rcases andThen_oof.mp h with h | ⟨_, _, h⟩
    · exact absurd h parseAttrs_ne_oof
    · split at h <;> cases h
  | panic =>
    cases h' : parseDerive env.ident l' with
    | ok r =>
      obtain ⟨sources, o⟩ := r
      obtain ⟨o', h', -, -⟩ := parse_order hg.symm (fun x hx => (ho x hx).symm) (fun a ha => hu a (List.mem_append_left _ ha)) h'
      rw [h'] at h; cases h
    | oof =>
      rcases andThen_oof.mp h' with h | ⟨_, _, h⟩
      · exact absurd h parseAttrs_ne_oof
      · split at h <;> cases h
    | panic => rfl

/-- An attribute that the macro does not read, or reads and does not use, changes nothing.  Among them are `no_getter` and
`box_rules_only_if_needed`, which the macro declares. -/
theorem C71_ignored (env : Setting) (fuel : Nat) (pre post : List Attr) (a : Attr) (hg : givesGrammar a = false)
    (ho : ∀ x ∈ usedOptions, a.name ≠ some x) (hu : ∀ b ∈ pre ++ a :: post, ∀ x ∈ unusedOptions, b.name = some x → ∃ v, IsFlag b.arg v) :
    derive env fuel (pre ++ a :: post) = derive env fuel (pre ++ post) := by
  refine C71_order env fuel _ _ ?_ (fun x hx => ?_) (fun b hb => hu b ?_)
  · rw [List.filter_append, List.filter_append, List.filter_cons_of_neg (by simp [hg])]
  · rw [List.filter_append, List.filter_append, List.filter_cons_of_neg (by simpa using ho x hx)]
  · simp only [List.mem_append, List.mem_cons] at hb ⊢
    rcases hb with hb | hb | hb
    · exact hb
    · exact .inl hb
    · exact .inr (.inr hb)

/-! ## The result -/

theorem gathered {env : Setting} {fuel : Nat} : ∀ {l : List Source} {data : List (Text × Option FPath)} {lms : List LMod},
    collectData env l = .ok data → loadData env fuel data = .ok lms → Modules env l (lms.map LMod.module) ∧
      ∀ p, (p ∈ data.filterMap Prod.snd ∨ ∃ m ∈ lms, p ∈ m.deps) ↔ Needed env l p := by
  intro l
  induction l with
  | nil =>
    intro data lms h h'
    cases h; cases h'
    exact ⟨.nil, fun p => by simp [Needed]⟩
  | cons s l ih =>
    intro data lms h h'
    obtain ⟨d, h1, h⟩ := andThen_ok.mp h
    obtain ⟨ds, h2, h⟩ := andThen_ok.mp h
    cases h
    obtain ⟨hgiven, hpath⟩ := readSource_ok h1
    obtain ⟨text, path⟩ := d
    simp only [loadData] at h'
    split at h'
    rotate_left
    · cases h'
    · cases h'
    · cases h'
    rename_i m st hp
    obtain ⟨ms, h3, h'⟩ := andThen_ok.mp h'
    cases h'
    obtain ⟨ih1, ih2⟩ := ih h2 h3
    refine ⟨.cons hgiven (C47_module _ _ _ _ _ _ hp).1 ih1, fun p => ?_⟩
    have hd := C47_dependencies _ _ _ _ _ _ hp p
    have ih2 := ih2 p
    dsimp only at hgiven hpath hd
    constructor
    · rintro (h | ⟨m', hm', h⟩)
      · rw [List.filterMap_cons] at h
        cases path with
        | none => 
          rcases ih2.mp (.inl h) with ⟨q, hq, e⟩ | ⟨s', hs', r⟩
          · exact .inl ⟨q, List.mem_cons_of_mem _ hq, e⟩
          · exact .inr ⟨s', List.mem_cons_of_mem _ hs', r⟩
        | some p' =>
          rcases List.mem_cons.mp h with rfl | h
          · obtain ⟨q, rfl, e⟩ := (hpath p).mp rfl
            exact .inl ⟨q, List.mem_cons_self, e⟩
          rcases ih2.mp (.inl h) with ⟨q, hq, e⟩ | ⟨s', hs', r⟩
          · exact .inl ⟨q, List.mem_cons_of_mem _ hq, e⟩
          · exact .inr ⟨s', List.mem_cons_of_mem _ hs', r⟩
      · rcases List.mem_cons.mp hm' with rfl | hm'
        · exact .inr ⟨s, List.mem_cons_self, _, _, hgiven, hd.mp h⟩
        · rcases ih2.mp (.inr ⟨m', hm', h⟩) with ⟨q, hq, e⟩ | ⟨s', hs', r⟩
          · exact .inl ⟨q, List.mem_cons_of_mem _ hq, e⟩
          · exact .inr ⟨s', List.mem_cons_of_mem _ hs', r⟩
    · have lift : (p ∈ ds.filterMap Prod.snd ∨ ∃ m ∈ ms, p ∈ m.deps) →
          p ∈ ((text, path) :: ds).filterMap Prod.snd ∨ ∃ m' ∈ m :: ms, p ∈ m'.deps := by
        rintro (hx | ⟨m', hm', hx⟩)
        · refine .inl ?_
          rw [List.filterMap_cons]
          cases path with
          | none => exact hx
          | some p' => exact List.mem_cons_of_mem _ hx
        · exact .inr ⟨m', List.mem_cons_of_mem _ hm', hx⟩
      rintro (⟨q, hq, e⟩ | ⟨s', hs', root', t', hg', hr⟩)
      · rcases List.mem_cons.mp hq with e' | hq
        · refine .inl ?_
          have := (hpath p).mpr ⟨q, e'.symm, e⟩
          subst this
          simp
        · exact lift (ih2.mpr (.inl ⟨q, hq, e⟩))
      · rcases List.mem_cons.mp hs' with rfl | hs'
        · obtain ⟨rfl, rfl⟩ := given_det hgiven hg'
          exact .inr ⟨m, List.mem_cons_self, hd.mpr hr⟩
        · exact lift (ih2.mpr (.inr ⟨s', hs', root', t', hg', hr⟩))

theorem gathers {env : Setting} {l : List Source} {ms : List Module} (h : Modules env l ms) :
    ∃ N, ∀ fuel, N ≤ fuel → ∃ data lms, collectData env l = .ok data ∧ loadData env fuel data = .ok lms ∧ lms.map LMod.module = ms := by
  induction h with
  | nil => exact ⟨0, fun fuel _ => ⟨[], [], rfl, rfl, rfl⟩⟩
  | @cons s root t m l ms hg hl _ ih =>
    obtain ⟨N, ih⟩ := ih
    obtain ⟨N', hN⟩ := loads_run hl
    obtain ⟨p, hr, rfl⟩ := given_read hg
    refine ⟨max N N', fun fuel hf => ?_⟩
    obtain ⟨data, lms, h1, h2, h3⟩ := ih fuel (by omega)
    obtain ⟨lm, st, h4, h5⟩ := hN fuel (by omega) ⟨[], []⟩ (goodSt_nil _)
    refine ⟨(t, p) :: data, lm :: lms, ?_, ?_, by rw [List.map_cons, h3, h5]⟩
    · simp only [collectData, hr, h1, andThen]
    · simp only [loadData, parseGrammar, h4, h2, andThen]

theorem joined_module (lms : List LMod) : (joinModules lms).module = united (lms.map LMod.module) := by
  obtain ⟨h1, h2, -⟩ := C47_joined lms
  simp only [LMod.module, united, h1, h2, List.flatMap_map]
  rfl

/-- What the macro generates is what is generated for all the rules and imports of the given grammars in order, with the given
options; and the code includes exactly the files that the grammar was read from, so that a change in any of them is noticed.

This is less than what the attributes promise: some that the macro declares have no effect (`C71_ignored`, `C71_boxed`,
`C71_unused_witness`), and one does the opposite of what its name says (`C71_inverted_witness`). -/
theorem C71_result_partial (env : Setting) (fuel : Nat) (attrs : List Attr) (d : Derived) (h : derive env fuel attrs = .ok d) :
    ∃ ms cfg, Modules env (attrs.filterMap sourceOf) ms ∧ generateTyped cfg env.unicodeNames fuel (united ms) = .ok d.code ∧
      (d.noPair = true ↔ IsSet "no_pair".toList attrs) ∧ (cfg.boxOnlyIfNeeded = true ↔ IsSet "box_all_rules".toList attrs) ∧
      cfg.noGetter = false ∧ (∀ s, cfg.rulesMod = some s ↔ lastArg "rules_mod".toList attrs = some (.str s)) ∧
      ∀ p, p ∈ d.includes ↔ ∃ q, Needed env (attrs.filterMap sourceOf) q ∧ p = env.cwd.join q := by
  obtain ⟨⟨sources, o⟩, h1, h⟩ := andThen_ok.mp h
  obtain ⟨data, h2, h⟩ := andThen_ok.mp h
  obtain ⟨lms, h3, h⟩ := andThen_ok.mp h
  obtain ⟨code, h4, h⟩ := andThen_ok.mp h
  cases h
  obtain ⟨-, rfl, -, p1, -, -, p4, p5, p6⟩ := (C71_attributes _ _ _ _).mp h1
  obtain ⟨g1, g2⟩ := gathered h2 h3
  refine ⟨_, o.config, g1, by rw [← joined_module]; exact h4, p1, p4, p5, p6, fun p => ?_⟩
  dsimp only
  simp only [List.mem_map, List.mem_append, (C47_joined lms).2.2, g2]
  constructor
  · rintro ⟨q, hq, rfl⟩; exact ⟨q, hq, rfl⟩
  · rintro ⟨q, hq, rfl⟩; exact ⟨q, hq, rfl⟩

/-- And it generates it: if every attribute is written as it has to be, there is a grammar, and all the grammars can be loaded, then the
macro gives what is generated for them. -/
theorem C71_succeeds (env : Setting) (attrs : List Attr) (ms : List Module) (cfg : Config) (n : Nat) (code : Output × GenSt)
    (hu : ∀ a ∈ attrs, Understood env.ident a) (hne : attrs.filterMap sourceOf ≠ []) (hm : Modules env (attrs.filterMap sourceOf) ms)
    (hb : cfg.boxOnlyIfNeeded = true ↔ IsSet "box_all_rules".toList attrs) (hg : cfg.noGetter = false)
    (hr : ∀ s, cfg.rulesMod = some s ↔ lastArg "rules_mod".toList attrs = some (.str s))
    (hc : generateTyped cfg env.unicodeNames n (united ms) = .ok code) :
    ∃ N, ∀ fuel, N ≤ fuel → ∃ d, derive env fuel attrs = .ok d ∧ d.code = code := by
  obtain ⟨N, hN⟩ := gathers hm
  refine ⟨max N n, fun fuel hf => ?_⟩
  obtain ⟨data, lms, h1, h2, h3⟩ := hN fuel (by omega)
  classical
  have hp : parseDerive env.ident attrs = .ok (attrs.filterMap sourceOf, ⟨decide (IsSet "no_pair".toList attrs), decide (IsSet "no_span".toList attrs),
      decide (IsSet "no_warnings".toList attrs), cfg.boxOnlyIfNeeded, cfg.noGetter, cfg.rulesMod⟩) :=
    (C71_attributes _ _ _ _).mpr ⟨hu, rfl, hne, decide_eq_true_iff, decide_eq_true_iff, decide_eq_true_iff, hb, hg, hr⟩
  have h4 := generateTyped_more (fuel' := fuel) (by omega) hc
  exact ⟨⟨(data.filterMap Prod.snd ++ (joinModules lms).deps).map env.cwd.join, decide (IsSet "no_pair".toList attrs), code⟩,
    andThen_ok.mpr ⟨_, hp, andThen_ok.mpr ⟨_, h1, andThen_ok.mpr ⟨_, h2, andThen_ok.mpr ⟨code, by rw [joined_module, h3]; exact h4, rfl⟩⟩⟩⟩, rfl⟩

/-- All the grammars can be loaded exactly if all files can be read, are grammars, and do not import themselves. -/
theorem C71_loads (env : Setting) (l : List Source) : (∃ ms, Modules env l ms) ↔ ∀ s ∈ l, Available env s := by
  constructor
  · rintro ⟨ms, h⟩
    induction h with
    | nil => intro s hs; cases hs
    | @cons s root t m l ms hg hl _ ih =>
      intro s' hs'
      rcases List.mem_cons.mp hs' with rfl | hs'
      · exact ⟨root, t, hg, loads_ok hl, loads_acc hl⟩
      · exact ih s' hs'
  · intro h
    induction l with
    | nil => exact ⟨[], .nil⟩
    | cons s l ih =>
      obtain ⟨root, t, hg, hok, hacc⟩ := h s List.mem_cons_self
      obtain ⟨ms, hms⟩ := ih fun s' hs' => h s' (List.mem_cons_of_mem _ hs')
      obtain ⟨m, hm⟩ := loads_exists.loads_step hok fun q hq t ht htok => loads_exists q (hacc q hq) t ht htok
      exact ⟨m :: ms, .cons hg hm hms⟩

/-- A file is looked for in the directory of the package, then in the directory `src` in it; an absolute path is taken as it is. -/
theorem C71_file (env : Setting) (hroot : env.root.abs = true ∨ env.root.comps ≠ []) (l : List Name) (hl : l ≠ [])
    (h : ∀ a ∈ l, a ≠ [] ∧ a ≠ ['.'] ∧ '/' ∉ a) :
    (env.exist ⟨env.root.abs, env.root.comps ++ l⟩ = true → env.locate (slashed l) = ⟨env.root.abs, env.root.comps ++ l⟩) ∧
    (env.exist ⟨env.root.abs, env.root.comps ++ l⟩ = false →
      env.locate (slashed l) = ⟨env.root.abs, env.root.comps ++ "src".toList :: l⟩) ∧
    env.locate ('/' :: slashed l) = ⟨true, l⟩ := by
  obtain ⟨a, l, rfl⟩ := List.exists_cons_of_ne_nil hl
  have hf : ∀ l : List Name, (∀ a ∈ l, a ≠ [] ∧ a ≠ ['.'] ∧ '/' ∉ a) → (l.filter fun x => x ≠ [] && x ≠ ['.']) = l := fun l h =>
    List.filter_eq_self.mpr fun x hx => by simp [(h x hx).1, (h x hx).2.1]
  have hd : ((a :: l).filter fun x => x ≠ dot) = a :: l := List.filter_eq_self.mpr fun x hx => decide_eq_true (h x hx).2.1
  have hp : pathOf (slashed (a :: l)) = ⟨false, a :: l⟩ := by
    rw [(C67_path (l := l) fun x hx => (h x (List.mem_cons_of_mem _ hx)).2.2).2 a (h a List.mem_cons_self).1 (h a List.mem_cons_self).2.2,
      hf l fun x hx => h x (List.mem_cons_of_mem _ hx)]
  have hp' : pathOf ('/' :: slashed (a :: l)) = ⟨true, a :: l⟩ := by
    rw [(C67_path (l := a :: l) fun x hx => (h x hx).2.2).1 (by simp), hf _ h]
  have hroot' : ¬ (env.root.abs = false ∧ env.root.comps = []) := by
    rintro ⟨h1, h2⟩
    rcases hroot with h | h
    · rw [h1] at h; cases h
    · exact h h2
  have hj : ∀ c : List Name, c ≠ [] → (c.filter fun x => x ≠ dot) = c →
      env.root.join ⟨false, c⟩ = ⟨env.root.abs, env.root.comps ++ c⟩ := by
    intro c _ hc
    simp only [FPath.join, Bool.false_eq_true, if_false, if_neg hroot', hc]
  have hs : pathOf "src/".toList = ⟨false, ["src".toList]⟩ := by decide
  have hj2 : (env.root.join (pathOf "src/".toList)).join ⟨false, a :: l⟩ = ⟨env.root.abs, env.root.comps ++ "src".toList :: a :: l⟩ := by
    rw [hs, hj _ (by simp) (by decide)]
    simp only [FPath.join, Bool.false_eq_true, if_false, hd]
    rw [if_neg (by rintro ⟨_, h⟩; simp at h)]
    simp
  refine ⟨fun he => ?_, fun he => ?_, ?_⟩
  · unfold Setting.locate
    rw [hp, hj _ (by simp) hd, if_pos he]
  · unfold Setting.locate
    rw [hp, hj _ (by simp) hd, if_neg (by simp [he]), hj2]
  · unfold Setting.locate
    rw [hp']
    simp [FPath.join]

/-- The directory of the package is what the environment says, and the current directory otherwise. -/
theorem C71_root (env : Setting) : (env.manifestDir = none → env.root = ⟨false, [['.']]⟩) ∧
    ∀ l : List Name, l ≠ [] → (∀ a ∈ l, a ≠ [] ∧ a ≠ ['.'] ∧ '/' ∉ a) → env.manifestDir = some ('/' :: slashed l) → env.root = ⟨true, l⟩ := by
  refine ⟨fun h => ?_, fun l hl h hd => ?_⟩
  · rw [Setting.root, h]
    decide
  · rw [Setting.root, hd]
    show pathOf ('/' :: slashed l) = _
    rw [(C67_path (l := l) fun x hx => (h x hx).2.2).1 hl, List.filter_eq_self.mpr fun x hx => by simp [(h x hx).1, (h x hx).2.1]]

/-- With the attributes that the macro declares, the content of every rule is boxed, whatever `box_rules_only_if_needed` says. -/
theorem C71_boxed (env : Setting) (fuel : Nat) (attrs : List Attr) (d : Derived) (h : derive env fuel attrs = .ok d)
    (hd : ∀ a ∈ attrs, ∀ x, a.name = some x → x ∈ declared) :
    ∀ p o, outAt d.code.1 p = some o → ∀ s ∈ o.content, s.boxed = true := by
  obtain ⟨ms, cfg, -, hg, -, hb, -⟩ := C71_result_partial env fuel attrs d h
  have hcfg : cfg.boxOnlyIfNeeded = false := by
    rw [← Bool.not_eq_true]
    intro hx
    obtain ⟨m, hm, -⟩ := hb.mp hx
    have := hd _ (lastArg_mem hm) _ rfl
    simp [declared] at this
  obtain ⟨m', -, hg⟩ := andThen_ok.mp hg
  obtain ⟨⟨⟨out, sys⟩, st⟩, hm, hg⟩ := andThen_ok.mp hg
  have hc := processModule_gen m' _ _ _ _ hm
  rw [← Res.ok.inj hg]
  intro p o ho
  obtain ⟨m1, sys1, st1, st2, hmod, -⟩ := genMod_out p hc ho
  cases hmod with
  | @mk rules imports outs sys2 sys' reach content opt man st st1 st2 _ _ _ hr =>
    have := processRuleList_gen _ _ _ _ _ hr
    have key : ∀ {rules o o' st st'}, GenRules cfg reach sys1 rules o o' st st' → (∀ s ∈ o.1, s.boxed = true) → ∀ s ∈ o'.1, s.boxed = true := by
      intro rules o o' st st' h
      induction h with
      | nil => exact id
      | opt _ _ _ ih => exact ih
      | man _ _ _ ih => exact ih
      | rule _ _ _ _ ih =>
        intro h0
        refine ih fun s hs => ?_
        rcases List.mem_append.mp hs with hs | hs
        · exact h0 s hs
        · cases List.mem_singleton.mp hs
          simp [ruleBoxed, hcfg]
    exact key this (by simp)

/-! ## Examples and witnesses -/

/-- A package at `/p` with the grammar `/p/src/g.pest`, which imports `/p/src/h.pest`; the texts are single letters. -/
private def package : Setting where
  manifestDir := some "/p".toList
  cwd := ⟨true, ["w".toList]⟩
  exist p := p = ⟨true, ["p".toList, "src".toList, "g.pest".toList]⟩
  ident s := s = "parser".toList
  unicodeNames := []
  world :=
    { read := fun p =>
        if p = ⟨true, ["p".toList, "src".toList, "g.pest".toList]⟩ then some ['g']
        else if p = ⟨true, ["p".toList, "src".toList, "h.pest".toList]⟩ then some ['h'] else none
      parse := fun t =>
        if t = ['g'] then some [.imp ⟨[['h']], none, none⟩, .rule ⟨['a'], [], .path [['h'], ['b']], false⟩]
        else if t = ['h'] then some [.rule ⟨['b'], [], .str ['x'], false⟩]
        else if t = ['i'] then some [.rule ⟨['c'], [], .path [['a']], true⟩] else none }

private def attr (x : String) (m : AttrMeta) : Attr := ⟨some x.toList, m⟩

private def declaration : List Attr :=
  [attr "doc" (.str ['?']), attr "no_pair" .path, attr "grammar" (.str "g.pest".toList), attr "no_pair" (.bool false),
   attr "grammar_inline" (.str ['i']), attr "rules_mod" (.str "parser".toList)]

/-- Both grammars are found, the first in `src`; the file imported by the first is included as well. -/
example : (match derive package 9 declaration with
    | .ok d => d.includes == [⟨true, ["p".toList, "src".toList, "g.pest".toList]⟩, ⟨true, ["p".toList, "src".toList, "h.pest".toList]⟩] &&
        !d.noPair && d.code.1.content.map (fun s => (s.name, s.silent)) == [(['a'], false), (['c'], true)]
    | _ => false) = true := by decide +kernel

private theorem ok_of {α : Type} {r : Res α} {P : α → Bool} (h : (match r with | .ok a => P a | _ => false) = true) :
    ∃ a, r = .ok a ∧ P a = true := by
  cases r with
  | ok a => exact ⟨a, rfl, h⟩
  | panic => cases h
  | oof => cases h

example : ∃ d, derive package 9 declaration = .ok d ∧ ∀ s ∈ declaration.filterMap sourceOf, Available package s := by
  obtain ⟨d, h, -⟩ := ok_of (r := derive package 9 declaration) (P := fun _ => true) (by decide +kernel)
  obtain ⟨ms, cfg, hm, -⟩ := C71_result_partial _ _ _ _ h
  exact ⟨d, h, (C71_loads _ _).mp ⟨ms, hm⟩⟩

example : package.locate "g.pest".toList = ⟨true, ["p".toList, "src".toList, "g.pest".toList]⟩ :=
  (C71_file package (.inl (by decide)) ["g.pest".toList] (by simp) (by decide)).2.1 (by decide)

example : package.root = ⟨true, ["p".toList]⟩ := (C71_root package).2 ["p".toList] (by simp) (by decide) (by decide)

/-- Without a grammar the attributes are not accepted, nor with a grammar that is not a string. -/
example : parseDerive package.ident [attr "no_pair" .path] = .panic ∧ parseDerive package.ident [attr "grammar" .path] = .panic ∧
    parseDerive package.ident [attr "grammar" (.str ['g']), attr "rules_mod" (.str "1".toList)] = .panic := by decide

/-- The macro declares `no_getter` and `box_rules_only_if_needed`.  Here both are set, the rule `a` has an accessor, and it is
boxed although it does not need to be. -/
theorem C71_unused_witness : "no_getter".toList ∈ declared ∧ "box_rules_only_if_needed".toList ∈ declared ∧
    ∃ (env : Setting) (fuel : Nat) (attrs : List Attr) (d : Derived), IsSet "no_getter".toList attrs ∧
      IsSet "box_rules_only_if_needed".toList attrs ∧ derive env fuel attrs = .ok d ∧
      d.code.1.content.any (fun s => s.boxed && !s.getter.isEmpty) = true ∧
      ∃ cfg r, cfg.boxOnlyIfNeeded = true ∧ generateTyped cfg env.unicodeNames fuel (.mk [⟨['a'], [], .path [['h'], ['b']], false⟩]
        [.file ['h'] (.mk [⟨['b'], [], .str ['x'], false⟩] [])]) = .ok r ∧ r.1.content.all (fun s => !s.boxed) = true := by
  refine ⟨by simp [declared], by simp [declared], package, 9,
    [attr "grammar" (.str "g.pest".toList), attr "no_getter" .path, attr "box_rules_only_if_needed" .path], ?_⟩
  obtain ⟨d, h, hp⟩ := ok_of (r := derive package 9 [attr "grammar" (.str "g.pest".toList), attr "no_getter" .path,
    attr "box_rules_only_if_needed" .path]) (P := fun d => d.code.1.content.any (fun s => s.boxed && !s.getter.isEmpty)) (by decide +kernel)
  obtain ⟨r, h', hp'⟩ := ok_of (r := generateTyped ⟨true, true, none⟩ package.unicodeNames 9 (.mk [⟨['a'], [], .path [['h'], ['b']], false⟩]
        [.file ['h'] (.mk [⟨['b'], [], .str ['x'], false⟩] [])])) (P := fun r => r.1.content.all fun s => !s.boxed) (by decide +kernel)
  exact ⟨d, ⟨_, by decide, .plain⟩, ⟨_, by decide, .plain⟩, h, hp, ⟨true, true, none⟩, r, rfl, h', hp'⟩

/-- The macro reads `box_all_rules`, which it does not declare; set, it makes that rules are *not* boxed. -/
theorem C71_inverted_witness : "box_all_rules".toList ∉ declared ∧
    ∃ (env : Setting) (fuel : Nat) (attrs : List Attr) (d : Derived), IsSet "box_all_rules".toList attrs ∧
      derive env fuel attrs = .ok d ∧ d.code.1.content.any (fun s => !s.boxed) = true := by
  refine ⟨by simp [declared], package, 9, [attr "grammar" (.str "g.pest".toList), attr "box_all_rules" .path], ?_⟩
  obtain ⟨d, h, hp⟩ := ok_of (r := derive package 9 [attr "grammar" (.str "g.pest".toList), attr "box_all_rules" .path])
    (P := fun d => d.code.1.content.any fun s => !s.boxed) (by decide +kernel)
  exact ⟨d, ⟨_, by decide, .plain⟩, h, hp⟩

end Pest3.Props
