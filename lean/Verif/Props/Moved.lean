import Verif.MovedCases
import Verif.Props.GrammarErrors

/-!
# C84: where rules are written, and what they are called, does not matter
-/

namespace Pest3.Props
open Pest3 Pest3.Gen Pest3.Load

/-! ## Grammars -/

/-- If all rules of two grammars that are related have the same expressions up to references, which are to rules that are related, then rules that are related match
the same, leave the same on the stack, show the same tokens up to the labels, and try the same things in the same places. -/
theorem C84_grammar {u : Unicode} {root root' : Module} {B : List Name → Rule → List Name → Rule → Prop} (H : Corresponds u root root' B) {g : RuleVal → RuleVal}
    (hg : ∀ a a', LabelLike B a a' → a' = g a) {p p' : List Name} {r r' : Rule} (hb : B p r p' r') (ha : r.args = []) :
    (∀ c o, Meaning u root (.expr (.mk p [] r.node)) c o ↔ Meaning u root' (.expr (.mk p' [] r'.node)) c o) ∧
    (∀ c c' F', Shows u root' (.expr (.mk p' [] r'.node)) c c' F' ↔ ∃ F, Shows u root (.expr (.mk p [] r.node)) c c' F ∧ F' = Pair.converts g F) ∧
    ∀ rank rank' : RuleVal → Label, (∀ p x, rank' (g (ruleAt p x)) = rank (ruleAt p x)) → rank .eoi = rank' .eoi → ∀ inp b es,
      FullTries u root rank p r inp b es ↔ FullTries u root' rank' p' r' inp b es :=
  ⟨meaning_iff H hb ha, shows_iff H hg hb ha, fun rank rank' hr he => fullTries_iff_like H (fun a a' h => by
    rw [hg a a' h]; obtain ⟨p, r, _, _, -, rfl, -⟩ := h; exact (hr p r.name).symm) he hb ha⟩

/-- The rules of a grammar that is imported, seen from the one that imports it, directly or not: `p0` is the path of names of imports. -/
theorem C84_import_grammar {u : Unicode} {root root' : Module} {p0 : List Name} (hn : AllNamed u root) (h0 : modAt root' p0 = some root) (p : List Name) {r : Rule} (ha : r.args = []) :
    (∀ c o, Meaning u root (.expr (.mk p [] r.node)) c o ↔ Meaning u root' (.expr (.mk (p0 ++ p) [] r.node)) c o) ∧
    (∀ c c' F', Shows u root' (.expr (.mk (p0 ++ p) [] r.node)) c c' F' ↔ ∃ F, Shows u root (.expr (.mk p [] r.node)) c c' F ∧ F' = Pair.converts (RuleVal.under p0) F) :=
  have h := C84_grammar (imported hn h0) (g := RuleVal.under p0) (by rintro _ _ ⟨p, r, _, _, ⟨rfl, rfl⟩, rfl, rfl⟩; exact ruleAt_under p0 p _) (p := p) (r := r) ⟨rfl, rfl⟩ ha
  ⟨h.1, h.2.1⟩

/-- Adding rules and imports, and changing the order of rules and imports, leaves the rules there are as they are. -/
theorem C84_extension_grammar {u : Unicode} {root root' : Module} (hn' : AllNamed u root') (hs : AllScoped u root) (hs' : AllScoped u root') (he : Extends root root') {p : List Name}
    {m : Module} {r : Rule} (hp : modAt root p = some m) (hr : r ∈ m.rules) (ha : r.args = []) :
    (∀ c o, Meaning u root (.expr (.mk p [] r.node)) c o ↔ Meaning u root' (.expr (.mk p [] r.node)) c o) ∧
    ∀ c c' F, Shows u root' (.expr (.mk p [] r.node)) c c' F ↔ Shows u root (.expr (.mk p [] r.node)) c c' F := by
  have h := C84_grammar (kept hn' hs hs' he) (g := id) (by rintro _ _ ⟨p, r, _, _, ⟨rfl, rfl, -⟩, rfl, rfl⟩; rfl) (p := p) (r := r) ⟨rfl, rfl, m, hp, hr⟩ ha
  refine ⟨h.1, fun c c' F => (h.2.1 c c' F).trans ⟨?_, fun k => ⟨F, k, (converts_id F).symm⟩⟩⟩
  rintro ⟨F1, k, rfl⟩
  rwa [converts_id]

/-- Other names for the rules of the top module, and their parameters. -/
theorem C84_renaming_grammar {u : Unicode} {f : Name → Name} {root : Module} (hn : AllNamed u root) (hf : Renames f root) {r : Rule} (ha : r.args = []) :
    (∀ c o, Meaning u root (.expr (.mk [] [] r.node)) c o ↔ Meaning u (renameModule f root) (.expr (.mk [] [] (renameExpr f r.node))) c o) ∧
    (∀ c c' F', Shows u (renameModule f root) (.expr (.mk [] [] (renameExpr f r.node))) c c' F' ↔
      ∃ F, Shows u root (.expr (.mk [] [] r.node)) c c' F ∧ F' = Pair.converts (RuleVal.renamed f) F) :=
  have h := C84_grammar (renamed hn hf) (g := RuleVal.renamed f) (by rintro _ _ ⟨p, r, _, _, ⟨rfl, rfl⟩, rfl, rfl⟩; exact ruleAt_renamed) (p := []) (r := r)
    (r' := renameRule f r) ⟨rfl, by simp⟩ ha
  ⟨h.1, h.2.1⟩

/-! ## Parsers -/

/-- The macro generates `d` for the grammar of the modules `ms`; `e` is the program, in which the structs are found by `R`, and the values of the enumeration
are numbered by `rank`, with inverse `lab`. -/
structure Derives (env : Setting) (attrs : List Attr) (ms : List Module) (table : Name → Char → Bool) (d : Derived) (R : Layout) (e : Env) (rank : RuleVal → Label) (lab : Label → RuleVal) : Prop where
  derive : ∃ fuel, derive env fuel attrs = .ok d
  modules : Modules env (attrs.filterMap sourceOf) ms
  silent : ∀ x, ¬ SilentName (united ms) x
  named : AllNamed (unicodeOf env.unicodeNames table) (united ms)
  linked : Linked (unicodeOf env.unicodeNames table) d.code.1 d.code.2.wrappers R e
  ranks : Ranks rank
  numbered : Numbered d.code.1 R e rank
  labels : ∀ v, lab (rank v) = v

/-- The parsers do the same, up to the labels: they accept, reject and run forever on the same texts; the trees of tokens are the same up to the labels; and so are the errors. -/
structure DoTheSame {S : Type} (so : StackOps S) (e e' : Env) (s s' : RuleId) (lab lab' : Label → RuleVal) (g : RuleVal → RuleVal) (silent : Bool) (inp : Str) : Prop where
  accept : (∃ n t, tryParse so e n (.rule s) inp = .ok (.ok t)) ↔ ∃ n t, tryParse so e' n (.rule s') inp = .ok (.ok t)
  reject : (∃ n trk, tryParse so e n (.rule s) inp = .ok (.error trk)) ↔ ∃ n trk, tryParse so e' n (.rule s') inp = .ok (.error trk)
  run : (∀ n, tryParse so e n (.rule s) inp = .oof) ↔ ∀ n, tryParse so e' n (.rule s') inp = .oof
  tokens : silent = false → ∀ n n' t t', tryParse so e n (.rule s) inp = .ok (.ok t) → tryParse so e' n' (.rule s') inp = .ok (.ok t') →
    ∃ P, t.asPairTree e lab = some P ∧ t'.asPairTree e' lab' = some (P.convert g)

theorem Derives.labelled {env attrs ms table d R e rank lab} (h : Derives env attrs ms table d R e rank lab) : Labelled d.code.1 R e lab := by
  intro p o s ts h1 h2 h3
  rw [h.numbered p o s ts h1 h2 h3, h.labels]

theorem Derives.scoped {env attrs ms table d R e rank lab} (h : Derives env attrs ms table d R e rank lab) : AllScoped (unicodeOf env.unicodeNames table) (united ms) := by
  obtain ⟨fuel, hd⟩ := h.derive
  exact ((C75_accepted h.modules h.silent h.named).mp ⟨fuel, d, hd⟩).2.2

/-- There is always such a program, if trivia rules do not use themselves. -/
theorem C84_exists {env : Setting} {attrs : List Attr} {ms : List Module} {table : Name → Char → Bool} {fuel : Nat} {d : Derived} (h : derive env fuel attrs = .ok d)
    (hm : Modules env (attrs.filterMap sourceOf) ms) (hs : ∀ x, ¬ SilentName (united ms) x) (hn : AllNamed (unicodeOf env.unicodeNames table) (united ms))
    (ha : ∀ m', ModIn m' (united ms) → TriviaAcyclic m') {rank : RuleVal → Label} (hr : Ranks rank) :
    ∃ R e lab, Derives env attrs ms table d R e rank lab := by
  obtain ⟨R, e, h1, h2⟩ := (C81_parser (table := table) ideal_lawful h hm hs hn hr).1 ha
  obtain ⟨lab, -, h3⟩ := labelled_of hr h2
  exact ⟨R, e, lab, ⟨⟨fuel, h⟩, hm, hs, hn, h1, hr, h2, h3⟩⟩

section
variable {S : Type} {so : StackOps S} {saved : S → List (List Span)} (hls : Lawful so saved) {env env' : Setting} {attrs attrs' : List Attr} {ms ms' : List Module}
  {table : Name → Char → Bool} {d d' : Derived} {R R' : Layout} {e e' : Env} {rank rank' : RuleVal → Label} {lab lab' : Label → RuleVal}
  (D : Derives env attrs ms table d R e rank lab) (D' : Derives env' attrs' ms' table d' R' e' rank' lab') (hu : env'.unicodeNames = env.unicodeNames)
include hls D D' hu

/-- Parsers generated for grammars whose rules correspond do the same on all texts; and, where both numberings agree, give the same error. -/
theorem C84_parser {B : List Name → Rule → List Name → Rule → Prop} (H : Corresponds (unicodeOf env.unicodeNames table) (united ms) (united ms') B) {g : RuleVal → RuleVal}
    (hg : ∀ a a', LabelLike B a a' → a' = g a) {p p' : List Name} {r r' : Rule} {m m' : Module} (hb : B p r p' r') (hp : modAt (united ms) p = some m) (hr : r ∈ m.rules)
    (hp' : modAt (united ms') p' = some m') (hr' : r' ∈ m'.rules) (ho : r.name ≠ optName) (hman : r.name ≠ manName) (ho' : r'.name ≠ optName) (hman' : r'.name ≠ manName)
    (ha : r.args = []) (inp : Str) :
    DoTheSame so e e' (R.num p r.name []) (R'.num p' r'.name []) lab lab' g r.silent inp ∧
    ((∀ p x, rank' (g (ruleAt p x)) = rank (ruleAt p x)) → ∀ n n' t t', tryParse so e n (.rule (R.num p r.name [])) inp = .ok (.error t) →
      tryParse so e' n' (.rule (R'.num p' r'.name [])) inp = .ok (.error t') → t' = t) := by
  obtain ⟨means, shows_, tries_⟩ := C84_grammar H hg hb ha
  obtain ⟨ha0, hsil, -⟩ := H _ _ _ _ hb
  have ha' : r'.args = [] := List.eq_nil_of_length_eq_zero (by rw [← ha0, ha]; rfl)
  obtain ⟨fuel, hd⟩ := D.derive
  obtain ⟨fuel', hd'⟩ := D'.derive
  have A1 := (C75_parser hls hd D.modules D.silent D.named).2 R e lab D.linked D.labelled p m r hp hr ho hman ha inp
  have A2 := (C75_parser hls hd' D'.modules D'.silent D'.named).2 R' e' lab' D'.linked D'.labelled p' m' r' hp' hr' ho' hman' ha' inp
  rw [hu] at A2
  simp only [means] at A1
  simp only [shows_] at A2
  refine ⟨⟨A1.1.trans A2.1.symm, A1.2.2.1.trans A2.2.2.1.symm, A1.2.2.2.trans A2.2.2.2.symm, ?_⟩, ?_⟩
  · intro hs n n' t t' h h'
    obtain ⟨stk, k⟩ := A1.1.mp ⟨n, t, h⟩
    rw [← means] at k
    obtain ⟨F, k⟩ := shows_exists k
    have lbl : ruleAt p' r'.name = g (ruleAt p r.name) := hg _ _ ⟨p, r, p', r', hb, rfl, rfl⟩
    obtain ⟨n1, t1, h1, h2⟩ := (A1.2.1 hs _).mpr ⟨stk, F, k, rfl⟩
    obtain ⟨n2, t2, h3, h4⟩ := (A2.2.1 (hsil ▸ hs) _).mpr ⟨stk, _, ⟨F, k, rfl⟩, rfl⟩
    cases tryParse_det h1 h
    cases tryParse_det h3 h'
    refine ⟨_, h2, ?_⟩
    rw [h4, Pair.convert, lbl]
  · intro hrk n n' t t' h h'
    obtain ⟨ms1, cfg, hm1, hg1, -⟩ := C71_result_partial _ _ _ _ hd
    cases modules_unique D.modules hm1
    obtain ⟨ms2, cfg', hm2, hg2, -⟩ := C71_result_partial _ _ _ _ hd'
    cases modules_unique D'.modules hm2
    have hgen := (generateTyped_none D.silent).mp ⟨_, hg1⟩
    have hgen' := (generateTyped_none D'.silent).mp ⟨_, hg2⟩
    have full := fun b es => fullTries_iff hgen D.named D.linked D.numbered D.ranks.eoi hp (findRule_eq (D.named m (modAt_in p hp)).rules hr) ho hman ha inp b es
    have full' := fun b es => fullTries_iff hgen' D'.named D'.linked D'.numbered D'.ranks.eoi hp' (findRule_eq (D'.named m' (modAt_in p' hp')).rules hr') ho' hman' ha' inp b es
    rw [hu] at full'
    obtain ⟨es, k1, k2⟩ := error_trace hls h
    obtain ⟨es', k3, k4⟩ := error_trace hls h'
    have := (full' _ _).mpr ((tries_ rank rank' hrk (D.ranks.eoi.trans D'.ranks.eoi.symm) inp _ _).mp ((full _ _).mp k1))
    rw [k2, k4, (fullTraces_det k3 this).2]

/-- The rules of a grammar and the same rules where the grammar is imported by another, directly or not. -/
theorem C84_import {p0 : List Name} (h0 : modAt (united ms') p0 = some (united ms)) {p : List Name} {m : Module} {r : Rule} (hp : modAt (united ms) p = some m) (hr : r ∈ m.rules)
    (ho : r.name ≠ optName) (hman : r.name ≠ manName) (ha : r.args = []) (inp : Str) :
    DoTheSame so e e' (R.num p r.name []) (R'.num (p0 ++ p) r.name []) lab lab' (RuleVal.under p0) r.silent inp ∧
    ((∀ p x, rank' (RuleVal.under p0 (ruleAt p x)) = rank (ruleAt p x)) → ∀ n n' t t', tryParse so e n (.rule (R.num p r.name [])) inp = .ok (.error t) →
      tryParse so e' n' (.rule (R'.num (p0 ++ p) r.name [])) inp = .ok (.error t') → t' = t) :=
  C84_parser hls D D' hu (imported D.named h0) (by rintro _ _ ⟨p, r, _, _, ⟨rfl, rfl⟩, rfl, rfl⟩; exact ruleAt_under p0 p _) ⟨rfl, rfl⟩ hp hr (by rw [modAt_append, h0]; exact hp) hr ho hman
    ho hman ha inp

/-- The rules of a grammar, and the same rules after rules and imports are added anywhere, or rules and imports are put into another order, or the rules are
distributed over several sources. -/
theorem C84_extension (he : Extends (united ms) (united ms')) {p : List Name} {m : Module} {r : Rule} (hp : modAt (united ms) p = some m) (hr : r ∈ m.rules)
    (ho : r.name ≠ optName) (hman : r.name ≠ manName) (ha : r.args = []) (inp : Str) :
    DoTheSame so e e' (R.num p r.name []) (R'.num p r.name []) lab lab' id r.silent inp ∧
    ((∀ p x, rank' (ruleAt p x) = rank (ruleAt p x)) → ∀ n n' t t', tryParse so e n (.rule (R.num p r.name [])) inp = .ok (.error t) →
      tryParse so e' n' (.rule (R'.num p r.name [])) inp = .ok (.error t') → t' = t) := by
  obtain ⟨m', hp', hrules, -⟩ := he p m hp
  have hn' := D'.named
  have hs' := D'.scoped
  rw [hu] at hn' hs'
  exact C84_parser hls D D' hu (kept hn' D.scoped hs' he) (g := id) (by rintro _ _ ⟨p, r, _, _, ⟨rfl, rfl, -⟩, rfl, rfl⟩; rfl) ⟨rfl, rfl, m, hp, hr⟩ hp hr hp' (hrules r hr) ho hman ho hman ha inp

/-- The rules of a grammar, and the same rules with other names. -/
theorem C84_renaming {f : Name → Name} (hf : Renames f (united ms)) (hren : united ms' = renameModule f (united ms)) {r : Rule} (hr : r ∈ (united ms).rules)
    (ho : r.name ≠ optName) (hman : r.name ≠ manName) (ha : r.args = []) (inp : Str) :
    DoTheSame so e e' (R.num [] r.name []) (R'.num [] (f r.name) []) lab lab' (RuleVal.renamed f) r.silent inp ∧
    ((∀ p x, rank' (RuleVal.renamed f (ruleAt p x)) = rank (ruleAt p x)) → ∀ n n' t t', tryParse so e n (.rule (R.num [] r.name [])) inp = .ok (.error t) →
      tryParse so e' n' (.rule (R'.num [] (f r.name) [])) inp = .ok (.error t') → t' = t) :=
  C84_parser hls D D' hu (hren ▸ renamed D.named hf) (by rintro _ _ ⟨p, r, _, _, ⟨rfl, rfl⟩, rfl, rfl⟩; exact ruleAt_renamed) (r' := renameRule f r) (p := []) (p' := [])
    (m := united ms) (m' := united ms') ⟨rfl, by simp⟩ rfl hr rfl (by rw [hren]; exact List.mem_map_of_mem hr) ho hman
    (fun k => ho (hf.inj _ _ (k.trans hf.opt.symm))) (fun k => hman (hf.inj _ _ (k.trans hf.man.symm))) ha inp

end

/-! ### Sources -/

/-- Every source of the one is a source of the other, in any order: the grammar is extended. -/
theorem C84_sources {ms ms' : List Module} (h : ∀ m ∈ ms, m ∈ ms') (hn' : ((united ms').imports.map Import.name).Nodup) :
    Extends (united ms) (united ms') := by
  have hr : ∀ r ∈ (united ms).rules, r ∈ (united ms').rules := by
    intro r h1
    obtain ⟨m, h2, h3⟩ := List.mem_flatMap.mp h1
    exact List.mem_flatMap.mpr ⟨m, h m h2, h3⟩
  have hi : ∀ i ∈ (united ms).imports, i ∈ (united ms').imports := by
    intro r h1
    obtain ⟨m, h2, h3⟩ := List.mem_flatMap.mp h1
    exact List.mem_flatMap.mpr ⟨m, h m h2, h3⟩
  exact extends_of hn' hr hi

/-! ### Examples

The rules `x = "a"`, `y = x ~ x`, `~ = " "*`; with `w = y | "b"` added and in another order; with `x` and `y` exchanged; and imported as `a`. -/

private def baseRules : List Rule := [⟨['x'], [], .str ['a'], false⟩, ⟨['y'], [], .seq (.path [['x']]) (.path [['x']]) .optional, false⟩, ⟨['~'], [], .rep (.str [' ']), false⟩]

private def base : Module := .mk baseRules []

private def moreRules : List Rule :=
  [⟨['w'], [], .choice (.path [['y']]) (.str ['b']), false⟩, ⟨['~'], [], .rep (.str [' ']), false⟩, ⟨['y'], [], .seq (.path [['x']]) (.path [['x']]) .optional, false⟩,
    ⟨['x'], [], .str ['a'], false⟩]

private def otherRules : List Rule := [⟨['y'], [], .str ['a'], false⟩, ⟨['x'], [], .seq (.path [['y']]) (.path [['y']]) .optional, false⟩, ⟨['~'], [], .rep (.str [' ']), false⟩]

private def userRules : List Rule := [⟨['z'], [], .path [['a'], ['y']], false⟩]

private def swap (x : Name) : Name := if x = ['x'] then ['y'] else if x = ['y'] then ['x'] else x

private inductive Variant : Text → List FileItem → Module → Prop
  | base : Variant [] (baseRules.map .rule) base
  | more : Variant ['m'] (moreRules.map .rule) (.mk moreRules [])
  | other : Variant ['o'] (otherRules.map .rule) (.mk otherRules [])
  | user : Variant ['u'] (.imp ⟨[['a']], none, none⟩ :: userRules.map .rule) (.mk userRules [.file ['a'] base])

private def movedWorld : World := ⟨fun _ => some [], fun t => if t = [] then some (baseRules.map .rule) else if t = ['m'] then some (moreRules.map .rule) else
  if t = ['o'] then some (otherRules.map .rule) else some (.imp ⟨[['a']], none, none⟩ :: userRules.map .rule)⟩

private def movedSetting : Setting := ⟨none, ⟨true, []⟩, fun _ => false, fun _ => false, [], movedWorld⟩

private theorem loads_rules (root : FPath) (l : List Rule) : Loads movedWorld (.items root (l.map .rule) l []) := by
  induction l with
  | nil => exact .nil
  | cons r l ih => exact .rule ih

private theorem variant_mods {t items m} (h : Variant t items m) {m' : Module} (h' : ModIn m' m) : m' = m ∨ m' = base := by
  cases h' with
  | refl => exact .inl rfl
  | step h1 h2 =>
    cases h <;> simp [Module.imports, base] at h1
    obtain ⟨rfl, rfl⟩ := h1
    cases h2 with
    | refl => exact .inr rfl
    | step h3 _ => simp [Module.imports] at h3

private theorem no_trivia (t : Trivia) : ¬ UsesTrivia t (.rep (.str [' '])) := by
  rintro (⟨l, r, h⟩ | ⟨e, h⟩) <;> cases h with | rep h => cases h

private theorem variant_ready {t items m} (h : Variant t items m) {rank : RuleVal → Label} (hr : Ranks rank) :
    ∃ d R e lab, Derives movedSetting [⟨some "grammar_inline".toList, .str t⟩] [m] (fun _ _ => false) d R e rank lab := by
  have hun : united [m] = m := by cases h <;> rfl
  have hsrc : [⟨some "grammar_inline".toList, .str t⟩].filterMap sourceOf = [.inline t] := by cases h <;> decide
  have hm : Modules movedSetting ([⟨some "grammar_inline".toList, .str t⟩].filterMap sourceOf) [m] := by
    rw [hsrc]
    refine .cons .inline ?_ .nil
    cases h with
    | base => exact .file rfl (loads_rules _ _)
    | more => exact .file rfl (loads_rules _ _)
    | other => exact .file rfl (loads_rules _ _)
    | user => exact .file rfl (.file_ (t := []) rfl rfl rfl rfl (.file rfl (loads_rules _ _)) (loads_rules _ _))
  have each : ∀ {P : Module → Prop}, P base → P (.mk moreRules []) → P (.mk otherRules []) → P (.mk userRules [.file ['a'] base]) → ∀ m', ModIn m' m → P m' := by
    intro P h1 h2 h3 h4 m' hm'
    rcases variant_mods h hm' with rfl | rfl
    · cases h <;> assumption
    · exact h1
  have hs : ∀ x, ¬ SilentName (united [m]) x := by
    rw [hun]
    rintro x ⟨m', h1, f, h2, h3, -⟩
    have : ∀ r ∈ m'.rules, r.silent = false :=
      each (P := fun m' => ∀ r ∈ m'.rules, r.silent = false) (by simp [base, Module.rules, baseRules]) (by simp [Module.rules, moreRules]) (by simp [Module.rules, otherRules])
        (by simp [Module.rules, userRules]) m' h1
    simp [Rule.inlined, this f h2] at h3
  have hn : AllNamed (unicodeOf [] fun _ _ => false) (united [m]) := by
    rw [hun]
    refine each ?_ ?_ ?_ ?_ <;> refine ⟨by decide, by decide, by simp [Module.imports, base, Import.name], by simp [Module.imports, base], ?_, ?_⟩ <;>
      simp [Module.rules, base, baseRules, moreRules, otherRules, userRules, ParamsPlain, optName, manName]
  have hacc : ∃ fuel d, derive movedSetting fuel [⟨some "grammar_inline".toList, .str t⟩] = .ok d := by
    refine (C75_accepted hm hs hn).mpr ⟨?_, by rw [hsrc]; simp, ?_⟩
    · intro a ha
      cases List.mem_singleton.mp ha
      exact ⟨fun x _ _ => ⟨_, rfl⟩, fun x hx h => by cases h; exact absurd hx (by decide), fun h => absurd h (by show ¬ some "grammar_inline".toList = some "rules_mod".toList; decide)⟩
    · refine (C61_accepts (cfg := ⟨true, false, none⟩) hn).mp ?_
      rw [hun]
      cases h <;> exact ⟨_, rfl⟩
  obtain ⟨fuel, d, hd⟩ := hacc
  obtain ⟨R, e, lab, D⟩ := C84_exists (table := fun _ _ => false) hd hm hs hn (by
    rw [hun]
    refine each ?_ ?_ ?_ ?_ <;> refine ⟨?_, ?_, .inl ?_⟩ <;>
      simp only [base, baseRules, moreRules, otherRules, userRules, Module.rules, List.mem_cons, List.not_mem_nil, or_false, forall_eq_or_imp, forall_eq, no_trivia,
        not_false_eq_true, implies_true, and_true, true_and] <;>
      (repeat' apply And.intro) <;> exact fun h => absurd h (by decide)) hr
  exact ⟨d, R, e, lab, D⟩

private theorem swap_swap (x : Name) : swap (swap x) = x := by
  unfold swap
  by_cases h : x = ['x']
  · subst h; decide
  · by_cases h' : x = ['y']
    · subst h'; decide
    · simp [h, h']

/-- All three theorems apply to `y`. -/
example : ∃ (d d1 d2 d3 : Derived) (R R1 R2 R3 : Layout) (e e1 e2 e3 : Env) (rank : RuleVal → Label) (lab lab1 lab2 lab3 : Label → RuleVal),
    Derives movedSetting [⟨some "grammar_inline".toList, .str []⟩] [base] (fun _ _ => false) d R e rank lab ∧
    Derives movedSetting [⟨some "grammar_inline".toList, .str ['m']⟩] [.mk moreRules []] (fun _ _ => false) d1 R1 e1 rank lab1 ∧
    Derives movedSetting [⟨some "grammar_inline".toList, .str ['o']⟩] [.mk otherRules []] (fun _ _ => false) d2 R2 e2 rank lab2 ∧
    Derives movedSetting [⟨some "grammar_inline".toList, .str ['u']⟩] [.mk userRules [.file ['a'] base]] (fun _ _ => false) d3 R3 e3 rank lab3 ∧
    ∀ inp, DoTheSame idealOps e e1 (R.num [] ['y'] []) (R1.num [] ['y'] []) lab lab1 id false inp ∧
      DoTheSame idealOps e e2 (R.num [] ['y'] []) (R2.num [] ['x'] []) lab lab2 (RuleVal.renamed swap) false inp ∧
      DoTheSame idealOps e e3 (R.num [] ['y'] []) (R3.num [['a']] ['y'] []) lab lab3 (RuleVal.under [['a']]) false inp := by
  obtain ⟨rank, hr⟩ := C81_ranks
  obtain ⟨d, R, e, lab, D⟩ := variant_ready .base hr
  obtain ⟨d1, R1, e1, lab1, D1⟩ := variant_ready .more hr
  obtain ⟨d2, R2, e2, lab2, D2⟩ := variant_ready .other hr
  obtain ⟨d3, R3, e3, lab3, D3⟩ := variant_ready .user hr
  refine ⟨d, d1, d2, d3, R, R1, R2, R3, e, e1, e2, e3, rank, lab, lab1, lab2, lab3, D, D1, D2, D3, fun inp => ⟨?_, ?_, ?_⟩⟩
  · refine (C84_extension ideal_lawful D D1 rfl (extends_of (by decide) ?_ (by simp [united, base, Module.imports])) (p := []) (m := united [base])
      (r := ⟨['y'], [], .seq (.path [['x']]) (.path [['x']]) .optional, false⟩) rfl (by simp [united, base, baseRules, Module.rules]) (by decide) (by decide) rfl inp).1
    simp [united, base, baseRules, moreRules, Module.rules]
  · exact (C84_renaming ideal_lawful D D2 rfl (f := swap) ⟨fun x y h => by rw [← swap_swap x, h, swap_swap], by decide, by decide, by simp [united, base, Module.imports]⟩ rfl
      (r := ⟨['y'], [], .seq (.path [['x']]) (.path [['x']]) .optional, false⟩) (by simp [united, base, baseRules, Module.rules]) (by decide) (by decide) rfl inp).1
  · exact (C84_import ideal_lawful D D3 rfl (p0 := [['a']]) rfl (p := []) (m := united [base])
      (r := ⟨['y'], [], .seq (.path [['x']]) (.path [['x']]) .optional, false⟩) rfl (by simp [united, base, baseRules, Module.rules]) (by decide) (by decide) rfl inp).1

end Pest3.Props
