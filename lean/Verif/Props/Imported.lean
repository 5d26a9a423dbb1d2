import Verif.ImportRead
import Verif.JsonLanguage
import Verif.JsonWell
import Verif.Props.StackTests

/-!
# The parser of the test of imports (`derive/tests/import.rs`)
-/

namespace Pest3.Imported
open Pest3 Pest3.Gen Pest3.Load Pest3.Props
open Pest3.Json (Leaves leaves_rule leaves_str strip strip_some usable_rule)

/-- The text is read as the import and the rule of the model. -/
theorem C101_grammar : Reads importText importItems := reads_run import_read

/-- The declaration has the text as its only grammar, the directory of the package is not called `….pest`, and the file that is imported is in its directory `tests`. -/
structure Project (env : Setting) (attrs : List Attr) : Prop where
  faithful : Faithful env.world
  understood : ∀ a ∈ attrs, Understood env.ident a
  source : attrs.filterMap sourceOf = [.inline importText]
  directory : env.root.extension ≠ some pestExt
  imported : env.world.read { env.root with comps := env.root.comps ++ ["tests".toList, "grammar.pest".toList] } = some Stk.text

/-- Where the import is found from a directory. -/
theorem target_path (p : FPath) : (({ p with comps := p.comps ++ ["tests".toList] } : FPath).push "grammar".toList).withExtension pestExt = { p with comps := p.comps ++ ["tests".toList, "grammar.pest".toList] } := by
  have h1 : (({ p with comps := p.comps ++ ["tests".toList] } : FPath).push "grammar".toList).fileName = some "grammar".toList := by
    rw [FPath.fileName, FPath.push, List.getLast?_concat]
    decide
  rw [FPath.withExtension, h1]
  simp only [FPath.push, List.dropLast_concat]
  rw [List.append_assoc]
  congr

theorem project_modules {env : Setting} {attrs : List Attr} (P : Project env attrs) : Modules env (attrs.filterMap sourceOf) [importModule] := by
  rw [P.source]
  refine .cons .inline (.file ((P.faithful _ _).mpr C101_grammar) ?_) .nil
  have hfile : Loads env.world (.file { env.root with comps := env.root.comps ++ ["tests".toList, "grammar.pest".toList] } Stk.text Stk.grammar) :=
    .file ((P.faithful _ _).mpr Stk.C97_file) (Skip.loads_rules _)
  refine .file_ (x := grammarName) rfl (by decide) ?_ P.imported hfile (.rule .nil)
  have hpar : (env.root.push "_.rs".toList).parent = some env.root := by simp [FPath.parent, FPath.push]
  show modPathToFsPath _ _ = _
  rw [modPathToFsPath, hpar]
  simp only [if_neg P.directory]
  exact congrArg some (target_path env.root)

/-- What is left of a text says whether it is accepted; in any module. -/
theorem leaves_accepts {u : Unicode} {m : Module} {p : List Name} {e : Expr} {inp : Str} {o : Option Text} (h : Leaves u m (.expr (.mk p [] e)) [] inp.text [] o) :
    ((∃ stk, Meaning u m (.expr (.mk p [] e)) (startCfg inp) (some ⟨inp.text, [], stk⟩)) ↔ o = some []) ∧
    ((Meaning u m (.expr (.mk p [] e)) (startCfg inp) none ∨ ∃ c, Meaning u m (.expr (.mk p [] e)) (startCfg inp) (some c) ∧ c.suf ≠ []) ↔ o ≠ some []) := by
  cases o with
  | none =>
    have h' : Meaning u m (.expr (.mk p [] e)) (startCfg inp) none := h
    refine ⟨⟨fun ⟨stk, k⟩ => ?_, fun k => (by cases k)⟩, ⟨fun _ => (by simp), fun _ => .inl h'⟩⟩
    have := h'.det _ k; cases this
  | some s' =>
    obtain ⟨w, h1, h2⟩ := h
    have h' : Meaning u m (.expr (.mk p [] e)) (startCfg inp) (some ⟨w, s', []⟩) := h2
    refine ⟨⟨fun ⟨stk, k⟩ => ?_, fun k => ?_⟩, ⟨?_, fun k => .inr ⟨_, h', fun h => k (by rw [show s' = [] from h])⟩⟩⟩
    · have := h'.det _ k; cases this; rfl
    · cases k
      rw [List.append_nil] at h1
      exact ⟨[], by rw [h1]; exact h'⟩
    · rintro (k | ⟨c, k, hc⟩) h0
      · have := h'.det _ k; cases this
      · cases h0
        have := h'.det _ k; cases this; exact hc rfl

theorem mod_cases {m' : Module} (h : ModIn m' importModule) : m' = importModule ∨ ModIn m' Stk.grammar := by
  cases h with
  | refl => exact .inl rfl
  | step h1 h2 =>
    simp only [importModule, Module.imports, List.mem_singleton, Import.file.injEq] at h1
    obtain ⟨-, rfl⟩ := h1
    exact .inr h2

section
variable {u : Unicode}

theorem main_usable : Usable u importModule [grammarName, stringName] .plain :=
  usable_rule (by decide) (p := [grammarName]) (r := ⟨stringName, [], Stk.xString, false⟩) rfl rfl

theorem import_scoped : AllScoped u importModule := by
  intro a h
  rcases mod_cases h with rfl | h
  · have hp : Json.plainExpr [[grammarName, stringName]] [] tMain = true := by decide
    refine ⟨by simp [importModule, Module.imports], fun r hr _ _ i hi => ?_, fun r hr => ?_, fun r hr => ?_⟩
    · cases List.mem_singleton.mp hr
      cases List.mem_singleton.mp hi
      show grammarName ≠ mainName
      decide
    · cases List.mem_singleton.mp hr
      exact ⟨fun h => absurd h (Json.plain_trivia hp (by decide)), fun h => absurd h (Json.plain_trivia hp (by decide))⟩
    · cases List.mem_singleton.mp hr
      exact Json.plain_scoped (r := mainRule) hp fun q hq => by cases List.mem_singleton.mp hq; exact main_usable
  · exact Stk.grammar_scoped a h

theorem import_named : AllNamed u importModule := by
  intro a h
  rcases mod_cases h with rfl | h
  · refine ⟨by decide, by decide, fun i hi => ?_, by simp [importModule, Module.imports], fun r hr _ => ?_, fun r hr x hx => ?_⟩
    · cases List.mem_singleton.mp hi
      show grammarName ≠ _
      decide
    · cases List.mem_singleton.mp hr; rfl
    · cases List.mem_singleton.mp hr; cases hx
  · exact Stk.grammar_named a h

end

theorem import_silent (x : Name) : ¬ SilentName importModule x := by
  rintro ⟨a, h, f, hf, h1, h2⟩
  rcases mod_cases h with rfl | h
  · cases List.mem_singleton.mp hf
    cases h1
  · exact Stk.grammar_silent x ⟨a, h, f, hf, h1, h2⟩

theorem import_acyclic {a : Module} (h : ModIn a importModule) : TriviaAcyclic a := by
  rcases mod_cases h with rfl | h
  · have hp : ∀ r ∈ importModule.rules, ∀ t, ¬ UsesTrivia t r.node := by
      intro r hr t
      cases List.mem_singleton.mp hr
      exact Json.plain_trivia (paths := [[grammarName, stringName]]) (ts := []) (by decide) (by simp)
    exact ⟨fun r hr _ => hp r hr _, fun r hr _ => hp r hr _, .inl fun r hr _ => hp r hr _⟩
  · exact Stk.grammar_acyclic h

section
variable {S : Type} {so : StackOps S} {saved : S → List (List Span)} (hls : Lawful so saved) {env : Setting} {attrs : List Attr} {table : Name → Char → Bool}
  (P : Project env attrs)
include hls P

/-- The macro finds the file that the grammar in the attribute imports, in the directory of the package, and generates the parsers.  The rule `main`, which is the rule `string` of the file, and that rule
itself, in the module of the import, accept the text `abc`, and reject all others. -/
theorem C101_parser : (∃ fuel d, derive env fuel attrs = .ok d) ∧ ∀ fuel d, derive env fuel attrs = .ok d →
    (∃ R e lab, Linked (unicodeOf env.unicodeNames table) d.code.1 d.code.2.wrappers R e ∧ Labelled d.code.1 R e lab) ∧
    ∀ R e lab, Linked (unicodeOf env.unicodeNames table) d.code.1 d.code.2.wrappers R e → Labelled d.code.1 R e lab → ∀ inp : Str,
      ∀ rule ∈ [R.num [] "main".toList [], R.num ["grammar".toList] "string".toList []],
        ((∃ n t, tryParse so e n (.rule rule) inp = .ok (.ok t)) ↔ inp.text = "abc".toList) ∧
        ((∃ n trk, tryParse so e n (.rule rule) inp = .ok (.error trk)) ↔ inp.text ≠ "abc".toList) := by
  have hm := project_modules P
  have hun : united [importModule] = importModule := by simp [united, Module.rules, Module.imports, importModule]
  have hs : ∀ x, ¬ SilentName (united [importModule]) x := by rw [hun]; exact import_silent
  have hn : AllNamed (unicodeOf env.unicodeNames table) (united [importModule]) := by rw [hun]; exact import_named
  refine ⟨(C75_accepted hm hs hn).mpr ⟨P.understood, by rw [P.source]; simp, by rw [hun]; exact import_scoped⟩, fun fuel d hd => ?_⟩
  obtain ⟨h1, h2⟩ := C75_parser (table := table) hls hd hm hs hn
  refine ⟨h1 fun m' h => import_acyclic (by rwa [hun] at h), fun R e lab hl hlab inp => ?_⟩
  have hstr : strip ['a', 'b', 'c'] inp.text = some [] ↔ inp.text = ['a', 'b', 'c'] := by rw [strip_some, List.append_nil]
  simp only [List.mem_cons, List.not_mem_nil, or_false, forall_eq_or_imp, forall_eq]
  constructor
  · have h3 := h2 R e lab hl hlab [] importModule mainRule (by rw [hun]; rfl) (List.mem_singleton.mpr rfl) (by decide) (by decide) rfl inp
    rw [hun] at h3
    have h4 := leaves_accepts (inp := inp) (leaves_rule (u := unicodeOf env.unicodeNames table) (root := importModule) (p := []) (q := [grammarName, stringName]) (p' := [grammarName])
      (r := ⟨stringName, [], Stk.xString, false⟩) rfl rfl (leaves_str (t := ['a', 'b', 'c'])))
    exact ⟨(h3.1.trans h4.1).trans hstr, (h3.2.2.1.trans h4.2).trans (not_congr hstr)⟩
  · have h3 := h2 R e lab hl hlab [grammarName] Stk.grammar ⟨stringName, [], Stk.xString, false⟩ (by rw [hun]; rfl) (by simp [Stk.grammar, Module.rules, Stk.rules, stringName]) (by show stringName ≠ _; decide)
      (by show stringName ≠ _; decide) rfl inp
    rw [hun] at h3
    have h4 := leaves_accepts (inp := inp) (m := importModule) (p := [grammarName]) (u := unicodeOf env.unicodeNames table) (leaves_str (t := ['a', 'b', 'c']))
    exact ⟨(h3.1.trans h4.1).trans hstr, (h3.2.2.1.trans h4.2).trans (not_congr hstr)⟩

end

/-- In a package whose directory is called `….pest` the file is looked for beside that directory: if there is none, the macro does not generate parsers, whatever is in the directory `tests`. -/
theorem C101_directory_witness {env : Setting} {attrs : List Attr} (hw : Faithful env.world) (ha : attrs.filterMap sourceOf = [.inline importText]) (hx : env.root.extension = some pestExt)
    (hr : env.world.read { env.root with comps := env.root.comps.dropLast ++ ["tests".toList, "grammar.pest".toList] } = none) : ∀ fuel d, derive env fuel attrs ≠ .ok d := by
  intro fuel d hd
  obtain ⟨ms, cfg, hm, -⟩ := C71_result_partial _ _ _ _ hd
  rw [ha] at hm
  cases hm with
  | cons hg hl _ =>
    cases hg
    cases hl with
    | file hp hl =>
      rw [(hw _ _).mpr C101_grammar] at hp
      cases hp
      cases hl with
      | builtin _ hb => exact absurd hb (by decide)
      | file_ _ _ ht hrd =>
        have hpar : (env.root.push "_.rs".toList).parent = some env.root := by simp [FPath.parent, FPath.push]
        have ht : modPathToFsPath (env.root.push "_.rs".toList) [testsName, grammarName] = some _ := ht
        rw [modPathToFsPath, hpar] at ht
        simp only [if_pos hx] at ht
        have := (Option.some.inj ht).symm.trans (target_path { env.root with comps := env.root.comps.dropLast })
        rw [this] at hrd
        exact absurd (hr.symm.trans hrd) (by simp)

/-! ## A declaration that meets the hypotheses -/

private def env (w : World) : Setting := ⟨some "/p".toList, ⟨true, ["p".toList]⟩, fun _ => true, fun _ => false, [], w⟩

private def attrs : List Attr := [⟨some "grammar_inline".toList, .str importText⟩]

/-- With the imported file in place the parsers are generated; `main` accepts `abc` and rejects `abcd`. -/
example : ∃ (w : World) (fuel : Nat) (d : Derived) (R : Layout) (e : Env), Project (env w) attrs ∧ derive (env w) fuel attrs = .ok d ∧
    Linked (unicodeOf [] fun _ _ => false) d.code.1 d.code.2.wrappers R e ∧
    (∃ n t, tryParse idealOps e n (.rule (R.num [] "main".toList [])) ⟨0, "abc".toList⟩ = .ok (.ok t)) ∧
    (∃ n trk, tryParse idealOps e n (.rule (R.num [] "main".toList [])) ⟨0, "abcd".toList⟩ = .ok (.error trk)) := by
  obtain ⟨w, hr, hw, -⟩ := C67_world (fun _ => some Stk.text)
  have P : Project (env w) attrs := by
    refine ⟨hw, ?_, rfl, ?_, ?_⟩
    · intro a ha
      cases List.mem_singleton.mp ha
      exact ⟨fun x _ _ => ⟨_, rfl⟩, fun x hx h => by cases h; exact absurd hx (by decide), fun h => absurd h (by show ¬ some "grammar_inline".toList = some "rules_mod".toList; decide)⟩
    · show (pathOf "/p".toList).extension ≠ some pestExt
      decide
    · show w.read _ = _
      rw [hr]
  obtain ⟨⟨fuel, d, h1⟩, h2⟩ := C101_parser (table := fun _ _ => false) ideal_lawful P
  obtain ⟨⟨R, e, lab, h3, h4⟩, h5⟩ := h2 fuel d h1
  exact ⟨w, fuel, d, R, e, P, h1, h3, (h5 R e lab h3 h4 ⟨0, _⟩ _ (.head _)).1.mpr rfl, (h5 R e lab h3 h4 ⟨0, _⟩ _ (.head _)).2.mpr (by decide)⟩

/-- The package in `/g.pest`, with the file `/g.pest/tests/grammar.pest` only. -/
example : ∃ env : Setting, Faithful env.world ∧ env.root.extension = some pestExt ∧ env.world.read ⟨true, ["g.pest".toList, "tests".toList, "grammar.pest".toList]⟩ = some Stk.text ∧
    ∀ fuel d, derive env fuel attrs ≠ .ok d := by
  obtain ⟨w, hr, hw, -⟩ := C67_world (fun p => if p.comps.length = 3 then some Stk.text else none)
  refine ⟨⟨some "/g.pest".toList, ⟨true, []⟩, fun _ => true, fun _ => false, [], w⟩, hw, by show (pathOf "/g.pest".toList).extension = some pestExt; decide, by show w.read _ = _; rw [hr]; rfl,
    C101_directory_witness hw rfl (by show (pathOf "/g.pest".toList).extension = some pestExt; decide) ?_⟩
  show w.read _ = _
  rw [hr]
  exact if_neg (by show ¬ ((pathOf "/g.pest".toList).comps.dropLast ++ ["tests".toList, "grammar.pest".toList]).length = 3; decide)

end Pest3.Imported
