import Verif.StackLang
import Verif.StackRead
import Verif.StackWell
import Verif.Props.Skip

/-!
# The parsers of the tests of the derive macro (`derive/tests/grammar.pest`)
-/

namespace Pest3.Stk
open Pest3 Pest3.Gen Pest3.Load Pest3.Props
open Pest3.Skip (united_one)

/-- The file is read as the rules of the model. -/
theorem C97_file : Reads text (rules.map .rule) := reads_run grammar_read

/-- `#[grammar = "tests/grammar.pest"]` (`derive/tests/grammar.rs:21`). -/
def grammarPath : Text := "tests/grammar.pest".toList

/-- The declaration has that attribute as its only grammar, and the file is where it is found. -/
structure Project (env : Setting) (attrs : List Attr) : Prop where
  faithful : Faithful env.world
  understood : ∀ a ∈ attrs, Understood env.ident a
  source : attrs.filterMap sourceOf = [.file grammarPath]
  grammar : env.world.read (env.locate grammarPath) = some text

theorem project_modules {env : Setting} {attrs : List Attr} (P : Project env attrs) : Modules env (attrs.filterMap sourceOf) [grammar] := by
  rw [P.source]
  have hp : pathOf grammarPath = ⟨false, ["tests".toList, "grammar.pest".toList]⟩ := by decide +kernel
  have hj : ∀ p : FPath, (p.join (pathOf grammarPath)).fileName ≠ none := by
    intro p
    rw [hp, FPath.join]
    simp only [Bool.false_eq_true, if_false]
    split
    · decide
    · have : ["tests".toList, "grammar.pest".toList].filter (fun x => decide (x ≠ dot)) = ["tests".toList, "grammar.pest".toList] := by decide
      rw [this, FPath.fileName]
      have h2 : p.comps ++ ["tests".toList, "grammar.pest".toList] = (p.comps ++ ["tests".toList]) ++ ["grammar.pest".toList] := by simp
      simp only [h2, List.getLast?_concat]
      decide
  refine .cons (.file ?_ P.grammar) (.file ((P.faithful _ _).mpr C97_file) (Skip.loads_rules _)) .nil
  unfold Setting.locate
  split
  · exact hj _
  · exact hj _

theorem united_grammar : united [grammar] = grammar := united_one _

/-- What is left of a text says whether it is accepted. -/
theorem runs_accepts {u : Unicode} {m : Module} {e : Expr} {inp : Str} {o : Option (Text × List Text)} (h : Runs u m (.expr (.mk [] [] e)) [] inp.text [] o) :
    ((∃ stk, Meaning u m (.expr (.mk [] [] e)) (startCfg inp) (some ⟨inp.text, [], stk⟩)) ↔ Whole o) ∧
    ((Meaning u m (.expr (.mk [] [] e)) (startCfg inp) none ∨ ∃ c, Meaning u m (.expr (.mk [] [] e)) (startCfg inp) (some c) ∧ c.suf ≠ []) ↔ ¬ Whole o) := by
  unfold Whole
  cases o with
  | none =>
    have h' : Meaning u m (.expr (.mk [] [] e)) (startCfg inp) none := h
    refine ⟨⟨fun ⟨stk, k⟩ => ?_, fun ⟨_, k⟩ => (by cases k)⟩, ⟨fun _ => (by simp), fun _ => .inl h'⟩⟩
    have := h'.det _ k; cases this
  | some x =>
    obtain ⟨s', stk'⟩ := x
    obtain ⟨w, h1, h2⟩ := h
    have h' : Meaning u m (.expr (.mk [] [] e)) (startCfg inp) (some ⟨w, s', stk'⟩) := h2
    refine ⟨⟨fun ⟨stk, k⟩ => ?_, fun ⟨k', k⟩ => ?_⟩, ⟨?_, fun k => .inr ⟨_, h', fun h => k ⟨stk', by rw [show s' = [] from h]⟩⟩⟩⟩
    · have := h'.det _ k; cases this; exact ⟨_, rfl⟩
    · cases k
      rw [List.append_nil] at h1
      exact ⟨_, by rw [h1]; exact h'⟩
    · rintro (k | ⟨c, k, hc⟩) ⟨_, h0⟩
      · have := h'.det _ k; cases this
      · cases h0
        have := h'.det _ k; cases this; exact hc rfl

section
variable {S : Type} {so : StackOps S} {saved : S → List (List Span)} (hls : Lawful so saved) {env : Setting} {attrs : List Attr} {table : Name → Char → Bool}
  (P : Project env attrs)
include hls P

/-- The declaration of the tests is accepted, and the parser of each of the rules accepts the texts of the language of the rule and no others. -/
theorem C97_stack : (∃ fuel d, derive env fuel attrs = .ok d) ∧ ∀ fuel d, derive env fuel attrs = .ok d →
    (∃ R e lab, Linked (unicodeOf env.unicodeNames table) d.code.1 d.code.2.wrappers R e ∧ Labelled d.code.1 R e lab) ∧
    ∀ R e lab, Linked (unicodeOf env.unicodeNames table) d.code.1 d.code.2.wrappers R e → Labelled d.code.1 R e lab → ∀ inp : Str, inp.text.length + 1 < usizeMax →
      ∀ q ∈ languages,
        ((∃ n t, tryParse so e n (.rule (R.num [] q.1 [])) inp = .ok (.ok t)) ↔ q.2 inp.text) ∧
        ((∃ n trk, tryParse so e n (.rule (R.num [] q.1 [])) inp = .ok (.error trk)) ↔ ¬ q.2 inp.text) := by
  have hm := project_modules P
  have hs : ∀ x, ¬ SilentName (united [grammar]) x := by rw [united_grammar]; exact grammar_silent
  have hn' : AllNamed (unicodeOf env.unicodeNames table) (united [grammar]) := by rw [united_grammar]; exact grammar_named
  refine ⟨(C75_accepted hm hs hn').mpr ⟨P.understood, by rw [P.source]; simp, by rw [united_grammar]; exact grammar_scoped⟩, fun fuel d hd => ?_⟩
  obtain ⟨h1, h2⟩ := C75_parser (table := table) hls hd hm hs hn'
  refine ⟨h1 fun m' h => grammar_acyclic (by rwa [united_grammar] at h), fun R e lab hl hlab inp hi => ?_⟩
  have key : ∀ r ∈ rules, r.name ≠ optName → r.name ≠ manName → ∀ (o : Option (Text × List Text)) (P : Prop), Runs (unicodeOf env.unicodeNames table) grammar (.expr (.mk [] [] r.node)) [] inp.text [] o → (Whole o ↔ P) →
      ((∃ n t, tryParse so e n (.rule (R.num [] r.name [])) inp = .ok (.ok t)) ↔ P) ∧
      ((∃ n trk, tryParse so e n (.rule (R.num [] r.name [])) inp = .ok (.error trk)) ↔ ¬ P) := by
    intro r hr ho hman o P hrun hP
    have h3 := h2 R e lab hl hlab [] grammar r (by rw [united_grammar]; rfl) hr ho hman (args_nil r hr) inp
    rw [united_grammar] at h3
    have h4 := runs_accepts hrun
    exact ⟨(h3.1.trans h4.1).trans hP, (h3.2.2.1.trans h4.2).trans (not_congr hP)⟩
  simp only [languages, List.mem_cons, List.not_mem_nil, or_false, forall_eq_or_imp, forall_eq]
  refine ⟨?_, ?_, ?_, ?_, ?_, ?_, ?_, ?_, ?_, ?_, ?_⟩
  · exact key (rules[31]'(by decide)) (List.getElem_mem _) (by decide) (by decide) _ _ runs_peek_ (peek_iff _)
  · exact key (rules[32]'(by decide)) (List.getElem_mem _) (by decide) (by decide) _ _ runs_peekAll_ (peekAll_iff _)
  · exact key (rules[33]'(by decide)) (List.getElem_mem _) (by decide) (by decide) _ _ (runs_slice23 hi) (slice_iff _)
  · exact key (rules[34]'(by decide)) (List.getElem_mem _) (by decide) (by decide) _ _ runs_pop_ (pop_iff _)
  · exact key (rules[35]'(by decide)) (List.getElem_mem _) (by decide) (by decide) _ _ runs_popAll_ (popAll_iff _)
  · exact key (rules[36]'(by decide)) (List.getElem_mem _) (by decide) (by decide) _ _ runs_popFail (popFail_iff _)
  · exact key (rules[27]'(by decide)) (List.getElem_mem _) (by decide) (by decide) _ _ (runs_mutate (by omega)) (mutate_iff _)
  · exact key (rules[28]'(by decide)) (List.getElem_mem _) (by decide) (by decide) _ _ (runs_mutateAll (by omega)) (mutateAll_iff _)
  · exact key (rules[29]'(by decide)) (List.getElem_mem _) (by decide) (by decide) _ _ (runs_willFail (by omega)) (willFail_iff _)
  · exact key (rules[30]'(by decide)) (List.getElem_mem _) (by decide) (by decide) _ _ (runs_resume (by omega)) (resume_iff _)
  · exact key (rules[37]'(by decide)) (List.getElem_mem _) (by decide) (by decide) _ _ runs_checkpoint (checkpoint_iff _)

end

/-! ## The texts of the tests -/

private def env (w : World) : Setting := ⟨some "/p".toList, ⟨true, ["p".toList]⟩, fun p => p == ⟨true, ["p".toList, "tests".toList, "grammar.pest".toList]⟩, fun _ => false, [], w⟩

private def attrs : List Attr := [⟨some "grammar".toList, .str grammarPath⟩]

private theorem env_locate (w : World) : (env w).locate grammarPath = ⟨true, ["p".toList, "tests".toList, "grammar.pest".toList]⟩ :=
  (C71_file (env w) (.inl (by show (pathOf "/p".toList).abs = true; decide)) ["tests".toList, "grammar.pest".toList] (by simp) (by decide)).1
    (by show ((⟨(pathOf "/p".toList).abs, (pathOf "/p".toList).comps ++ ["tests".toList, "grammar.pest".toList]⟩ : FPath) == ⟨true, ["p".toList, "tests".toList, "grammar.pest".toList]⟩) = true; decide)

/-- A declaration with the file in place. -/
theorem example_project : ∃ w : World, Project (env w) attrs := by
  obtain ⟨w, hr, hw, -⟩ := C67_world (fun _ => some text)
  refine ⟨w, hw, ?_, by decide, ?_⟩
  · intro a ha
    cases List.mem_singleton.mp ha
    exact ⟨fun x _ _ => ⟨_, rfl⟩, fun x hx h => by cases h; exact absurd hx (by decide), fun h => absurd h (by show ¬ some "grammar".toList = some "rules_mod".toList; decide)⟩
  · show w.read _ = _
    rw [hr]

/-- With the file in place the parsers are generated, and `pop_all` accepts `0110` (`derive/tests/grammar.rs`) and rejects `0101`. -/
example : ∃ (w : World) (fuel : Nat) (d : Derived) (R : Layout) (e : Env), Project (env w) attrs ∧ derive (env w) fuel attrs = .ok d ∧
    Linked (unicodeOf [] fun _ _ => false) d.code.1 d.code.2.wrappers R e ∧
    (∃ n t, tryParse idealOps e n (.rule (R.num [] ['p', 'o', 'p', '_', 'a', 'l', 'l'] [])) ⟨0, "0110".toList⟩ = .ok (.ok t)) ∧
    (∃ n trk, tryParse idealOps e n (.rule (R.num [] ['p', 'o', 'p', '_', 'a', 'l', 'l'] [])) ⟨0, "0101".toList⟩ = .ok (.error trk)) := by
  obtain ⟨w, P⟩ := example_project
  obtain ⟨⟨fuel, d, h1⟩, h2⟩ := C97_stack (table := fun _ _ => false) ideal_lawful P
  obtain ⟨⟨R, e, lab, h3, h4⟩, h5⟩ := h2 fuel d h1
  refine ⟨w, fuel, d, R, e, P, h1, h3, ?_, ?_⟩
  · refine ((h5 R e lab h3 h4 ⟨0, _⟩ (by decide) (languages[4]'(by decide)) (List.getElem_mem _)).1).mpr ?_
    exact ⟨'0', '1', by unfold Digit; decide, by unfold Digit; decide, rfl⟩
  · refine ((h5 R e lab h3 h4 ⟨0, _⟩ (by decide) (languages[4]'(by decide)) (List.getElem_mem _)).2).mpr ?_
    rintro ⟨a, b, -, -, h⟩
    cases h

/-- The texts of the tests (`derive/tests/grammar.rs:776-909`). -/
example : Top "0111".toList ∧ Mirror "0110".toList ∧ Slice "0123412".toList ∧ Slice "012 3$4 12".toList ∧ Other "010".toList ∧ LastThree "a,b,c,cba".toList ∧ Back "a,b,c,cba".toList :=
  ⟨⟨'0', '1', by unfold Digit; decide, by unfold Digit; decide, rfl⟩, ⟨'0', '1', by unfold Digit; decide, by unfold Digit; decide, rfl⟩,
    (slice_iff _).mp ⟨_, rfl⟩, (slice_iff _).mp ⟨_, rfl⟩, ⟨'0', '1', by unfold Digit; decide, by unfold Digit; decide, by decide, rfl⟩,
    ⟨[], 'a', 'b', 'c', by unfold Letter; decide, rfl⟩, ⟨['a', 'b', 'c'], by unfold Letter; decide, rfl⟩⟩

/-- The last three letters need not be all, and there must be three. -/
example : LastThree "a,b,c,a,acb".toList ∧ ¬ LastThree "a,b,ba".toList ∧ ¬ Back "a,b,ab".toList ∧ ¬ Other "000".toList :=
  ⟨⟨['a'], 'b', 'c', 'a', by unfold Letter; decide, rfl⟩, (fun h => by obtain ⟨k, h⟩ := (mutate_iff _).mpr h; cases h), (fun h => by obtain ⟨k, h⟩ := (mutateAll_iff _).mpr h; cases h),
    (fun h => by obtain ⟨k, h⟩ := (popFail_iff _).mpr h; cases h)⟩

end Pest3.Stk
