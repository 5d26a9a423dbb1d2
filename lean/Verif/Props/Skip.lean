import Verif.SkipLemmas
import Verif.SkipRead
import Verif.SkipWell
import Verif.MeaningInv
import Verif.Props.EndToEnd

/-!
# The parsers with comments of the examples (`derive/tests/skip.rs`, `derive/examples/reader.rs`)
-/

namespace Pest3.Skip
open Pest3 Pest3.Gen Pest3.Load Pest3.Props
open Pest3.Json (Leaves)

/-- The texts are read as the rules of the model. -/
theorem C96_grammars : Reads skipText (skipRules.map .rule) ∧ Reads readerText (readerRules.map .rule) := ⟨reads_run skip_read, reads_run reader_read⟩

theorem loads_rules {w : World} {root : FPath} (l : List Rule) : Loads w (.items root (l.map .rule) l []) := by
  induction l with
  | nil => exact .nil
  | cons r l ih => exact .rule ih

theorem inline_modules {env : Setting} {attrs : List Attr} {text : Text} {rules : List Rule} (hr : Reads text (rules.map .rule)) (hw : Faithful env.world)
    (ha : attrs.filterMap sourceOf = [.inline text]) : Modules env (attrs.filterMap sourceOf) [.mk rules []] := by
  rw [ha]
  exact .cons .inline (.file ((hw _ _).mpr hr) (loads_rules _)) .nil

theorem united_one (rules : List Rule) : united [.mk rules []] = .mk rules [] := by simp [united, Module.rules, Module.imports]

/-- What is left of a text says whether it is accepted. -/
theorem leaves_accepts {u : Unicode} {m : Module} {e : Expr} {inp : Str} {o : Option Text} (h : Leaves u m (.expr (.mk [] [] e)) [] inp.text [] o) :
    ((∃ stk, Meaning u m (.expr (.mk [] [] e)) (startCfg inp) (some ⟨inp.text, [], stk⟩)) ↔ o = some []) ∧
    ((Meaning u m (.expr (.mk [] [] e)) (startCfg inp) none ∨ ∃ c, Meaning u m (.expr (.mk [] [] e)) (startCfg inp) (some c) ∧ c.suf ≠ []) ↔ o ≠ some []) := by
  cases o with
  | none =>
    have h' : Meaning u m (.expr (.mk [] [] e)) (startCfg inp) none := h
    refine ⟨⟨fun ⟨stk, k⟩ => ?_, fun k => (by cases k)⟩, ⟨fun _ => (by simp), fun _ => .inl h'⟩⟩
    have := h'.det _ k; cases this
  | some s' =>
    obtain ⟨w, h1, h2⟩ := h
    have h' : Meaning u m (.expr (.mk [] [] e)) (startCfg inp) (some ⟨w, s', []⟩) := h2
    refine ⟨⟨fun ⟨stk, k⟩ => ?_, fun k => ?_⟩, ⟨?_, fun k => .inr ⟨_, h', fun h => k (by rw [show s' = [] from h])⟩⟩⟩
    · have := h'.det _ k; cases this; rfl
    · cases k
      rw [List.append_nil] at h1
      exact ⟨[], by rw [h1]; exact h'⟩
    · rintro (k | ⟨c, k, hc⟩) h0
      · have := h'.det _ k; cases this
      · cases h0
        have := h'.det _ k; cases this; exact hc rfl

section
variable {S : Type} {so : StackOps S} {saved : S → List (List Span)} (hls : Lawful so saved) {env : Setting} {attrs : List Attr} {table : Name → Char → Bool}
  (hw : Faithful env.world) (hu : ∀ a ∈ attrs, Understood env.ident a)
include hls hw hu

/-- A declaration with a text of which the rules are known: for rules of which is known what they leave of a text. -/
theorem inline_parser {text : Text} {rules : List Rule} {paths : List (List Name)} (hr : Reads text (rules.map .rule)) (ha : attrs.filterMap sourceOf = [.inline text])
    (hp : Plain (unicodeOf env.unicodeNames table) rules paths) (hn : AllNamed (unicodeOf env.unicodeNames table) (.mk rules [])) :
    (∃ fuel d, derive env fuel attrs = .ok d) ∧ ∀ fuel d, derive env fuel attrs = .ok d →
      (∃ R e lab, Linked (unicodeOf env.unicodeNames table) d.code.1 d.code.2.wrappers R e ∧ Labelled d.code.1 R e lab) ∧
      ∀ R e lab, Linked (unicodeOf env.unicodeNames table) d.code.1 d.code.2.wrappers R e → Labelled d.code.1 R e lab → ∀ r ∈ rules, r.name ≠ optName → r.name ≠ manName →
        ∀ (inp : Str) (o : Option Text), Leaves (unicodeOf env.unicodeNames table) (.mk rules []) (.expr (.mk [] [] r.node)) [] inp.text [] o →
          ((∃ n t, tryParse so e n (.rule (R.num [] r.name [])) inp = .ok (.ok t)) ↔ o = some []) ∧
          ((∃ n trk, tryParse so e n (.rule (R.num [] r.name [])) inp = .ok (.error trk)) ↔ o ≠ some []) ∧
          (∀ k, (∃ n t, tryParsePartial so e n (.rule (R.num [] r.name [])) inp = .ok (.ok (⟨inp, k⟩, t))) ↔ ∃ a b, inp.text = a ++ b ∧ utf8Len a = k ∧ o = some b) := by
  have hm := inline_modules hr hw ha
  have hs : ∀ x, ¬ SilentName (united [.mk rules []]) x := by rw [united_one]; exact hp.silent
  have hn' : AllNamed (unicodeOf env.unicodeNames table) (united [.mk rules []]) := by rw [united_one]; exact hn
  refine ⟨(C75_accepted hm hs hn').mpr ⟨hu, by rw [ha]; simp, by rw [united_one]; exact hp.scoped⟩, fun fuel d hd => ?_⟩
  obtain ⟨h1, h2⟩ := C75_parser (table := table) hls hd hm hs hn'
  refine ⟨h1 fun m' h => hp.acyclic (by rwa [united_one] at h), fun R e lab hl hlab r hr ho hman inp o hlv => ?_⟩
  have h3 := h2 R e lab hl hlab [] (.mk rules []) r (by rw [united_one]; rfl) hr ho hman (hp.args r hr) inp
  rw [united_one] at h3
  have h4 := leaves_accepts hlv
  refine ⟨h3.1.trans h4.1, h3.2.2.1.trans h4.2, fun k => ?_⟩
  obtain ⟨ms', cfg, hm', hg, -⟩ := C71_result_partial _ _ _ _ hd
  cases modules_unique hm hm'
  have hgen := (generateTyped_none hs).mp ⟨_, hg⟩
  rw [united_one] at hgen
  have hf := findRule_eq (hn (.mk rules []) .refl).rules hr
  refine ((C52_try_parse hls hgen hn hl (p := []) rfl hf ho hman (hp.args r hr) inp).2 k).trans ?_
  cases o with
  | none =>
    refine ⟨fun ⟨c, _, h5⟩ => ?_, fun ⟨_, _, _, _, h5⟩ => by cases h5⟩
    have := h5.det _ hlv; cases this
  | some s' =>
    obtain ⟨w, h5, h6⟩ := hlv
    constructor
    · rintro ⟨c, rfl, h7⟩
      have := h7.det _ h6
      cases this
      exact ⟨w, s', h5, rfl, rfl⟩
    · rintro ⟨a, b, h7, rfl, h8⟩
      cases h8
      rw [h7] at h5
      cases List.append_cancel_right h5
      exact ⟨_, rfl, h6⟩

/-- The parser of `derive/tests/skip.rs`: blanks and comments may stand between the `x` of the rule `main`, not before or after them; the rule `program` allows them there too.
`try_parse_partial` takes the longest text of the rule at the beginning. -/
theorem C96_skip (ha : attrs.filterMap sourceOf = [.inline skipText]) : (∃ fuel d, derive env fuel attrs = .ok d) ∧ ∀ fuel d, derive env fuel attrs = .ok d →
    (∃ R e lab, Linked (unicodeOf env.unicodeNames table) d.code.1 d.code.2.wrappers R e ∧ Labelled d.code.1 R e lab) ∧
    ∀ R e lab, Linked (unicodeOf env.unicodeNames table) d.code.1 d.code.2.wrappers R e → Labelled d.code.1 R e lab → ∀ inp : Str, inp.text.length + 1 < usizeMax →
      let main := fun n => tryParse so e n (.rule (R.num [] "main".toList [])) inp
      let program := fun n => tryParse so e n (.rule (R.num [] "program".toList [])) inp
      ((∃ n t, main n = .ok (.ok t)) ↔ inp.text = [] ∨ Xs Gaps inp.text) ∧
      ((∃ n trk, main n = .ok (.error trk)) ↔ ¬ (inp.text = [] ∨ Xs Gaps inp.text)) ∧
      (∀ k, (∃ n t, tryParsePartial so e n (.rule (R.num [] "main".toList [])) inp = .ok (.ok (⟨inp, k⟩, t))) ↔
        ∃ a, a <+: inp.text ∧ (a = [] ∨ Xs Gaps a) ∧ (∀ a', a' <+: inp.text → a' = [] ∨ Xs Gaps a' → a'.length ≤ a.length) ∧ utf8Len a = k) ∧
      ((∃ n t, program n = .ok (.ok t)) ↔ Program inp.text) ∧
      ((∃ n trk, program n = .ok (.error trk)) ↔ ¬ Program inp.text) := by
  obtain ⟨h1, h2⟩ := inline_parser (table := table) hls hw hu C96_grammars.1 ha skip_plain skip_named
  refine ⟨h1, fun fuel d hd => ?_⟩
  obtain ⟨h3, h4⟩ := h2 fuel d hd
  refine ⟨h3, fun R e lab hl hlab inp hi => ?_⟩
  have hm := h4 R e lab hl hlab ⟨mainName, [], kMain, false⟩ (by simp [skipRules]) (by show mainName ≠ _; decide) (by show mainName ≠ _; decide) inp _ (leaves_main hi)
  have hp := h4 R e lab hl hlab ⟨programName, [], kProgram, false⟩ (by simp [skipRules]) (by show programName ≠ _; decide) (by show programName ≠ _; decide) inp _ (leaves_program hi)
  have em : some ((itemsF nextF inp.text).getD inp.text) = some [] ↔ inp.text = [] ∨ Xs Gaps inp.text := by
    rw [← itemsF_iff next_gaps, Option.some.injEq]
    cases h : itemsF nextF inp.text with
    | none => simp
    | some s =>
      simp only [Option.getD_some, Option.some.injEq]
      refine ⟨.inr, ?_⟩
      rintro (h0 | h0)
      · rw [h0] at h; cases h
      · exact h0
  have ep : (if gapsF ((itemsF nextF (gapsF inp.text)).getD (gapsF inp.text)) = [] then some [] else none) = some ([] : Text) ↔ Program inp.text := by
    rw [← program_iff]
    split <;> simp [*]
  refine ⟨hm.1.trans em, hm.2.1.trans (not_congr em), fun k => (hm.2.2 k).trans ?_, hp.1.trans ep, hp.2.1.trans (not_congr ep)⟩
  obtain ⟨a, h5, h6, h7⟩ := itemsF_split next_gaps inp.text
  constructor
  · rintro ⟨a', b', h8, rfl, h9⟩
    rw [Option.some.inj h9] at h5
    rw [h5] at h8
    cases List.append_cancel_right h8
    exact ⟨a, ⟨b', h5.symm⟩, h6, fun a'' ⟨b'', h⟩ => h7 _ _ h.symm, rfl⟩
  · rintro ⟨a', ⟨b', h8⟩, h9, h10, rfl⟩
    have l1 := h7 _ _ h8.symm h9
    have l2 := h10 a ⟨_, h5.symm⟩ h6
    rw [h5] at h8
    obtain ⟨rfl, rfl⟩ := List.append_inj h8 (Nat.le_antisymm l1 l2)
    exact ⟨a', _, h5, rfl, rfl⟩

/-- The parser of `derive/examples/reader.rs`: exactly one blank or comment stands between two `x`. -/
theorem C96_reader (ha : attrs.filterMap sourceOf = [.inline readerText]) : (∃ fuel d, derive env fuel attrs = .ok d) ∧ ∀ fuel d, derive env fuel attrs = .ok d →
    (∃ R e lab, Linked (unicodeOf env.unicodeNames table) d.code.1 d.code.2.wrappers R e ∧ Labelled d.code.1 R e lab) ∧
    ∀ R e lab, Linked (unicodeOf env.unicodeNames table) d.code.1 d.code.2.wrappers R e → Labelled d.code.1 R e lab → ∀ inp : Str, inp.text.length + 1 < usizeMax →
      let main := fun n => tryParse so e n (.rule (R.num [] "main".toList [])) inp
      ((∃ n t, main n = .ok (.ok t)) ↔ Xs Gap inp.text) ∧ ((∃ n trk, main n = .ok (.error trk)) ↔ ¬ Xs Gap inp.text) := by
  obtain ⟨h1, h2⟩ := inline_parser (table := table) hls hw hu C96_grammars.2 ha reader_plain reader_named
  refine ⟨h1, fun fuel d hd => ?_⟩
  obtain ⟨h3, h4⟩ := h2 fuel d hd
  refine ⟨h3, fun R e lab hl hlab inp hi => ?_⟩
  have hm := h4 R e lab hl hlab ⟨mainName, [], kReader, false⟩ (by simp [readerRules]) (by show mainName ≠ _; decide) (by show mainName ≠ _; decide) inp _ (leaves_reader hi)
  have em := itemsF_iff next_gap inp.text
  exact ⟨hm.1.trans em, hm.2.1.trans (not_congr em)⟩

end

/-! ## The texts of the tests -/

/-- The attributes of the test (`derive/tests/skip.rs:6-11`) meet the hypotheses of `C96_skip`; `Faithful` worlds exist by `C67_world`. -/
example (env : Setting) : ∃ attrs : List Attr, (∀ a ∈ attrs, Understood env.ident a) ∧ attrs.filterMap sourceOf = [.inline skipText] :=
  ⟨[⟨some "grammar_inline".toList, .str skipText⟩], by
    intro a ha
    cases List.mem_singleton.mp ha
    exact ⟨fun x _ _ => ⟨_, rfl⟩, fun x hx h => by cases h; exact absurd hx (by decide), fun h => absurd h (by show ¬ some "grammar_inline".toList = some "rules_mod".toList; decide)⟩, rfl⟩

/-- The texts of the tests (`derive/tests/skip.rs:15-39`). -/
example : Program "/* x x */ x x /*x*/".toList ∧ Xs Gaps "x /*x*/ x".toList ∧ ¬ Xs Gaps "x x x /*x*/".toList ∧ ¬ Xs Gaps " x x".toList ∧ ¬ Xs Gaps "x x ".toList ∧ ¬ Program "x /* x".toList := by
  simp only [← program_iff, ← itemsF_iff next_gaps]
  decide +kernel

/-- One blank or comment, neither none nor two. -/
example : Xs Gap "x x/*x*/x".toList ∧ ¬ Xs Gap "xx".toList ∧ ¬ Xs Gap "x  x".toList := by
  simp only [← itemsF_iff next_gap]
  decide +kernel

end Pest3.Skip
