import Verif.InlineNone
import Verif.Props.Deriving
import Verif.Props.Notation
import Verif.Props.Scoping
import Verif.Props.Forest

/-!
# C75: from the text of a grammar to the texts its parser accepts

The parts of the chain are C68 (notation), C47 (loading), C71 (attributes), C61 and C52 (generation), C65 (tokens) and C16, C19 (running
the parser); here they are put together.  Silent rules with parameters, which are removed before, are left to C46.
-/

namespace Pest3.Props
open Pest3 Pest3.Gen Pest3.Load

/-- The rules in a text. -/
def rulesIn (items : List FileItem) : List Rule := items.filterMap fun | .rule r => some r | _ => none

/-- There is nothing but rules and documentation. -/
def OnlyRules (items : List FileItem) : Prop := ∀ i ∈ items, i = .doc ∨ ∃ r, i = .rule r

theorem loads_onlyRules {w : World} {root : FPath} : ∀ {items : List FileItem}, OnlyRules items → Loads w (.items root items (rulesIn items) [])
  | [], _ => .nil
  | i :: l, h => by
    have ih := loads_onlyRules (w := w) (root := root) (items := l) fun j hj => h j (List.mem_cons_of_mem _ hj)
    rcases h i List.mem_cons_self with rfl | ⟨r, rfl⟩
    · exact .doc ih
    · exact .rule ih

/-- A text written in the notation, given in an attribute, is the grammar with the rules that are written. -/
theorem modules_text {env : Setting} (hw : Faithful env.world) {text : Text} {items : List FileItem} (ht : FileText items text) (ho : OnlyRules items) :
    Modules env [.inline text] [.mk (rulesIn items) []] :=
  .cons .inline (.file ((hw _ _).mpr (C68_notation ht)) (loads_onlyRules ho)) .nil

theorem modules_unique {env : Setting} {l : List Source} {ms ms' : List Module} (h : Modules env l ms) (h' : Modules env l ms') : ms = ms' := by
  induction h generalizing ms' with
  | nil => cases h'; rfl
  | cons hg hl _ ih =>
    cases h' with
    | cons hg' hl' h' =>
      obtain ⟨rfl, rfl⟩ := given_det hg hg'
      rw [loads_det hl _ hl', ih h']

/-- The options the attributes ask for. -/
theorem config_exists (attrs : List Attr) : ∃ cfg : Config, (cfg.boxOnlyIfNeeded = true ↔ IsSet "box_all_rules".toList attrs) ∧ cfg.noGetter = false ∧
    ∀ s, cfg.rulesMod = some s ↔ lastArg "rules_mod".toList attrs = some (.str s) := by
  classical
  refine ⟨⟨decide (IsSet "box_all_rules".toList attrs), false, match lastArg "rules_mod".toList attrs with | some (.str s) => some s | _ => none⟩,
    decide_eq_true_iff, rfl, fun s => ?_⟩
  dsimp only
  split
  · rename_i s' h; rw [h]; simp
  · rename_i h
    constructor
    · intro h'; cases h'
    · intro h'; exact absurd h' (h s)

theorem tryParsePartial_error {S : Type} {so : StackOps S} {e : Env} {n : Nat} {x : Node} {inp : Str} :
    (∃ trk, tryParsePartial so e n x inp = .ok (.error trk)) ↔
      ∃ st, parse so realTracker e n x (Position.fromStart inp) (initSt so inp) = .ok (none, st) := by
  unfold tryParsePartial
  generalize parse so realTracker e n x (Position.fromStart inp) (initSt so inp) = o
  rcases o with ⟨_ | a, st⟩ | _ | _ <;> simp [finishRun]

theorem tryParse_oof {S : Type} {so : StackOps S} {saved : S → List (List Span)} (hls : Lawful so saved) {e : Env} {n : Nat} {x : Node} {inp : Str} :
    tryParse so e n x inp = .oof ↔ parse so realTracker e n x (Position.fromStart inp) (initSt so inp) = .oof := by
  unfold tryParse tryParseWith
  rcases run_cases hls e (good_start inp) (ready_init hls inp) n x with ⟨h1, h2⟩ | ⟨s, h1, h2⟩ | ⟨q', t', s, h1, h2, hq, hs⟩ <;> rw [h1]
  · simp [finishRun]
  · simp [finishRun]
  · obtain ⟨s', he, _⟩ := eoi_run hq hs
    simp only [Out.andThen_some, he]
    cases q'.atEnd <;> simp [finishRun]

/-- What the struct of a rule without parameters does, in terms of the grammar it was generated from. -/
theorem generated_parser {S : Type} {so : StackOps S} {saved : S → List (List Span)} (hls : Lawful so saved) {cfg : Config} {names : List Name} {table : Name → Char → Bool}
    {m m' : Module} {out : Output} {st : GenSt} {R : Layout} {e : Env} {lab : Label → RuleVal} (hgen : generateModule cfg names m = .ok (out, st))
    (hn : AllNamed (unicodeOf names table) m) (hl : Linked (unicodeOf names table) out st.wrappers R e) (hlab : Labelled out R e lab) {p : List Name}
    (hp : modAt m p = some m') {r : Rule} (hf : findRule m'.rules r.name = some r) (ho : r.name ≠ optName) (hman : r.name ≠ manName) (ha : r.args = []) (inp : Str) :
      let means := Meaning (unicodeOf names table) m (.expr (.mk p [] r.node)) (startCfg inp)
      let parser := fun n => tryParse so e n (.rule (R.num p r.name [])) inp
      ((∃ n t, parser n = .ok (.ok t)) ↔ ∃ stk, means (some ⟨inp.text, [], stk⟩)) ∧
      (r.silent = false → ∀ P, (∃ n t, parser n = .ok (.ok t) ∧ t.asPairTree e lab = some P) ↔
        ∃ stk F, Shows (unicodeOf names table) m (.expr (.mk p [] r.node)) (startCfg inp) ⟨inp.text, [], stk⟩ F ∧
          P = .mk (ruleAt p r.name) 0 (utf8Len inp.text) F) ∧
      ((∃ n trk, parser n = .ok (.error trk)) ↔ means none ∨ ∃ c, means (some c) ∧ c.suf ≠ []) ∧
      ((∀ n, parser n = .oof) ↔ ∀ res, ¬ means res) := by
  intro means parser
  have peg := C52_rule hgen hn hl hp hf ho hman ha (startCfg inp)
  have pg := good_start inp
  have rd := ready_init hls inp
  have co := corr_start hls inp
  refine ⟨(C52_try_parse hls hgen hn hl hp hf ho hman ha inp).1, fun hsil P => C65_try_parse hls hgen hn hl hlab hp hf ho hman ha hsil inp P, ?_, ?_⟩
  · have h1 := C16_failure_iff hls e pg rd co (.rule (R.num p r.name []))
    rw [peg] at h1
    constructor
    · rintro ⟨n, trk, h⟩
      rcases (C19_error_iff hls e inp n _).mp ⟨trk, h⟩ with ⟨trk, h⟩ | ⟨q, t, h, hlt⟩
      · exact .inl (h1.mp ⟨n, tryParsePartial_error.mp ⟨trk, h⟩⟩)
      · obtain ⟨c, ss, rfl, hb⟩ := (C16_try_parse_prefix hls e inp _ t _).mp ⟨n, h⟩
        refine .inr ⟨c, (peg _).mp hb.peg, fun h0 => ?_⟩
        obtain ⟨w, h3, h4⟩ := hb.peg.consumes c rfl
        simp only [startCfg, List.nil_append] at h3 h4
        rw [h0, List.append_nil] at h4
        rw [h3, ← h4] at hlt
        exact absurd hlt (Nat.lt_irrefl _)
    · rintro (h | ⟨c, h, hne⟩)
      · obtain ⟨n, st, h⟩ := h1.mpr h
        obtain ⟨trk, h⟩ := (C19_error_iff hls e inp n _).mpr (.inl (tryParsePartial_error.mpr ⟨st, h⟩))
        exact ⟨n, trk, h⟩
      · obtain ⟨n, t, h2⟩ := ((C52_try_parse hls hgen hn hl hp hf ho hman ha inp).2 _).mpr ⟨c, rfl, h⟩
        obtain ⟨w, h3, h4⟩ := ((peg _).mpr h).consumes c rfl
        simp only [startCfg, List.nil_append] at h3 h4
        obtain ⟨trk, h⟩ := (C19_error_iff hls e inp n _).mpr (.inr ⟨_, t, h2, by
          have : utf8Len c.suf ≠ 0 := fun h => hne (utf8Len_eq_zero.mp h)
          dsimp only
          rw [h3, h4, utf8Len_append]; omega⟩)
        exact ⟨n, trk, h⟩
  · have h1 := C16_diverges_iff hls e pg rd co (.rule (R.num p r.name []))
    refine Iff.trans ?_ (h1.trans (forall_congr' fun res => not_congr (peg res)))
    exact forall_congr' fun n => tryParse_oof hls

section
variable {env : Setting} {attrs : List Attr} {ms : List Module} {table : Name → Char → Bool}

/-- The macro generates a parser exactly if every attribute is written as it has to be, there is a grammar, and everything in it is
well scoped. -/
theorem C75_accepted (hm : Modules env (attrs.filterMap sourceOf) ms) (hs : ∀ x, ¬ SilentName (united ms) x)
    (hn : AllNamed (unicodeOf env.unicodeNames table) (united ms)) :
    (∃ fuel d, derive env fuel attrs = .ok d) ↔
      (∀ a ∈ attrs, Understood env.ident a) ∧ attrs.filterMap sourceOf ≠ [] ∧ AllScoped (unicodeOf env.unicodeNames table) (united ms) := by
  constructor
  · rintro ⟨fuel, d, h⟩
    obtain ⟨ms', cfg, hm', hg, -⟩ := C71_result_partial _ _ _ _ h
    cases modules_unique hm hm'
    obtain ⟨⟨sources, o⟩, h1, -⟩ := andThen_ok.mp h
    obtain ⟨hu, rfl, hne, -⟩ := (C71_attributes _ _ _ _).mp h1
    exact ⟨hu, hne, (C61_accepts hn).mp ⟨_, (generateTyped_none hs).mp ⟨_, hg⟩⟩⟩
  · rintro ⟨hu, hne, hsc⟩
    obtain ⟨cfg, c1, c2, c3⟩ := config_exists attrs
    obtain ⟨r, hr⟩ := (C61_accepts (cfg := cfg) hn).mpr hsc
    obtain ⟨n, hg⟩ := (generateTyped_none hs).mpr hr
    obtain ⟨N, hN⟩ := C71_succeeds env attrs ms cfg n r hu hne hm c1 c2 c3 hg
    obtain ⟨d, h, -⟩ := hN N (Nat.le_refl _)
    exact ⟨N, d, h⟩

/-- Whenever the macro generates a parser it is the parser of the grammar: the generated definitions are a program, if trivia rules
do not use themselves.  In it, the struct of a rule without parameters accepts exactly the texts that the expression of the rule matches completely;
the tokens are those of the rules that were applied; it rejects exactly the texts of which the expression matches nothing or
only a part; and it runs forever exactly on those for which the grammar does not say either. -/
theorem C75_parser {S : Type} {so : StackOps S} {saved : S → List (List Span)} (hls : Lawful so saved) {fuel : Nat} {d : Derived} (h : derive env fuel attrs = .ok d) (hm : Modules env (attrs.filterMap sourceOf) ms)
    (hs : ∀ x, ¬ SilentName (united ms) x) (hn : AllNamed (unicodeOf env.unicodeNames table) (united ms)) :
    ((∀ m', ModIn m' (united ms) → TriviaAcyclic m') →
      ∃ R e lab, Linked (unicodeOf env.unicodeNames table) d.code.1 d.code.2.wrappers R e ∧ Labelled d.code.1 R e lab) ∧
    ∀ R e lab, Linked (unicodeOf env.unicodeNames table) d.code.1 d.code.2.wrappers R e → Labelled d.code.1 R e lab →
    ∀ p m' r, modAt (united ms) p = some m' → r ∈ m'.rules → r.name ≠ optName → r.name ≠ manName → r.args = [] → ∀ inp : Str,
      let means := Meaning (unicodeOf env.unicodeNames table) (united ms) (.expr (.mk p [] r.node)) (startCfg inp)
      let parser := fun n => tryParse so e n (.rule (R.num p r.name [])) inp
      ((∃ n t, parser n = .ok (.ok t)) ↔ ∃ stk, means (some ⟨inp.text, [], stk⟩)) ∧
      (r.silent = false → ∀ P, (∃ n t, parser n = .ok (.ok t) ∧ t.asPairTree e lab = some P) ↔
        ∃ stk F, Shows (unicodeOf env.unicodeNames table) (united ms) (.expr (.mk p [] r.node)) (startCfg inp) ⟨inp.text, [], stk⟩ F ∧
          P = .mk (ruleAt p r.name) 0 (utf8Len inp.text) F) ∧
      ((∃ n trk, parser n = .ok (.error trk)) ↔ means none ∨ ∃ c, means (some c) ∧ c.suf ≠ []) ∧
      ((∀ n, parser n = .oof) ↔ ∀ res, ¬ means res) := by
  obtain ⟨ms', cfg, hm', hg, -⟩ := C71_result_partial _ _ _ _ h
  cases modules_unique hm hm'
  have hgen := (generateTyped_none hs).mp ⟨_, hg⟩
  refine ⟨fun ha => C65_exists _ hgen (fun m' h => (hn m' h).rules) ha, ?_⟩
  intro R e lab hl hlab p m' r hp hr ho hman ha inp
  have hf := findRule_eq (hn m' (modAt_in p hp)).rules hr
  exact generated_parser hls hgen hn hl hlab hp hf ho hman ha inp

/-- From the text to the parser: a declaration with a grammar written in the notation, in which nothing is ambiguous and everything is
well scoped, gives a parser, and the struct of a rule accepts exactly the texts that the expression written for the rule matches. -/
theorem C75_text {S : Type} {so : StackOps S} {saved : S → List (List Span)} (hls : Lawful so saved) (hw : Faithful env.world)
    {text : Text} {items : List FileItem} (ht : FileText items text) (ho : OnlyRules items)
    (hu : ∀ a ∈ attrs, Understood env.ident a) (ha : attrs.filterMap sourceOf = [.inline text])
    (hs : ∀ r ∈ rulesIn items, r.silent = true → r.args = [])
    (hn : WellNamed (unicodeOf env.unicodeNames table) (.mk (rulesIn items) []))
    (hsc : WellScoped (unicodeOf env.unicodeNames table) (.mk (rulesIn items) []))
    (hac : TriviaAcyclic (.mk (rulesIn items) [])) :
    ∃ fuel d R e, derive env fuel attrs = .ok d ∧ Linked (unicodeOf env.unicodeNames table) d.code.1 d.code.2.wrappers R e ∧
      ∀ r ∈ rulesIn items, r.name ≠ optName → r.name ≠ manName → r.args = [] → ∀ inp : Str,
        (∃ n t, tryParse so e n (.rule (R.num [] r.name [])) inp = .ok (.ok t)) ↔
          ∃ stk, Meaning (unicodeOf env.unicodeNames table) (.mk (rulesIn items) []) (.expr (.mk [] [] r.node)) (startCfg inp)
            (some ⟨inp.text, [], stk⟩) := by
  have hm : Modules env (attrs.filterMap sourceOf) [.mk (rulesIn items) []] := ha ▸ modules_text hw ht ho
  have hun : united [.mk (rulesIn items) []] = .mk (rulesIn items) [] := by simp [united, Module.rules, Module.imports]
  have all : ∀ {m'}, ModIn m' (.mk (rulesIn items) []) → m' = .mk (rulesIn items) [] := by
    intro m' h
    cases h with
    | refl => rfl
    | step h1 _ => simp [Module.imports] at h1
  have hs' : ∀ x, ¬ SilentName (united [.mk (rulesIn items) []]) x := by
    rw [hun]
    rintro x ⟨m', h1, f, h2, h3, -⟩
    cases all h1
    simp only [Rule.inlined, Bool.and_eq_true] at h3
    rw [hs f h2 h3.1] at h3
    exact absurd h3.2 (by simp)
  have hn' : AllNamed (unicodeOf env.unicodeNames table) (united [.mk (rulesIn items) []]) := by
    rw [hun]; intro m' h; cases all h; exact hn
  obtain ⟨fuel, d, h⟩ := (C75_accepted hm hs' hn').mpr ⟨hu, by rw [ha]; simp, by rw [hun]; intro m' h; cases all h; exact hsc⟩
  obtain ⟨h1, h2⟩ := C75_parser hls h hm hs' hn'
  obtain ⟨R, e, lab, hl, hlab⟩ := h1 (by rw [hun]; intro m' h; cases all h; exact hac)
  refine ⟨fuel, d, R, e, h, hl, fun r hr ho hman hargs inp => ?_⟩
  have h3 := h2 R e lab hl hlab [] _ r rfl (by rw [hun]; exact hr) ho hman hargs inp
  rw [hun] at h3
  exact h3.1

end

/-! ### Example -/

private def endText : Text := "x = \"a\" ~ y\ny = 'b'..'c'\n~ = \" \"".toList

private def endItems : List FileItem :=
  [.rule ⟨['x'], [], .seq (.str ['a']) (.path [['y']]) .optional, false⟩, .rule ⟨['y'], [], .range 'b' 'c', false⟩, .rule ⟨['~'], [], .str [' '], false⟩]

private theorem endText_file : FileText endItems endText := by
  have gap : Gap [' '] := .blank .space .nil
  have nl : Gap ['\n'] := .blank (.line .lf) .nil
  have str : ∀ x : Char, x ≠ '"' → x ≠ '\\' → Meta.Denotes [x] (some [x]) := fun x h1 h2 => .plain h1 h2 .nil
  have ident : ∀ x : Char, isAlpha x → IsIdent [x] := fun x h => .mk (.inr h) (by intro _ h; cases h)
  have r1 : RuleText ⟨['x'], [], .seq (.str ['a']) (.path [['y']]) .optional, false⟩ [] true _ :=
    .mk .nil (.inl (ident 'x' (.inl (by decide)))) gap .none gap (.plain (.whole (.alternative (.seq (note_up (.str (str 'a' (by decide) (by decide)))) gap .optional gap
      (.single (note_up (.path (.one (ident 'y' (.inl (by decide))))))))))
      (by intro r h; cases h))
  have r2 : RuleText ⟨['y'], [], .range 'b' 'c', false⟩ [] true _ :=
    .mk .nil (.inl (ident 'y' (.inl (by decide)))) gap .none gap (.plain (note_whole (note_up (.range (.plain (by decide) (by decide)) .nil .nil
      (.plain (by decide) (by decide))))) (by intro r h; cases h))
  have r3 : RuleText ⟨['~'], [], .str [' '], false⟩ [] true _ :=
    .mk .nil (.inr (.inl rfl)) gap .none gap (.plain (note_whole (note_up (.str (str ' ' (by decide) (by decide))))) (by intro r h; cases h))
  have file : Documented endItems [] [(['x'], []), (['y'], []), (['~'], [])] _ := .mk .nil .nil
    (.cons (.openRule r1) nl (by simp) (.cons (.openRule r2) nl (by simp) (.last (.openRule r3) (.gap .nil))
      (by
        rintro ⟨x, g, r, _, _, h⟩
        have : '(' ∈ x :: (g ++ '(' :: r) := by simp
        rw [← h] at this
        revert this
        decide))
      (by rintro ⟨x, g, r, hx, _, h⟩; injection h with h _; subst h; revert hx; decide)) ⟨_, List.mem_cons_self⟩
  have he : ∀ {t : Text}, Documented endItems [] [(['x'], []), (['y'], []), (['~'], [])] t → t = endText → FileText endItems endText := by
    rintro _ h rfl; exact ⟨_, _, h⟩
  exact he file (by decide +kernel)

private theorem endItems_named (u : Unicode) : WellNamed u (.mk (rulesIn endItems) []) := by
  refine ⟨by decide, by decide, by simp [Module.imports], by simp [Module.imports], ?_, ?_⟩
  · simp [Module.rules, rulesIn, endItems]
  · simp [Module.rules, rulesIn, endItems, ParamsPlain]

private theorem endItems_acyclic : TriviaAcyclic (.mk (rulesIn endItems) []) := by
  have no : ∀ t s, ¬ UsesTrivia t (.str s) := by
    rintro t s (⟨l, r, h⟩ | ⟨e, h⟩) <;> cases h
  refine ⟨?_, ?_, .inl ?_⟩ <;>
    simp only [rulesIn, endItems, Module.rules, List.filterMap_cons, List.filterMap_nil, List.mem_cons, List.not_mem_nil, or_false, forall_eq_or_imp, forall_eq, no,
      not_false_eq_true, implies_true, and_true] <;>
    exact ⟨fun h => absurd h (by decide), fun h => absurd h (by decide)⟩

/-- A declaration with this grammar gives a parser whose `x` accepts `a c`. -/
example : ∃ (env : Setting) (attrs : List Attr) (fuel : Nat) (d : Derived) (R : Layout) (e : Env), derive env fuel attrs = .ok d ∧
    Linked (unicodeOf [] fun _ _ => false) d.code.1 d.code.2.wrappers R e ∧
    (∃ n t, tryParse idealOps e n (.rule (R.num [] ['x'] [])) ⟨0, "a c".toList⟩ = .ok (.ok t)) := by
  obtain ⟨w, -, hw, -⟩ := C67_world fun _ => none
  let env : Setting := ⟨none, ⟨true, []⟩, fun _ => false, fun _ => false, [], w⟩
  let attrs : List Attr := [⟨some "grammar_inline".toList, .str endText⟩]
  have hn := endItems_named (unicodeOf [] fun _ _ => false)
  have all : AllNamed (unicodeOf [] fun _ _ => false) (.mk (rulesIn endItems) []) := by
    intro m' h
    cases h with
    | refl => exact hn
    | step h1 _ => simp [Module.imports] at h1
  have hsc : WellScoped (unicodeOf [] fun _ _ => false) (.mk (rulesIn endItems) []) :=
    (C61_accepts (cfg := ⟨true, false, none⟩) all).mp ⟨_, rfl⟩ _ .refl
  obtain ⟨fuel, d, R, e, h, hl, h'⟩ := C75_text (env := env) (attrs := attrs) (table := fun _ _ => false) ideal_lawful hw endText_file
    (by simp [OnlyRules, endItems]) (by
      intro a ha
      cases List.mem_singleton.mp ha
      exact ⟨fun x _ _ => ⟨_, rfl⟩, fun x hx h => by cases h; exact absurd hx (by decide), fun h => absurd h (by show ¬ some "grammar_inline".toList = some "rules_mod".toList; decide)⟩) (by decide)
    (by simp [rulesIn, endItems]) hn hsc endItems_acyclic
  refine ⟨env, attrs, fuel, d, R, e, h, hl, ?_⟩
  refine (h' ⟨['x'], [], .seq (.str ['a']) (.path [['y']]) .optional, false⟩ (by simp [rulesIn, endItems]) (by decide) (by decide) rfl _).mpr ⟨[], ?_⟩
  refine .seq (.literalOk (m := ['a']) (rest := " c".toList) rfl rfl rfl) (c2 := ⟨"a ".toList, "c".toList, []⟩)
    (.triviaRule (m := .mk (rulesIn endItems) []) rfl rfl (.literalOk (m := [' ']) (rest := "c".toList) rfl rfl rfl)) ?_
  exact .rule (p' := []) (r := ⟨['y'], [], .range 'b' 'c', false⟩) (fun x hx => rfl) rfl rfl
    (.literalOk (m := ['c']) (rest := []) rfl rfl rfl)

end Pest3.Props
