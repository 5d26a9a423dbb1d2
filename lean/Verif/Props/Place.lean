import Verif.ModRead
import Verif.Props.Small
import Verif.Props.Closed

/-!
# Where the types of the rules are (`derive/tests/custom_rules_mod.rs`)
-/

namespace Pest3.Place
open Pest3 Pest3.Gen Pest3.Load Pest3.Props
open Pest3.Json (strip strip_some leaves_str)

/-- The name of the modules of rules: what the last attribute `rules_mod` says, or `rules`. -/
def moduleName (attrs : List Attr) : Name :=
  match lastArg "rules_mod".toList attrs with
  | some (.str s) => s
  | _ => "rules".toList

/-- The Rust module of the rules of the grammar that is imported under these names: `rules::a::rules::b::rules`. -/
def modulePath (attrs : List Attr) (p : List Name) : List Name := moduleName attrs :: p.flatMap fun x => [x, moduleName attrs]

/-- The Rust module of a grammar has a type for each of its rules, in their order and with their names, after the two types for trivia, and no others. -/
theorem C102_place {env : Setting} {fuel : Nat} {attrs : List Attr} {d : Derived} (hd : derive env fuel attrs = .ok d) {ms : List Module} (hm : Modules env (attrs.filterMap sourceOf) ms)
    (hs : ∀ x, ¬ SilentName (united ms) x) {p : List Name} {m : Module} (hp : modAt (united ms) p = some m) (uni : List Name) :
    ∃ i, (generated uni d.code.1 d.code.2).at (modulePath attrs p) = some i ∧
      i.types.map Prod.fst = "__OptionalTrivia".toList :: "__MandatoryTrivia".toList :: (m.rules.filter fun r => r.name ≠ optName ∧ r.name ≠ manName).map Rule.name := by
  obtain ⟨ms', cfg, hm', hg, -, -, -, hmod, -⟩ := C71_result_partial _ _ _ _ hd
  cases modules_unique hm hm'
  have hgen := (generateTyped_none hs).mp ⟨_, hg⟩
  have hname : typesMod cfg.rulesMod = moduleName attrs := by
    unfold typesMod moduleName
    cases hr : cfg.rulesMod with
    | some s => rw [(hmod s).mp hr]; rfl
    | none =>
      split
      next s h => have := (hmod s).mpr h; rw [hr] at this; cases this
      · rfl
  have hpath : modulePath attrs p = scopeOf cfg.rulesMod p := by unfold modulePath scopeOf; rw [hname]
  unfold generateModule at hgen
  obtain ⟨⟨⟨out, sys⟩, st⟩, h1, h⟩ := andThen_ok.mp hgen
  have h : (out, st) = d.code := by simpa using h
  rw [← h, hpath]
  have hG := processModule_gen _ _ _ _ _ h1
  obtain ⟨o, sys1, st1, st2, ho, h2, -⟩ := genMod_at p hG WfSt.new hp
  refine ⟨o.scope, generated_scope (fun q o' => genMod_uniform hG) ho, ?_⟩
  cases h2 with
  | mk k1 k2 k3 k4 =>
    have k5 := genRules_names (processRuleList_gen _ _ _ _ _ k4)
    simp only [List.map_nil, List.nil_append] at k5
    simp only [Output.scope, Items.types, List.map_cons, List.map_map]
    exact congrArg (fun l => "__OptionalTrivia".toList :: "__MandatoryTrivia".toList :: l) k5

/-- The texts are read as the rules of the model. -/
theorem C102_grammars : Reads customText (customRules.map .rule) ∧ Reads usualText (usualRules.map .rule) := ⟨reads_run custom_read, reads_run usual_read⟩

theorem literal_simple {u : Unicode} {x : Name} {t : Text} (hx : x ≠ optName) : Small.Simple u [⟨x, [], .str t, false⟩] [] [.none] where
  usable := fun q hq => by cases hq
  exprs := fun r hr => by cases List.mem_singleton.mp hr; rfl
  args := fun r hr => by cases List.mem_singleton.mp hr; rfl
  loud := fun r hr => by cases List.mem_singleton.mp hr; rfl
  opt := fun h => absurd h (by decide)
  man := by decide
  inner := fun r hr h => by cases List.mem_singleton.mp hr; exact absurd h hx
  names := by simp

section
variable {S : Type} {so : StackOps S} {saved : S → List (List Span)} (hls : Lawful so saved) {env : Setting} {attrs : List Attr} {table : Name → Char → Bool}
  (hw : Faithful env.world) (hu : ∀ a ∈ attrs, Understood env.ident a)
include hls hw hu

theorem literal_parser {text t : Text} {x : Name} (hx : x ≠ optName) (hx' : x ≠ manName) (hr : Reads text [.rule ⟨x, [], .str t, false⟩]) (ha : attrs.filterMap sourceOf = [.inline text]) (uni : List Name) :
    (∃ fuel d, derive env fuel attrs = .ok d) ∧ ∀ fuel d, derive env fuel attrs = .ok d →
    (∃ i, (generated uni d.code.1 d.code.2).at [moduleName attrs] = some i ∧ i.types.map Prod.fst = ["__OptionalTrivia".toList, "__MandatoryTrivia".toList, x]) ∧
    (∃ R e lab, Linked (unicodeOf env.unicodeNames table) d.code.1 d.code.2.wrappers R e ∧ Labelled d.code.1 R e lab) ∧
    ∀ R e lab, Linked (unicodeOf env.unicodeNames table) d.code.1 d.code.2.wrappers R e → Labelled d.code.1 R e lab → ∀ inp : Str,
      ((∃ n v, tryParse so e n (.rule (R.num [] x [])) inp = .ok (.ok v)) ↔ inp.text = t) ∧
      ((∃ n trk, tryParse so e n (.rule (R.num [] x [])) inp = .ok (.error trk)) ↔ inp.text ≠ t) := by
  have hm := Skip.inline_modules (rules := [⟨x, [], .str t, false⟩]) hr hw ha
  have hsim := literal_simple (u := unicodeOf env.unicodeNames table) (t := t) hx
  obtain ⟨h1, h2⟩ := Small.simple_parser (table := table) hls hm hu (by rw [ha]; simp) hsim
  refine ⟨h1, fun fuel d hd => ?_⟩
  obtain ⟨h3, h4⟩ := h2 fuel d hd
  refine ⟨?_, h3, fun R e lab hl hlab inp => ?_⟩
  · obtain ⟨i, h5, h6⟩ := C102_place hd hm (by rw [Skip.united_one]; exact hsim.silent) (p := []) (m := .mk [⟨x, [], .str t, false⟩] []) (by rw [Skip.united_one]; rfl) uni
    refine ⟨i, h5, h6.trans ?_⟩
    simp [Module.rules, hx, hx']
  · have k := h4 R e lab hl hlab ⟨x, [], .str t, false⟩ (List.mem_singleton.mpr rfl) hx hx' inp _ leaves_str
    have e1 : strip t inp.text = some [] ↔ inp.text = t := by rw [strip_some, List.append_nil]
    exact ⟨k.1.trans e1, k.2.1.trans (not_congr e1)⟩

/-- With `#[rules_mod = "custom"]` as the last of these attributes, the module `custom` has the type `main`; its parser accepts the text `hello` and rejects all others. -/
theorem C102_custom (ha : attrs.filterMap sourceOf = [.inline customText]) (hc : lastArg "rules_mod".toList attrs = some (.str "custom".toList)) (uni : List Name) :
    (∃ fuel d, derive env fuel attrs = .ok d) ∧ ∀ fuel d, derive env fuel attrs = .ok d →
    (∃ i, (generated uni d.code.1 d.code.2).at ["custom".toList] = some i ∧ i.types.map Prod.fst = ["__OptionalTrivia".toList, "__MandatoryTrivia".toList, "main".toList]) ∧
    (∃ R e lab, Linked (unicodeOf env.unicodeNames table) d.code.1 d.code.2.wrappers R e ∧ Labelled d.code.1 R e lab) ∧
    ∀ R e lab, Linked (unicodeOf env.unicodeNames table) d.code.1 d.code.2.wrappers R e → Labelled d.code.1 R e lab → ∀ inp : Str,
      ((∃ n v, tryParse so e n (.rule (R.num [] "main".toList [])) inp = .ok (.ok v)) ↔ inp.text = "hello".toList) ∧
      ((∃ n trk, tryParse so e n (.rule (R.num [] "main".toList [])) inp = .ok (.error trk)) ↔ inp.text ≠ "hello".toList) := by
  have h := literal_parser (table := table) hls hw hu (x := ['m', 'a', 'i', 'n']) (t := ['h', 'e', 'l', 'l', 'o']) (by decide) (by decide) C102_grammars.1 ha uni
  rw [show moduleName attrs = "custom".toList by unfold moduleName; rw [hc]] at h
  exact h

/-- Without that attribute the module is called `rules`; the parser of its type `greeting` accepts the text `world` and rejects all others. -/
theorem C102_usual (ha : attrs.filterMap sourceOf = [.inline usualText]) (hc : lastArg "rules_mod".toList attrs = none) (uni : List Name) :
    (∃ fuel d, derive env fuel attrs = .ok d) ∧ ∀ fuel d, derive env fuel attrs = .ok d →
    (∃ i, (generated uni d.code.1 d.code.2).at ["rules".toList] = some i ∧ i.types.map Prod.fst = ["__OptionalTrivia".toList, "__MandatoryTrivia".toList, "greeting".toList]) ∧
    (∃ R e lab, Linked (unicodeOf env.unicodeNames table) d.code.1 d.code.2.wrappers R e ∧ Labelled d.code.1 R e lab) ∧
    ∀ R e lab, Linked (unicodeOf env.unicodeNames table) d.code.1 d.code.2.wrappers R e → Labelled d.code.1 R e lab → ∀ inp : Str,
      ((∃ n v, tryParse so e n (.rule (R.num [] "greeting".toList [])) inp = .ok (.ok v)) ↔ inp.text = "world".toList) ∧
      ((∃ n trk, tryParse so e n (.rule (R.num [] "greeting".toList [])) inp = .ok (.error trk)) ↔ inp.text ≠ "world".toList) := by
  have h := literal_parser (table := table) hls hw hu (x := ['g', 'r', 'e', 'e', 't', 'i', 'n', 'g']) (t := ['w', 'o', 'r', 'l', 'd']) (by decide) (by decide) C102_grammars.2 ha uni
  rw [show moduleName attrs = "rules".toList by unfold moduleName; rw [hc]] at h
  exact h

end

/-! ## The attributes of the tests -/

private def attrs : List Attr := [⟨some "grammar_inline".toList, .str customText⟩, ⟨some "rules_mod".toList, .str "custom".toList⟩]

/-- The attributes of the first test (`derive/tests/custom_rules_mod.rs:11-14`) meet the hypotheses, if `custom` is an identifier. -/
example (env : Setting) (h : env.ident "custom".toList = true) : (∀ a ∈ attrs, Understood env.ident a) ∧ attrs.filterMap sourceOf = [.inline customText] ∧
    lastArg "rules_mod".toList attrs = some (.str "custom".toList) := by
  refine ⟨fun a ha => ?_, rfl, rfl⟩
  simp only [attrs, List.mem_cons, List.not_mem_nil, or_false] at ha
  rcases ha with rfl | rfl
  · exact ⟨fun x _ _ => ⟨_, rfl⟩, fun x hx h => by cases h; exact absurd hx (by decide), fun h => absurd h (by show ¬ some "grammar_inline".toList = some "rules_mod".toList; decide)⟩
  · exact ⟨fun x _ _ => ⟨_, rfl⟩, fun x hx h => by cases h; exact absurd hx (by decide), fun _ => ⟨_, rfl, by decide, h⟩⟩

/-- The attributes of the second test (`derive/tests/custom_rules_mod.rs:30-32`). -/
example : lastArg "rules_mod".toList [⟨some "grammar_inline".toList, .str usualText⟩] = none ∧ [(⟨some "grammar_inline".toList, .str usualText⟩ : Attr)].filterMap sourceOf = [.inline usualText] := ⟨rfl, rfl⟩

/-- The path of a grammar imported as `a` by one imported as `b`. -/
example : modulePath attrs ["b".toList, "a".toList] = ["custom", "b", "custom", "a", "custom"].map String.toList := by decide +kernel

end Pest3.Place
