import Verif.ForestLemmas
import Verif.NameLemmas
import Verif.Props.Scoping

/-!
# Properties C65 and C66: the tokens of a parse, and the enumeration their rules are values of

`Shows` (`Verif/ForestSpec.lean`) says which tokens a match has, in terms of the grammar as written.
-/

namespace Pest3.Props
open Pest3 Pest3.Gen

section
variable {cfg : Config} {names : List Name} {table : Name → Char → Bool} {m m' : Module} {out : Output} {st : GenSt}
  {R : Layout} {env : Env} {lab : Label → RuleVal}

theorem labels_of (h : generateModule cfg names m = .ok (out, st))
    (hl : Linked (unicodeOf names table) out st.wrappers R env) (hlab : Labelled out R env lab) {p : List Name} {r : Rule}
    {ts : List CTy} (hm : modAt m p = some m') (hr : findRule m'.rules r.name = some r) (ho : r.name ≠ optName)
    (hm' : r.name ≠ manName) (hlen : ts.length = r.args.length) :
    lab (env (R.num p r.name ts)).label = ruleAt p r.name ∧ (env (R.num p r.name ts)).silent = r.silent := by
  unfold generateModule at h
  obtain ⟨⟨⟨out', sys⟩, st'⟩, h1, h⟩ := andThen_ok.mp h
  simp only [Res.ok.injEq, Prod.mk.injEq] at h
  obtain ⟨rfl, rfl⟩ := h
  exact visible_of (processModule_gen m _ _ _ _ h1) hl hlab hm hr ho hm' hlen

theorem visible_gen (h : generateModule cfg names m = .ok (out, st))
    (hl : Linked (unicodeOf names table) out st.wrappers R env) (hlab : Labelled out R env lab) :
    Visible (unicodeOf names table) m R env lab := by
  intro p q p' r ts ht hlen
  obtain ⟨m', hm, hf, h1, h2⟩ := target_rule ht
  exact labels_of h hl hlab hm hf h1 h2 hlen

/-- A generated grammar whose trivia rules do not use themselves is a program in which every struct is labelled with its
rule. -/
theorem C65_exists (u : Unicode) (h : generateModule cfg names m = .ok (out, st))
    (hn : ∀ m', ModIn m' m → (m'.rules.map Rule.name).Nodup) (ha : ∀ m', ModIn m' m → TriviaAcyclic m') :
    ∃ R env lab, Linked u out st.wrappers R env ∧ Labelled out R env lab := by
  classical
  unfold generateModule at h
  obtain ⟨⟨⟨out', sys⟩, st'⟩, h1, h⟩ := andThen_ok.mp h
  simp only [Res.ok.injEq, Prod.mk.injEq] at h
  obtain ⟨rfl, rfl⟩ := h
  have hl := genMod_linked (processModule_gen m _ _ _ _ h1) u st'.wrappers hn ha
  refine ⟨layoutOf u out' st'.wrappers, fun n => { envOf u out' st'.wrappers n with label := n },
    fun n => if h : ∃ v p x ts, ruleNum p x ts = n ∧ v = ruleAt p x then h.choose else .eoi,
    ⟨hl.rule, hl.noTrivia, hl.trivia⟩, ?_⟩
  intro p o s ts _ _ _
  rw [ruleValue_full]
  have hex : ∃ v p' x' ts', ruleNum p' x' ts' = ruleNum p s.name ts ∧ v = ruleAt p' x' := ⟨_, p, s.name, ts, rfl, rfl⟩
  show (if h : ∃ v p' x' ts', ruleNum p' x' ts' = ruleNum p s.name ts ∧ v = ruleAt p' x' then h.choose else .eoi) = _
  rw [dif_pos hex]
  obtain ⟨p', x', ts', e, hv⟩ := hex.choose_spec
  obtain ⟨rfl, rfl, _⟩ := ruleNum_inj e
  exact hv

/-- Every match has tokens. -/
theorem C65_total {u : Unicode} {e : Clo} {c c' : Cfg} (h : Meaning u m (.expr e) c (some c')) :
    ∃ F, Shows u m (.expr e) c c' F :=
  meaning_shows h _ rfl (by simp)

/-- What the struct of a rule emits when it matches are the tokens of the rule's expression inside a token of the rule,
or none if the rule is silent; from every position, with every stack, and whatever the parameters stand for. -/
theorem C65_rule (h : generateModule cfg names m = .ok (out, st)) (hn : AllNamed (unicodeOf names table) m)
    (hl : Linked (unicodeOf names table) out st.wrappers R env) (hlab : Labelled out R env lab) {p : List Name}
    (hm : modAt m p = some m') {r : Rule} (hr : findRule m'.rules r.name = some r) (ho : r.name ≠ optName)
    (hm' : r.name ≠ manName) {clos : List Clo} {ts : List CTy} (hlen : ts.length = r.args.length)
    (hts : CRel (unicodeOf names table) m (.env (r.args.zip clos) (r.args.zip ts))) (c c' : Cfg)
    (P : List (Pair RuleVal)) :
    Emits env lab (.node (.rule (R.num p r.name ts))) c c' P ↔
      ∃ F, Shows (unicodeOf names table) m (.expr (.mk p (r.args.zip clos) r.node)) c c' F ∧ P = tokens p r c c' F := by
  obtain ⟨hc, hrule⟩ := compiled_of h hn hl
  obtain ⟨hsil, t, hb, hcomp⟩ := hrule p m' r ts hm hr ho hm' hlen
  have hlb := (labels_of h hl hlab hm hr ho hm' hlen).1
  have key := fun F => shows_iff_emits hc (visible_gen h hl hlab) (.clo hts hcomp) (c := c) (c' := c') (F := F)
  constructor
  · intro he
    cases he with
    | visible h1 h2 =>
      rw [hb] at h2
      refine ⟨_, (key _).mpr h2, ?_⟩
      rw [hsil] at h1
      simp [tokens, h1, hlb]
    | silent h1 h2 =>
      rw [hsil] at h1
      cases h2 with
      | rule h2 =>
        rw [hb, ← meaning_iff_peg hc (.clo hts hcomp)] at h2
        obtain ⟨F, hF⟩ := C65_total h2
        exact ⟨F, hF, by simp [tokens, h1]⟩
  · rintro ⟨F, hF, rfl⟩
    have h2 := (key _).mp hF
    rw [← hb] at h2
    unfold tokens
    split
    · rename_i hs
      exact .silent (hsil.trans hs) (.rule h2.peg)
    · rename_i hs
      rw [← hlb]
      exact .visible (by rw [hsil]; simpa using hs) h2

/-- The tokens of a match are determined by where it starts. -/
theorem C65_deterministic (h : generateModule cfg names m = .ok (out, st)) (hn : AllNamed (unicodeOf names table) m)
    (hl : Linked (unicodeOf names table) out st.wrappers R env) (hlab : Labelled out R env lab) {p : List Name}
    (hm : modAt m p = some m') {r : Rule} (hr : findRule m'.rules r.name = some r) (ho : r.name ≠ optName)
    (hm' : r.name ≠ manName) (ha : r.args = []) {c c1 c2 : Cfg} {F G : List (Pair RuleVal)}
    (h1 : Shows (unicodeOf names table) m (.expr (.mk p [] r.node)) c c1 F)
    (h2 : Shows (unicodeOf names table) m (.expr (.mk p [] r.node)) c c2 G) : c1 = c2 ∧ F = G := by
  obtain ⟨hc, hrule⟩ := compiled_of h hn hl
  obtain ⟨_, t, hb, hcomp⟩ := hrule p m' r [] hm hr ho hm' (by simp [ha])
  have hcl : CRel (unicodeOf names table) m (.clo (.mk p [] r.node) t) := .clo .nil (by simpa [ha] using hcomp)
  have hv := visible_gen h hl hlab
  exact ((shows_iff_emits hc hv hcl).mp h1).det ((shows_iff_emits hc hv hcl).mp h2)

/-- From source text to tokens: `try_parse_partial` of a rule of the generated parser followed by `as_pair_tree` gives
exactly the token of the rule with the tokens of the match in it. -/
theorem C65_try_parse_prefix {S : Type} {so : StackOps S} {saved : S → List (List Span)} (hls : Lawful so saved)
    (h : generateModule cfg names m = .ok (out, st)) (hn : AllNamed (unicodeOf names table) m)
    (hl : Linked (unicodeOf names table) out st.wrappers R env) (hlab : Labelled out R env lab) {p : List Name}
    (hm : modAt m p = some m') {r : Rule} (hr : findRule m'.rules r.name = some r) (ho : r.name ≠ optName)
    (hm' : r.name ≠ manName) (ha : r.args = []) (hs : r.silent = false) (inp : Str) (n : Nat) (P : Pair RuleVal) :
    (∃ fuel t, tryParsePartial so env fuel (.rule (R.num p r.name [])) inp = .ok (.ok (⟨inp, n⟩, t)) ∧
        t.asPairTree env lab = some P) ↔
      ∃ c F, Shows (unicodeOf names table) m (.expr (.mk p [] r.node)) (startCfg inp) c F ∧ n = utf8Len c.pre ∧
        P = .mk (ruleAt p r.name) 0 n F := by
  have hlen : ([] : List CTy).length = r.args.length := by simp [ha]
  obtain ⟨hlb, hsil⟩ := labels_of h hl hlab hm hr ho hm' hlen
  have tree : ∀ c' ss' t, Builds env inp (.node (.rule (R.num p r.name []))) (startCfg inp) [] c' ss' [t] →
      ∃ F, Shows (unicodeOf names table) m (.expr (.mk p [] r.node)) (startCfg inp) c' F ∧
        t.asPairTree env lab = some (.mk (ruleAt p r.name) 0 (utf8Len c'.pre) F) := by
    intro c' ss' t hb
    have he := hb.emits (lab := lab)
    obtain ⟨F, hF, e⟩ := (C65_rule h hn hl hlab hm hr ho hm' hlen (clos := [])
      (by simpa [ha] using CRel.nil) _ _ _).mp he
    refine ⟨F, by simpa [ha] using hF, ?_⟩
    cases hb with
    | rule hb =>
      simp only [Tree.selfPairsList, Tree.selfPairs, hsil, hs, tokens, List.append_nil, Bool.false_eq_true, if_false,
        List.cons.injEq, Pair.mk.injEq, and_true] at e
      simp only [Tree.asPairTree, Tree.vecChildren, Tree.childPairs, hsil, hs, Bool.false_eq_true, if_false,
        Option.some.injEq, Pair.mk.injEq]
      exact ⟨e.1, by simpa [startCfg] using e.2.1, e.2.2.1, e.2.2.2⟩
  constructor
  · rintro ⟨fuel, t, h1, h2⟩
    obtain ⟨c', ss', e, hb⟩ := (C16_try_parse_prefix hls env inp _ t _).mp ⟨fuel, h1⟩
    injection e with _ e
    obtain ⟨F, hF, h3⟩ := tree _ _ _ hb
    rw [h2] at h3
    injection h3 with h3
    subst h3 e
    exact ⟨c', F, hF, rfl, rfl⟩
  · rintro ⟨c, F, hF, rfl, rfl⟩
    have he := (C65_rule h hn hl hlab hm hr ho hm' hlen (clos := []) (by simpa [ha] using CRel.nil) (startCfg inp) c _).mpr
      ⟨F, by simpa [ha] using hF, rfl⟩
    have hmean := (C52_rule h hn hl hm hr ho hm' ha _ _).mp he.peg
    obtain ⟨fuel, t, h1⟩ := ((C52_try_parse hls h hn hl hm hr ho hm' ha inp).2 _).mpr ⟨c, rfl, hmean⟩
    obtain ⟨c', ss', e, hb⟩ := (C16_try_parse_prefix hls env inp _ t _).mp ⟨fuel, h1⟩
    obtain ⟨G, hG, h3⟩ := tree _ _ _ hb
    obtain ⟨rfl, rfl⟩ := C65_deterministic h hn hl hlab hm hr ho hm' ha hF hG
    exact ⟨fuel, t, h1, h3⟩

/-- The same for `try_parse`: the token spans the whole text. -/
theorem C65_try_parse {S : Type} {so : StackOps S} {saved : S → List (List Span)} (hls : Lawful so saved)
    (h : generateModule cfg names m = .ok (out, st)) (hn : AllNamed (unicodeOf names table) m)
    (hl : Linked (unicodeOf names table) out st.wrappers R env) (hlab : Labelled out R env lab) {p : List Name}
    (hm : modAt m p = some m') {r : Rule} (hr : findRule m'.rules r.name = some r) (ho : r.name ≠ optName)
    (hm' : r.name ≠ manName) (ha : r.args = []) (hs : r.silent = false) (inp : Str) (P : Pair RuleVal) :
    (∃ fuel t, tryParse so env fuel (.rule (R.num p r.name [])) inp = .ok (.ok t) ∧ t.asPairTree env lab = some P) ↔
      ∃ stk F, Shows (unicodeOf names table) m (.expr (.mk p [] r.node)) (startCfg inp) ⟨inp.text, [], stk⟩ F ∧
        P = .mk (ruleAt p r.name) 0 (utf8Len inp.text) F := by
  have part := C65_try_parse_prefix hls h hn hl hlab hm hr ho hm' ha hs inp
  constructor
  · rintro ⟨fuel, t, h1, h2⟩
    obtain ⟨stk, h3⟩ := (C52_try_parse hls h hn hl hm hr ho hm' ha inp).1.mp ⟨fuel, t, h1⟩
    rw [C19_try_parse_iff hls env] at h1
    obtain ⟨c, F, hF, e, e'⟩ := (part _ P).mp ⟨fuel, t, h1, h2⟩
    obtain ⟨G, hG⟩ := C65_total h3
    obtain ⟨rfl, rfl⟩ := C65_deterministic h hn hl hlab hm hr ho hm' ha hF hG
    exact ⟨stk, F, hF, e'⟩
  · rintro ⟨stk, F, hF, e⟩
    obtain ⟨fuel, t, h1, h2⟩ := (part _ P).mpr ⟨_, F, hF, rfl, e⟩
    exact ⟨fuel, t, (C19_try_parse_iff hls env inp fuel _ t).mpr h1, h2⟩

/-- A match of a silent rule has no tokens. -/
theorem C65_silent (h : generateModule cfg names m = .ok (out, st))
    (hn : AllNamed (unicodeOf names table) m)
    (hl : Linked (unicodeOf names table) out st.wrappers R env) {p : List Name}
    (hm : modAt m p = some m') {r : Rule} (hr : findRule m'.rules r.name = some r) (ho : r.name ≠ optName)
    (hm' : r.name ≠ manName) (ha : r.args = []) (hs : r.silent = true) {inp : Str} {c c' : Cfg} {ss ss' : List Span}
    {t : Tree} (hb : Builds env inp (.node (.rule (R.num p r.name []))) c ss c' ss' [t]) :
    t.selfPairs env lab = [] ∧ t.asPairTree env lab = none := by
  have hsil := (compiled_of h hn hl).2 p m' r [] hm hr ho hm' (by simp [ha])
  cases hb with
  | rule hb => simp [Tree.selfPairs, Tree.asPairTree, hsil.1, hs]

end

/-! ### Example

The grammar `genOuter` of C52: `~ = " "*`, `x = "a" ~ y("b")`, `y(p) = p+ - m::z`, and `z = "c"` in the imported module
`m`.  Parsing `a bbc` as `x` gives `x[0..5](y[2..5](m::z[4..5]))`. -/
example : ∃ out st, generateModule ⟨true, false, none⟩ [] genOuter = .ok (out, st) ∧
    ∃ R env lab, Linked (unicodeOf [] fun _ _ => false) out st.wrappers R env ∧ Labelled out R env lab ∧
      ∃ fuel t, tryParse idealOps env fuel (.rule (R.num [] ['x'] [])) ⟨0, "a bbc".toList⟩ = .ok (.ok t) ∧
        t.asPairTree env lab = some (.mk (.rule ['x']) 0 5 [.mk (.rule ['y']) 2 5 [.mk (.sub ['m'] (.rule ['z'])) 4 5 []]]) := by
  obtain ⟨out, st, hgen⟩ : ∃ out st, generateModule ⟨true, false, none⟩ [] genOuter = .ok (out, st) := ⟨_, _, rfl⟩
  obtain ⟨R, env, lab, hl, hlab⟩ := C65_exists (unicodeOf [] fun _ _ => false) hgen
    (fun m' h => (genOuter_named (unicodeOf [] fun _ _ => false) m' h).rules) fun m' h => genOuter_acyclic h
  refine ⟨out, st, hgen, R, env, lab, hl, hlab, ?_⟩
  refine (C65_try_parse (p := []) (r := ⟨['x'], [], .seq (.str ['a']) (.call [['y']] [.str ['b']]) .optional, false⟩)
    ideal_lawful hgen (genOuter_named _) hl hlab rfl rfl (by decide) (by decide) rfl rfl _ _).mpr ⟨[], _, ?_, rfl⟩
  refine .seq (F := []) (.literal rfl (.literalOk (m := ['a']) (rest := " bbc".toList) rfl rfl rfl))
    (c2 := ⟨"a ".toList, "bbc".toList, []⟩) (.triviaRule (m := genOuter) rfl rfl (.rep rfl ?_)) ?_
  · exact .repsMore (by decide) (.unitFirst (.literalOk (m := [' ']) (rest := "bbc".toList) rfl rfl rfl))
      (.repsStop (by decide) (.unitNext .triviaNone (.literalFail rfl rfl)) (by decide))
  · refine .call (p' := []) (r := ⟨['y'], [['p']], .seq (.repOnce (.path [['p']])) (.path [['m'], ['z']]) .none, false⟩)
      (fun x hx => rfl) rfl rfl (.seq (F := []) (.rep rfl ?_) .triviaNone (c1 := ⟨"a bb".toList, "c".toList, []⟩) ?_)
    · exact .repsMore (F := []) (G := []) (by decide)
          (.unitFirst (.param rfl (.literal rfl (.literalOk (m := ['b']) (rest := "bc".toList) rfl rfl rfl))))
        (.repsMore (F := []) (G := []) (by decide)
          (.unitNext .triviaNone (.param rfl (.literal rfl (.literalOk (m := ['b']) (rest := "c".toList) rfl rfl rfl))))
          (.repsStop (by decide) (.unitNext .triviaNone (.param rfl (.literalFail rfl rfl))) (by decide)))
    · refine .rule (p' := [['m']]) (r := ⟨['z'], [], .str ['c'], false⟩) (F := []) (fun x hx => ?_) rfl rfl
        (.literal rfl (.literalOk (m := ['c']) (rest := []) rfl rfl rfl))
      simp at hx

/-! ## C66 -/

/-- Seen from the enumeration `n` modules up, the rule `x` of the module at `a ++ b` is the rule of the module at `b`. -/
theorem C66_get_rule (a b : List Name) (x : Name) : ruleValue (a ++ b) b.length x = ruleAt b x := by
  rw [ruleValue_eq]
  congr 1
  simp

/-- Different rules are different values. -/
theorem C66_distinct {p q : List Name} {x y : Name} (h : ruleAt p x = ruleAt q y) : p = q ∧ x = y := by
  induction p generalizing q with
  | nil =>
    cases q with
    | nil => simpa [ruleAt] using h
    | cons b q => simp [ruleAt] at h
  | cons a p ih =>
    cases q with
    | nil => simp [ruleAt] at h
    | cons b q =>
      simp only [ruleAt, RuleVal.sub.injEq] at h
      obtain ⟨e1, e2⟩ := ih h.2
      exact ⟨by rw [h.1, e1], e2⟩

/-- Every rule of every module is a value of the enumeration. -/
theorem C66_value {m : Module} {p : List Name} : ∀ {root : Module}, modAt root p = some m → ∀ {r : Rule}, r ∈ m.rules →
    r.name ≠ optName → r.name ≠ manName → IsValue root (ruleAt p r.name) := by
  induction p with
  | nil =>
    intro root hm r hr h1 h2
    simp only [modAt, Option.some.injEq] at hm
    subst hm
    exact .rule hr h1 h2
  | cons x p ih =>
    intro root hm r hr h1 h2
    simp only [modAt] at hm
    split at hm
    · rename_i m1 hc
      unfold Module.child at hc
      split at hc
      · rename_i y m2 hf
        injection hc with hc
        subst hc
        have hy : (Import.file y m2).name = x := by simpa using List.find?_some hf
        simp only [Import.name] at hy
        subst hy
        exact .sub (List.mem_of_find?_eq_some hf) (ih hm hr h1 h2)
      · simp at hc
    · simp at hm

/-- Conversely every value is `EOI` or a rule, of the module itself or of one that is imported. -/
theorem C66_value_iff {m : Module} {v : RuleVal} : IsValue m v ↔ v = .eoi ∨
    (∃ r ∈ m.rules, r.name ≠ optName ∧ r.name ≠ manName ∧ v = .rule r.name) ∨
    ∃ x m' v', Import.file x m' ∈ m.imports ∧ IsValue m' v' ∧ v = .sub x v' := by
  constructor
  · intro h
    cases h with
    | eoi => exact .inl rfl
    | rule h1 h2 h3 => exact .inr (.inl ⟨_, h1, h2, h3, rfl⟩)
    | sub h1 h2 => exact .inr (.inr ⟨_, _, _, h1, h2, rfl⟩)
  · rintro (rfl | ⟨r, h1, h2, h3, rfl⟩ | ⟨x, m', v', h1, h2, rfl⟩)
    · exact .eoi
    · exact .rule h1 h2 h3
    · exact .sub h1 h2

section
variable {cfg : Config} {names : List Name} {m m' : Module} {out o : Output} {st : GenSt}

/-- The variants of the enumeration generated for a module have different names, provided that the files it imports have
and nothing is called `EOI`.  This is less than what one expects, that the generator rejects the other grammars
(`C66_clash`). -/
theorem C66_variants_partial (h : generateModule cfg names m = .ok (out, st)) (hin : ModIn m' m) :
    m'.variants.Nodup ↔ m'.fileNames.Nodup ∧ "EOI".toList ∉ m'.fileNames ∧ ∀ r ∈ m'.rules, r.name ≠ "EOI".toList := by
  unfold generateModule at h
  obtain ⟨⟨⟨out', sys⟩, st'⟩, h1, _⟩ := andThen_ok.mp h
  obtain ⟨o, sys1, st1, st2, h2⟩ := genMod_in hin (processModule_gen m _ _ _ _ h1)
  obtain ⟨n1, n2, _⟩ := genMod_names h2
  unfold Module.variants
  rw [List.nodup_cons, List.nodup_append]
  constructor
  · rintro ⟨h3, _, h4, _⟩
    simp only [List.mem_append, not_or] at h3
    refine ⟨h4, h3.2, fun r hr e => h3.1 ?_⟩
    refine List.mem_map.mpr ⟨r, List.mem_filter.mpr ⟨hr, ?_⟩, e⟩
    rw [e]; decide
  · rintro ⟨h4, h5, h6⟩
    refine ⟨?_, n1, h4, ?_⟩
    · simp only [List.mem_append, not_or]
      refine ⟨fun hm => ?_, h5⟩
      obtain ⟨r, hr, e⟩ := List.mem_map.mp hm
      exact h6 r (List.mem_filter.mp hr).1 e
    · intro a ha b hb
      obtain ⟨r, hr, rfl⟩ := List.mem_map.mp ha
      simp only [List.mem_filter, decide_eq_true_eq] at hr
      obtain ⟨m1, hb⟩ := mem_fileNames.mp hb
      exact fun e => n2 r hr.1 hr.2.1 hr.2.2 _ hb e.symm

/-- The same for the types and modules defined in the module `rules`: a rule or a file with the name of a trivia alias
is not rejected. -/
theorem C66_items_partial (h : generateModule cfg names m = .ok (out, st)) {p : List Name} (hm : modAt m p = some m') :
    ∃ o, outAt out p = some o ∧ (o.items.Nodup ↔ m'.fileNames.Nodup ∧
      ∀ x ∈ ["__OptionalTrivia".toList, "__MandatoryTrivia".toList],
        x ∉ m'.fileNames ∧ ∀ r ∈ m'.rules, r.name ≠ x) := by
  unfold generateModule at h
  obtain ⟨⟨⟨out', sys⟩, st'⟩, h1, h⟩ := andThen_ok.mp h
  simp only [Res.ok.injEq, Prod.mk.injEq] at h
  obtain ⟨rfl, rfl⟩ := h
  obtain ⟨o, sys1, st1, st2, ho, h2, _⟩ := genMod_at p (processModule_gen m _ _ _ _ h1) WfSt.new hm
  refine ⟨o, ho, ?_⟩
  obtain ⟨n1, n2, n3⟩ := genMod_names h2
  have key : ∀ x : Name, x ≠ optName → x ≠ manName →
      (x ∉ (m'.rules.filter fun r => r.name ≠ optName ∧ r.name ≠ manName).map Rule.name ↔ ∀ r ∈ m'.rules, r.name ≠ x) := by
    intro x hx1 hx2
    constructor
    · intro h r hr e
      exact h (List.mem_map.mpr ⟨r, List.mem_filter.mpr ⟨hr, by rw [e]; simpa using ⟨hx1, hx2⟩⟩, e⟩)
    · intro h hm
      obtain ⟨r, hr, e⟩ := List.mem_map.mp hm
      exact h r (List.mem_filter.mp hr).1 e
  have disj : ∀ a ∈ m'.fileNames, ∀ b ∈ (m'.rules.filter fun r => r.name ≠ optName ∧ r.name ≠ manName).map Rule.name,
      a ≠ b := by
    intro a ha b hb
    obtain ⟨r, hr, rfl⟩ := List.mem_map.mp hb
    simp only [List.mem_filter, decide_eq_true_eq] at hr
    obtain ⟨m1, ha⟩ := mem_fileNames.mp ha
    exact n2 r hr.1 hr.2.1 hr.2.2 _ ha
  rw [n3, List.nodup_cons, List.nodup_cons, List.nodup_append, List.mem_cons, not_or, List.mem_append, not_or,
    List.mem_append, not_or, key _ (by decide) (by decide), key _ (by decide) (by decide)]
  simp only [List.mem_cons, List.not_mem_nil, or_false, forall_eq_or_imp, forall_eq]
  constructor
  · rintro ⟨⟨_, a⟩, b, c, _, _⟩
    exact ⟨c, a, b⟩
  · rintro ⟨c, a, b⟩
    exact ⟨⟨by decide, a⟩, b, c, n1, disj⟩

/-- The generator accepts grammars with a rule called `EOI`, with a rule called like a trivia alias, and with two files
imported under one name; the generated code then defines something twice. -/
theorem C66_clash :
    (∃ m r, generateModule ⟨true, false, none⟩ [] m = .ok r ∧ (∀ u, AllNamed u m) ∧ ¬ m.variants.Nodup ∧ m.imports = []) ∧
    (∃ m out st, generateModule ⟨true, false, none⟩ [] m = .ok (out, st) ∧ (∀ u, AllNamed u m) ∧ ¬ out.items.Nodup ∧
      m.imports = []) ∧
    (∃ m out st, generateModule ⟨true, false, none⟩ [] m = .ok (out, st) ∧ m.rules = [] ∧ ¬ m.variants.Nodup ∧
      ¬ out.items.Nodup) := by
  refine ⟨⟨.mk [⟨"EOI".toList, [], .str ['a'], false⟩] [], _, rfl, fun u => ?_, by decide, rfl⟩,
    ⟨.mk [⟨"__OptionalTrivia".toList, [], .str ['a'], false⟩] [], _, _, rfl, fun u => ?_, by decide, rfl⟩,
    ⟨.mk [] [.file ['m'] genInner, .file ['m'] genInner], _, _, rfl, rfl, by decide, by decide⟩⟩
  all_goals
    intro m' h
    cases h with
    | refl =>
      refine ⟨by decide, by decide, by simp [Module.imports], by simp [Module.imports], ?_, ?_⟩
      · simp only [Module.rules, List.mem_singleton, forall_eq]; decide
      · simp [Module.rules, ParamsPlain]
    | step h1 _ => simp [Module.imports] at h1

/-- Nor does it reject a rule that has two parameters of one name: those of the struct are those of the rule. -/
theorem C66_parameters_clash : ∃ m out st, generateModule ⟨true, false, none⟩ [] m = .ok (out, st) ∧
    (∀ u, AllNamed u m) ∧ ∃ s ∈ out.content, ¬ s.args.Nodup := by
  refine ⟨.mk [⟨['x'], [['a'], ['a']], .path [['a']], false⟩] [], _, _, rfl, fun u => ?_, _, List.mem_singleton.mpr rfl,
    by decide⟩
  intro m' h
  cases h with
  | refl =>
    refine ⟨by decide, by decide, by simp [Module.imports], by simp [Module.imports], ?_, ?_⟩
    · simp only [Module.rules, List.mem_singleton, forall_eq]; decide
    · simp only [Module.rules, List.mem_singleton, forall_eq]
      refine fun x hx => ⟨?_, ?_⟩ <;> intro _ h <;> cases h
  | step h1 _ => simp [Module.imports] at h1

-- the conditions are met by `genOuter`
example : (∃ r, generateModule ⟨true, false, none⟩ [] genOuter = .ok r) ∧ genOuter.fileNames.Nodup ∧
    "EOI".toList ∉ genOuter.fileNames ∧ genOuter.variants = ["EOI".toList, ['x'], ['y'], ['m']] :=
  ⟨⟨_, rfl⟩, by decide, by decide, by decide⟩

end

end Pest3.Props
