import Verif.ThroughLemmas
import Verif.ThroughScope
import Verif.Props.Inlining
import Verif.Props.EndToEnd
import Verif.Props.GrammarErrors

/-!
# C82: parsers of grammars with silent rules with parameters

C75 and C81 are about grammars without silent rules with parameters.  Here they are extended to grammars with such rules in the top module, as far as
names are not confused (`Hygienic`, see C46).  `ShowsThrough` and `TriesThrough` (`Verif/ThroughSpec.lean`) say which tokens and which events these have.
-/

namespace Pest3.Props
open Pest3 Pest3.Gen Pest3.Load

/-- The grammar the code is generated from, and how its rules are related to those of the grammar as written. -/
structure Expanded (u : Unicode) (m m1 : Module) : Prop where
  named : AllNamed u m1
  sim : Sim u m m1
  rule : ∀ {p a r}, modAt m p = some a → findRule a.rules r.name = some r → r.args = [] → ∃ a1 r1, modAt m1 p = some a1 ∧
    findRule a1.rules r1.name = some r1 ∧ r1.name = r.name ∧ r1.args = [] ∧ r1.silent = r.silent ∧ ISim u m (.expr (.mk p [] r.node)) (.expr (.mk p [] r1.node))

section
variable {cfg : Config} {names : List Name} {table : Name → Char → Bool} {m : Module} {out : Output} {st : GenSt} {R : Layout} {env : Env}

theorem expanded_of {fuel : Nat} {m1 : Module} (h1 : inlineModule fuel m = .ok m1) (h2 : generateModule cfg names m1 = .ok (out, st))
    (hn : AllNamed (unicodeOf names table) m) (hy : Hygienic (unicodeOf names table) m)
    (hl : Linked (unicodeOf names table) out st.wrappers R env) : Expanded (unicodeOf names table) m m1 := by
  have hn' := inline_named hn hy h1
  obtain ⟨hc, hrule⟩ := compiled_of h2 hn' hl
  have hnd := (hn' m1 .refl).rules
  have hleft : NoneLeft (unicodeOf names table) m m1 := by
    refine none_left hn h1 fun r hr => ?_
    have hfr := findRule_eq hnd hr
    have key : ∀ t, triviaRule m1 t = some r → ∃ σ t, (∀ x c, lookupC x σ = some c → x ∈ r.args) ∧
        Comp (unicodeOf names table) m1 [] σ (.one r.node t) := fun t ht => by
      obtain ⟨ty, _, h⟩ := hc.trivia [] m1 t r rfl ht
      exact ⟨[], ty, fun x c hx => by simp [lookupC] at hx, h⟩
    by_cases h1 : r.name = optName
    · exact key .optional (by simpa [triviaRule, h1] using hfr)
    · by_cases h2 : r.name = manName
      · exact key .mandatory (by simpa [triviaRule, h2] using hfr)
      · obtain ⟨_, t, _, h⟩ := hrule [] m1 r (List.replicate r.args.length (.choice [])) rfl hfr h1 h2 (by simp)
        exact ⟨_, t, fun x c hx => (lookupC_zip r.args (List.replicate r.args.length (.choice [])) (by simp) x).mpr (by rw [hx]; rfl), h⟩
  refine ⟨hn', inline_sim hn hy h1 hleft, ?_⟩
  intro p a r hm hr ha
  obtain ⟨hi, k1, k2, _⟩ := inlineModule_ok (hn m .refl) h1
  by_cases hp : p = []
  · subst hp
    simp only [modAt, Option.some.injEq] at hm
    subst hm
    have hk : r.inlined = false := by simp [Rule.inlined, ha]
    obtain ⟨e, a1, a2⟩ := k2 _ _ hr hk
    exact ⟨m1, { r with node := e }, rfl, a1, rfl, ha, rfl,
      .expr (kept_irel (hn m .refl) hy hleft (findRule_mem hr).1 hk a2 (findRule_mem a1).1 .nil fun x => by simp [ha, lookupClo])⟩
  · exact ⟨a, r, by rw [modAt_same hi hp]; exact hm, hr, rfl, ha, rfl,
      .expr (irel_same .nil r.node (fun x c hx => by simp [lookupClo] at hx) fun q _ => .inr (not_gone hp))⟩

end

section
variable {u : Unicode} {m m1 : Module}

theorem Expanded.meaning (hx : Expanded u m m1) {item item'} (hi : ISim u m item item') {c res} : Meaning u m1 item' c res ↔ Meaning u m item c res :=
  ⟨fun h => meaning_of_inline hx.sim h _ hi, fun h => meaning_inline hx.sim h _ hi⟩

end

/-- A rule that can be mentioned in messages: the end of the input or a rule, but not a silent rule with parameters of the top module. -/
def Nameable (m : Module) (v : RuleVal) : Prop := IsValue m v ∧ ∀ f ∈ m.rules, f.inlined = true → v ≠ .rule f.name

section
variable {cfg : Config} {names : List Name} {table : Name → Char → Bool} {m m' : Module} {out : Output} {st : GenSt} {R : Layout} {env : Env}

/-- `generate_typed` and the parser: the struct of a rule without parameters accepts, emits, rejects and diverges as the grammar as written says. -/
theorem C82_generated {S : Type} {so : StackOps S} {saved : S → List (List Span)} (hls : Lawful so saved) {fuel : Nat}
    (h : generateTyped cfg names fuel m = .ok (out, st)) (hn : AllNamed (unicodeOf names table) m) (hy : Hygienic (unicodeOf names table) m)
    (hl : Linked (unicodeOf names table) out st.wrappers R env) {lab : Label → RuleVal} (hlab : Labelled out R env lab) {p : List Name} (hp : modAt m p = some m') {r : Rule} (hr : r ∈ m'.rules)
    (ho : r.name ≠ optName) (hman : r.name ≠ manName) (ha : r.args = []) (inp : Str) :
      let means := Meaning (unicodeOf names table) m (.expr (.mk p [] r.node)) (startCfg inp)
      let parser := fun n => tryParse so env n (.rule (R.num p r.name [])) inp
      ((∃ n t, parser n = .ok (.ok t)) ↔ ∃ stk, means (some ⟨inp.text, [], stk⟩)) ∧
      (r.silent = false → ∀ P, (∃ n t, parser n = .ok (.ok t) ∧ t.asPairTree env lab = some P) ↔
        ∃ stk F, ShowsThrough (unicodeOf names table) m (.expr (.mk p [] r.node)) (startCfg inp) ⟨inp.text, [], stk⟩ F ∧
          P = .mk (ruleAt p r.name) 0 (utf8Len inp.text) F) ∧
      ((∃ n trk, parser n = .ok (.error trk)) ↔ means none ∨ ∃ c, means (some c) ∧ c.suf ≠ []) ∧
      ((∀ n, parser n = .oof) ↔ ∀ res, ¬ means res) := by
  unfold generateTyped at h
  obtain ⟨m1, h1, h2⟩ := andThen_ok.mp h
  intro means parser
  have hx := expanded_of h1 h2 hn hy hl
  have hf := findRule_eq (hn m' (modAt_in p hp)).rules hr
  obtain ⟨a1, r1, b1, b2, b3, b4, b5, hi⟩ := hx.rule hp hf ha
  obtain ⟨g1, g2, g3, g4⟩ := generated_parser hls h2 hx.named hl hlab b1 b2 (by rw [b3]; exact ho) (by rw [b3]; exact hman) b4 inp
  simp only [hx.meaning hi, shows_inline_iff hx.sim hi (by simp), b3, b5] at g1 g2 g3 g4
  exact ⟨g1, g2, g3, g4⟩

theorem nameable_of (hn : AllNamed (unicodeOf names table) m) {fuel : Nat} {m1 : Module} (h1 : inlineModule fuel m = .ok m1) {v : RuleVal} (hv : IsValue m1 v) : Nameable m v := by
  obtain ⟨hi, -, -, -, k4⟩ := inlineModule_ok (hn m .refl) h1
  cases hv with
  | eoi => exact ⟨.eoi, fun _ _ _ h => by cases h⟩
  | rule a1 a2 a3 =>
    obtain ⟨r, e, c1, c2, -, rfl⟩ := k4 _ a1
    refine ⟨IsValue.rule (r := r) c1 a2 a3, fun f hf hfi h => ?_⟩
    simp only [RuleVal.rule.injEq] at h
    have e1 := findRule_eq (hn m .refl).rules c1
    have e2 := findRule_eq (hn m .refl).rules hf
    rw [← h] at e2
    rw [e1] at e2
    injection e2 with e2
    rw [← e2, c2] at hfi
    cases hfi
  | sub a1 a2 => exact ⟨.sub (hi ▸ a1) a2, fun _ _ _ h => by cases h⟩

/-- The errors of the struct of a rule without parameters: there is one exactly if the rule does not match all of the text; it is about the furthest place where a rule was tried, and lists exactly the rules that
were tried there.  Silent rules with parameters of the top module are never mentioned; what is tried in a call of one is tried by the rule that makes the call. -/
theorem C82_errors {S : Type} {so : StackOps S} {saved : S → List (List Span)} (hls : Lawful so saved) {fuel : Nat}
    (h : generateTyped cfg names fuel m = .ok (out, st)) (hn : AllNamed (unicodeOf names table) m) (hy : Hygienic (unicodeOf names table) m)
    (hl : Linked (unicodeOf names table) out st.wrappers R env) {rank : RuleVal → Label} (hrank : Ranks rank) (hlab : Numbered out R env rank) {p : List Name} (hp : modAt m p = some m') {r : Rule} (hr : r ∈ m'.rules)
    (ho : r.name ≠ optName) (hman : r.name ≠ manName) (ha : r.args = []) (inp : Str) (sh : Label → Text) :
      ((∃ n t, tryParse so env n (.rule (R.num p r.name [])) inp = .ok (.error t)) ↔ ∃ es, FullTriesThrough (unicodeOf names table) m rank p r inp false es) ∧
      ∀ n t es, tryParse so env n (.rule (R.num p r.name [])) inp = .ok (.error t) → FullTriesThrough (unicodeOf names table) m rank p r inp false es →
        Furthest inp 0 [] es t ∧ Listed [] es t ∧
        (∀ k v, (k, v) ∈ t.attempts → ∀ x, k = some x ∨ x ∈ v.positives ∨ x ∈ v.negatives → ∃ w, Nameable m w ∧ x = rank w) ∧
        ∃ before current after, inp.text = before ++ current ++ after ∧ utf8Len (before ++ current) = t.position.pos ∧
          '\n' ∉ current ∧ (before = [] ∨ ∃ b, before = b ++ ['\n']) ∧
          ∃ msg, t.collect sh = some ⟨t.position, msg⟩ ∧ _root_.Pest3.Reads sh (1 + before.count '\n') current t.attempts msg := by
  unfold generateTyped at h
  obtain ⟨m1, h1, h2⟩ := andThen_ok.mp h
  have hx := expanded_of h1 h2 hn hy hl
  have hf := findRule_eq (hn m' (modAt_in p hp)).rules hr
  obtain ⟨a1, r1, b1, b2, b3, b4, b5, hi⟩ := hx.rule hp hf ha
  have ho1 : r1.name ≠ optName := by rw [b3]; exact ho
  have hman1 : r1.name ≠ manName := by rw [b3]; exact hman
  obtain ⟨g1, g2⟩ := generated_errors hls h2 hx.named hl hrank hlab b1 b2 ho1 hman1 b4 inp sh
  have same : ∀ f c res es, tried rank p r1 f c res es = tried rank p r f c res es := fun f c res es => by rw [tried, tried, b3]
  have fwd : ∀ {es}, FullTriesThrough (unicodeOf names table) m rank p r inp false es → FullTries (unicodeOf names table) m1 rank p r1 inp false es := by
    intro es hes
    generalize hb : false = b at hes
    cases hes with
    | fail h => rw [← same]; exact .fail (tries_inline hx.sim h _ hi)
    | ok h => rw [← same]; exact .ok (tries_inline hx.sim h _ hi)
  have back : ∀ {es}, FullTries (unicodeOf names table) m1 rank p r1 inp false es → FullTriesThrough (unicodeOf names table) m rank p r inp false es := by
    intro es hes
    have conv : ∀ {res es}, Tries (unicodeOf names table) m1 rank true (.expr (.mk p [] r1.node)) (startCfg inp) res es →
        TriesThrough (unicodeOf names table) m rank true (.expr (.mk p [] r.node)) (startCfg inp) res es := by
      intro res es ht
      obtain ⟨es', h'⟩ := meaning_triesThrough rank (meaning_of_inline hx.sim ht.meaning _ hi) true
      obtain ⟨-, rfl⟩ := C81_deterministic h2 hx.named hl hlab b1 b2 ho1 hman1 b4 ht (tries_inline hx.sim h' _ hi)
      exact h'
    generalize hb : false = b at hes
    cases hes with
    | fail h => rw [same]; exact .fail (conv h)
    | ok h => rw [same]; exact .ok (conv h)
  rw [b3] at g1 g2
  refine ⟨g1.trans ⟨fun ⟨es, h⟩ => ⟨es, back h⟩, fun ⟨es, h⟩ => ⟨es, fwd h⟩⟩, ?_⟩
  intro n t es he hes
  obtain ⟨c1, c2, c3, c4⟩ := g2 n t es he (fwd hes)
  refine ⟨c1, c2, fun k v hkv x hx' => ?_, c4⟩
  obtain ⟨w, hw, e⟩ := c3 k v hkv x hx'
  exact ⟨w, nameable_of hn h1 hw, e⟩

end

section
variable {env : Setting} {attrs : List Attr} {ms : List Module} {table : Name → Char → Bool}

/-- The grammar of which the macro generates the parser. -/
theorem derived_from {fuel : Nat} {d : Derived} (h : derive env fuel attrs = .ok d) (hm : Modules env (attrs.filterMap sourceOf) ms) :
    ∃ cfg n, generateTyped cfg env.unicodeNames n (united ms) = .ok d.code := by
  obtain ⟨ms', cfg, hm', hg, -⟩ := C71_result_partial _ _ _ _ h
  cases modules_unique hm hm'
  exact ⟨cfg, _, hg⟩

/-- Whenever the macro generates a parser for a grammar with silent rules with parameters in which names are not confused, it is the parser of the grammar as written: the generated definitions are a
program, if trivia rules do not use themselves after the calls of these rules are replaced.  In it, the struct of a rule without parameters accepts exactly the texts
that the expression of the rule matches completely; the tokens are those of the rules that were applied, where silent rules with parameters are transparent; it rejects exactly the texts of which the expression
matches nothing or only a part; and it runs forever exactly on those for which the grammar does not say either. -/
theorem C82_parser {S : Type} {so : StackOps S} {saved : S → List (List Span)} (hls : Lawful so saved) {fuel : Nat} {d : Derived} (h : derive env fuel attrs = .ok d)
    (hm : Modules env (attrs.filterMap sourceOf) ms) (hn : AllNamed (unicodeOf env.unicodeNames table) (united ms)) (hy : Hygienic (unicodeOf env.unicodeNames table) (united ms)) :
    ((∀ n m1, inlineModule n (united ms) = .ok m1 → ∀ m', ModIn m' m1 → TriviaAcyclic m') →
      ∃ R e lab, Linked (unicodeOf env.unicodeNames table) d.code.1 d.code.2.wrappers R e ∧ Labelled d.code.1 R e lab) ∧
    ∀ R e lab, Linked (unicodeOf env.unicodeNames table) d.code.1 d.code.2.wrappers R e → Labelled d.code.1 R e lab →
    ∀ p m' r, modAt (united ms) p = some m' → r ∈ m'.rules → r.name ≠ optName → r.name ≠ manName → r.args = [] → ∀ inp : Str,
      let means := Meaning (unicodeOf env.unicodeNames table) (united ms) (.expr (.mk p [] r.node)) (startCfg inp)
      let parser := fun n => tryParse so e n (.rule (R.num p r.name [])) inp
      ((∃ n t, parser n = .ok (.ok t)) ↔ ∃ stk, means (some ⟨inp.text, [], stk⟩)) ∧
      (r.silent = false → ∀ P, (∃ n t, parser n = .ok (.ok t) ∧ t.asPairTree e lab = some P) ↔
        ∃ stk F, ShowsThrough (unicodeOf env.unicodeNames table) (united ms) (.expr (.mk p [] r.node)) (startCfg inp) ⟨inp.text, [], stk⟩ F ∧
          P = .mk (ruleAt p r.name) 0 (utf8Len inp.text) F) ∧
      ((∃ n trk, parser n = .ok (.error trk)) ↔ means none ∨ ∃ c, means (some c) ∧ c.suf ≠ []) ∧
      ((∀ n, parser n = .oof) ↔ ∀ res, ¬ means res) := by
  obtain ⟨cfg, n, hg⟩ := derived_from h hm
  refine ⟨fun ha => ?_, fun R e lab hl hlab p m' r hp hr ho hman ha inp => C82_generated hls hg hn hy hl hlab hp hr ho hman ha inp⟩
  unfold generateTyped at hg
  obtain ⟨m1, h1, h2⟩ := andThen_ok.mp hg
  exact C65_exists _ h2 (fun m' h => (inline_named hn hy h1 m' h).rules) (ha _ _ h1)

/-- The same for errors. -/
theorem C82_messages {S : Type} {so : StackOps S} {saved : S → List (List Span)} (hls : Lawful so saved) {fuel : Nat} {d : Derived} (h : derive env fuel attrs = .ok d)
    (hm : Modules env (attrs.filterMap sourceOf) ms) (hn : AllNamed (unicodeOf env.unicodeNames table) (united ms)) (hy : Hygienic (unicodeOf env.unicodeNames table) (united ms))
    {rank : RuleVal → Label} (hrank : Ranks rank) :
    ((∀ n m1, inlineModule n (united ms) = .ok m1 → ∀ m', ModIn m' m1 → TriviaAcyclic m') →
      ∃ R e, Linked (unicodeOf env.unicodeNames table) d.code.1 d.code.2.wrappers R e ∧ Numbered d.code.1 R e rank) ∧
    ∀ R e, Linked (unicodeOf env.unicodeNames table) d.code.1 d.code.2.wrappers R e → Numbered d.code.1 R e rank →
    ∀ p m' r, modAt (united ms) p = some m' → r ∈ m'.rules → r.name ≠ optName → r.name ≠ manName → r.args = [] → ∀ (inp : Str) (sh : Label → Text),
      ((∃ n t, tryParse so e n (.rule (R.num p r.name [])) inp = .ok (.error t)) ↔ ∃ es, FullTriesThrough (unicodeOf env.unicodeNames table) (united ms) rank p r inp false es) ∧
      ∀ n t es, tryParse so e n (.rule (R.num p r.name [])) inp = .ok (.error t) → FullTriesThrough (unicodeOf env.unicodeNames table) (united ms) rank p r inp false es →
        Furthest inp 0 [] es t ∧ Listed [] es t ∧
        (∀ k v, (k, v) ∈ t.attempts → ∀ x, k = some x ∨ x ∈ v.positives ∨ x ∈ v.negatives → ∃ w, Nameable (united ms) w ∧ x = rank w) ∧
        ∃ before current after, inp.text = before ++ current ++ after ∧ utf8Len (before ++ current) = t.position.pos ∧
          '\n' ∉ current ∧ (before = [] ∨ ∃ b, before = b ++ ['\n']) ∧
          ∃ msg, t.collect sh = some ⟨t.position, msg⟩ ∧ _root_.Pest3.Reads sh (1 + before.count '\n') current t.attempts msg := by
  obtain ⟨cfg, n, hg⟩ := derived_from h hm
  refine ⟨fun ha => ?_, fun R e hl hlab p m' r hp hr ho hman ha inp sh => C82_errors hls hg hn hy hl hrank hlab hp hr ho hman ha inp sh⟩
  unfold generateTyped at hg
  obtain ⟨m1, h1, h2⟩ := andThen_ok.mp hg
  exact C81_exists _ h2 (fun m' h => (inline_named hn hy h1 m' h).rules) (ha _ _ h1) rank

/-- The tokens are determined by where the match starts. -/
theorem C82_tokens_unique {fuel : Nat} {d : Derived} (h : derive env fuel attrs = .ok d)
    (hm : Modules env (attrs.filterMap sourceOf) ms) (hn : AllNamed (unicodeOf env.unicodeNames table) (united ms)) (hy : Hygienic (unicodeOf env.unicodeNames table) (united ms))
    {R : Layout} {e : Env} (hl : Linked (unicodeOf env.unicodeNames table) d.code.1 d.code.2.wrappers R e) {p : List Name} {m' : Module} {r : Rule}
    (hp : modAt (united ms) p = some m') (hr : r ∈ m'.rules) (ha : r.args = []) {c c1 c2 : Cfg} {F G : List (Pair RuleVal)}
    (hF : ShowsThrough (unicodeOf env.unicodeNames table) (united ms) (.expr (.mk p [] r.node)) c c1 F)
    (hG : ShowsThrough (unicodeOf env.unicodeNames table) (united ms) (.expr (.mk p [] r.node)) c c2 G) : c1 = c2 ∧ F = G := by
  obtain ⟨cfg, n, hg⟩ := derived_from h hm
  unfold generateTyped at hg
  obtain ⟨m1, h1, h2⟩ := andThen_ok.mp hg
  have hx := expanded_of h1 h2 hn hy hl
  obtain ⟨_, r1, _, _, _, _, _, hi⟩ := hx.rule hp (findRule_eq (hn m' (modAt_in p hp)).rules hr) ha
  rw [← shows_inline_iff hx.sim hi (by simp)] at hF hG
  have := Shows.det hF (some (c2, G)) hG
  simp only [Option.some.injEq, Prod.mk.injEq] at this
  exact ⟨this.1.symm, this.2.symm⟩

/-- Every match has tokens, and there are events for every result. -/
theorem C82_total {u : Unicode} {root : Module} {e : Clo} {c : Cfg} :
    (∀ c', (∃ F, ShowsThrough u root (.expr e) c c' F) ↔ Meaning u root (.expr e) c (some c')) ∧
    ∀ rank f res, (∃ es, TriesThrough u root rank f (.expr e) c res es) ↔ Meaning u root (.expr e) c res :=
  ⟨fun _ => ⟨fun ⟨_, h⟩ => h.meaning, fun h => meaning_showsThrough h _ rfl (by simp)⟩,
    fun rank f _ => ⟨fun ⟨_, h⟩ => h.meaning, fun h => meaning_triesThrough rank h f⟩⟩

/-- The macro generates a parser if every attribute is written as it has to be, there is a grammar, everything in it is well scoped, and the calls of silent rules with parameters can be replaced. -/
theorem C82_accepted (hm : Modules env (attrs.filterMap sourceOf) ms) (hn : AllNamed (unicodeOf env.unicodeNames table) (united ms)) (hy : Hygienic (unicodeOf env.unicodeNames table) (united ms))
    {rank : Name → Nat} (hex : Expandable (united ms) rank) (hu : ∀ a ∈ attrs, Understood env.ident a) (hne : attrs.filterMap sourceOf ≠ [])
    (hsc : AllScoped (unicodeOf env.unicodeNames table) (united ms)) : ∃ fuel d, derive env fuel attrs = .ok d := by
  obtain ⟨cfg, c1, c2, c3⟩ := config_exists attrs
  obtain ⟨n, m1, h1⟩ := inline_exists hn hy hsc hex
  obtain ⟨r, hr⟩ := (C61_accepts (cfg := cfg) (inline_named hn hy h1)).mpr (inline_scoped hn hy hsc hex h1)
  have hg : generateTyped cfg env.unicodeNames n (united ms) = .ok r := by
    unfold generateTyped
    exact andThen_ok.mpr ⟨m1, h1, hr⟩
  obtain ⟨N, hN⟩ := C71_succeeds env attrs ms cfg n r hu hne hm c1 c2 c3 hg
  obtain ⟨d, h, -⟩ := hN N (Nat.le_refl _)
  exact ⟨N, d, h⟩

/-- Trivia rules that neither use themselves nor silent rules with parameters satisfy the condition for there being a program. -/
theorem C82_trivia (hn : AllNamed (unicodeOf env.unicodeNames table) (united ms)) (hac : ∀ m', ModIn m' (united ms) → TriviaAcyclic m')
    (hc : ∀ r ∈ (united ms).rules, r.name = optName ∨ r.name = manName → ∀ q as x, Sub (.call q as) r.node → q.getLast? = some x → ¬ SilentName (united ms) x) :
    ∀ n m1, inlineModule n (united ms) = .ok m1 → ∀ m', ModIn m' m1 → TriviaAcyclic m' := fun _ _ h => inline_acyclic hn hac hc h

/-- From the text to the tree: a declaration with a grammar written in the notation, possibly with silent rules with parameters, gives a parser, and the trees it gives are those of the grammar as written. -/
theorem C82_text {S : Type} {so : StackOps S} {saved : S → List (List Span)} (hls : Lawful so saved) (hw : Faithful env.world)
    {text : Text} {items : List FileItem} (ht : FileText items text) (ho : OnlyRules items)
    (hu : ∀ a ∈ attrs, Understood env.ident a) (ha : attrs.filterMap sourceOf = [.inline text])
    (hn : WellNamed (unicodeOf env.unicodeNames table) (.mk (rulesIn items) []))
    (hy : Hygienic (unicodeOf env.unicodeNames table) (.mk (rulesIn items) []))
    {rank : Name → Nat} (hex : Expandable (.mk (rulesIn items) []) rank)
    (hsc : WellScoped (unicodeOf env.unicodeNames table) (.mk (rulesIn items) []))
    (hac : TriviaAcyclic (.mk (rulesIn items) []))
    (hc : ∀ r ∈ rulesIn items, r.name = optName ∨ r.name = manName → ∀ q as f, f ∈ rulesIn items → f.inlined = true → Sub (.call q as) r.node → q.getLast? ≠ some f.name) :
    ∃ fuel d R e lab, derive env fuel attrs = .ok d ∧ Linked (unicodeOf env.unicodeNames table) d.code.1 d.code.2.wrappers R e ∧ Labelled d.code.1 R e lab ∧
      ∀ r ∈ rulesIn items, r.name ≠ optName → r.name ≠ manName → r.args = [] → r.silent = false → ∀ (inp : Str) P,
        (∃ n t, tryParse so e n (.rule (R.num [] r.name [])) inp = .ok (.ok t) ∧ t.asPairTree e lab = some P) ↔
          ∃ stk F, ShowsThrough (unicodeOf env.unicodeNames table) (.mk (rulesIn items) []) (.expr (.mk [] [] r.node)) (startCfg inp) ⟨inp.text, [], stk⟩ F ∧
            P = .mk (.rule r.name) 0 (utf8Len inp.text) F := by
  have hm : Modules env (attrs.filterMap sourceOf) [.mk (rulesIn items) []] := ha ▸ modules_text hw ht ho
  have hun : united [.mk (rulesIn items) []] = .mk (rulesIn items) [] := by simp [united, Module.rules, Module.imports]
  have all : ∀ {m'}, ModIn m' (.mk (rulesIn items) []) → m' = .mk (rulesIn items) [] := by
    intro m' h
    cases h with
    | refl => rfl
    | step h1 _ => simp [Module.imports] at h1
  have hn' : AllNamed (unicodeOf env.unicodeNames table) (united [.mk (rulesIn items) []]) := by
    rw [hun]; intro m' h; cases all h; exact hn
  have hy' : Hygienic (unicodeOf env.unicodeNames table) (united [.mk (rulesIn items) []]) := by rw [hun]; exact hy
  obtain ⟨fuel, d, h⟩ := C82_accepted hm hn' hy' (by rw [hun]; exact hex) hu (by rw [ha]; simp) (by rw [hun]; intro m' h; cases all h; exact hsc)
  obtain ⟨h1, h2⟩ := C82_parser hls h hm hn' hy'
  obtain ⟨R, e, lab, hl, hlab⟩ := h1 (C82_trivia hn' (by rw [hun]; intro m' h; cases all h; exact hac) (by
    rw [hun]
    rintro r hr hx q as x hs hq ⟨m', h1, f, h2, h3, rfl⟩
    cases all h1
    exact hc r hr hx q as f h2 h3 hs hq))
  refine ⟨fuel, d, R, e, lab, h, hl, hlab, fun r hr ho hman hargs hsil inp P => ?_⟩
  have h3 := h2 R e lab hl hlab [] _ r rfl (by rw [hun]; exact hr) ho hman hargs inp
  rw [hun] at h3
  exact h3.2.1 hsil P

end

/-! ### Examples

`f(x) = _{ x }`, `h = _{ i }`, `i = "a"`, `t = f(i)`, `s = h`, and a module `m` that contains the same. -/

def thrF : Rule := ⟨['f'], [['x']], .path [['x']], true⟩
def thrH : Rule := ⟨['h'], [], .path [['i']], true⟩
def thrI : Rule := ⟨['i'], [], .str ['a'], false⟩
def thrT : Rule := ⟨['t'], [], .call [['f']] [.path [['i']]], false⟩
def thrS : Rule := ⟨['s'], [], .path [['h']], false⟩
def thrRules : List Rule := [thrF, thrH, thrI, thrT, thrS]
def thrMod (b : Bool) : Module := .mk thrRules (if b then [.file ['m'] (.mk thrRules [])] else [])

private theorem thr_rules {b : Bool} {r : Rule} (h : r ∈ (thrMod b).rules) : r = thrF ∨ r = thrH ∨ r = thrI ∨ r = thrT ∨ r = thrS := by
  simpa [thrMod, thrRules, Module.rules] using h

private theorem thr_silent {b : Bool} {f : Rule} (h : f ∈ (thrMod b).rules) (hi : f.inlined = true) : f = thrF := by
  rcases thr_rules h with rfl | rfl | rfl | rfl | rfl
  · rfl
  all_goals exact absurd hi (by decide)

private theorem thr_in {b : Bool} {m' : Module} (h : ModIn m' (thrMod b)) : m' = thrMod b ∨ m' = thrMod false := by
  cases h with
  | refl => exact .inl rfl
  | step h1 h2 =>
    cases b with
    | false => simp [thrMod, Module.imports] at h1
    | true =>
      simp only [thrMod, Module.imports, if_true, List.mem_singleton] at h1
      cases h1
      cases h2 with
      | refl => exact .inr rfl
      | step h1 _ => simp [Module.imports] at h1

private theorem thr_calls {b : Bool} {r : Rule} (h : r ∈ (thrMod b).rules) {q as} (hs : Sub (.call q as) r.node) : r = thrT ∧ q = [['f']] ∧ as = [.path [['i']]] := by
  rcases thr_rules h with rfl | rfl | rfl | rfl | rfl
  · cases hs
  · cases hs
  · cases hs
  · unfold thrT at hs
    cases hs with
    | refl => exact ⟨rfl, rfl, rfl⟩
    | arg ha hs => cases List.mem_singleton.mp ha; cases hs
  · cases hs

private theorem thr_named (u : Unicode) (b : Bool) : AllNamed u (thrMod b) := by
  have main : ∀ b, WellNamed u (thrMod b) := by
    intro b
    refine ⟨by cases b <;> decide, by cases b <;> decide, by cases b <;> decide, ?_, ?_, ?_⟩
    · cases b <;> simp [thrMod, Module.imports]
    · intro r hr
      rcases thr_rules hr with rfl | rfl | rfl | rfl | rfl <;> decide
    · intro r hr
      rcases thr_rules hr with rfl | rfl | rfl | rfl | rfl
      · exact fun x _ => ⟨fun args h => (by cases h), fun range h => (by cases h)⟩
      all_goals exact fun x hx => absurd hx (by simp [thrH, thrI, thrT, thrS])
  intro m' h
  rcases thr_in h with rfl | rfl <;> exact main _

private theorem thr_hygienic (names : List Name) (table : Name → Char → Bool) (b : Bool) : Hygienic (unicodeOf names table) (thrMod b) := by
  refine ⟨fun r hr q args x hs hq hx => ?_, fun f hf hi x _ => ?_, fun f hf hi x hx r hr ho => ?_,
    fun f hf hi r hr hk y hy => ?_, fun r hr => ⟨?_, fun q args hs a ha => ?_⟩⟩
  · obtain ⟨-, rfl, rfl⟩ := thr_calls hr hs
    simp only [List.getLast?_singleton, Option.some.injEq] at hq
    subst hq
    exact ⟨rfl, thrF, by cases b <;> rfl, by decide⟩
  · cases thr_silent hf hi
    intro p pre a post h; cases h
  · cases thr_silent hf hi
    simp [thrF] at hx
  · rcases thr_rules hr with rfl | rfl | rfl | rfl | rfl
    · exact absurd hk (by decide)
    all_goals simp [thrH, thrI, thrT, thrS] at hy
  · rcases thr_rules hr with rfl | rfl | rfl | rfl | rfl <;> rfl
  · obtain ⟨-, rfl, rfl⟩ := thr_calls hr hs
    cases List.mem_singleton.mp ha
    rfl

private theorem thr_expandable (b : Bool) : Expandable (thrMod b) fun _ => 0 := by
  refine ⟨fun f hf hi => ?_, fun r hr q as hs a ha f hf hi bs h => ?_, fun f hf hi g hg hgi as hs => ?_⟩
  · cases thr_silent hf hi
    exact ⟨['x'], by simp [thrF], .refl⟩
  · obtain ⟨-, -, rfl⟩ := thr_calls hr hs
    cases List.mem_singleton.mp ha
    cases h
  · cases thr_silent hf hi
    cases hs

private theorem thr_acyclic {b : Bool} {m' : Module} (h : ModIn m' (thrMod b)) : TriviaAcyclic m' := by
  have main : ∀ b, ∀ r ∈ (thrMod b).rules, r.name ≠ optName ∧ r.name ≠ manName := by
    intro b r hr
    rcases thr_rules hr with rfl | rfl | rfl | rfl | rfl <;> decide
  rcases thr_in h with rfl | rfl <;>
    exact ⟨fun r hr hx => absurd hx (main _ r hr).1, fun r hr hx => absurd hx (main _ r hr).2, .inl fun r hr hx => absurd hx (main _ r hr).1⟩

private theorem thr_generate (b : Bool) : ∃ out st, generateTyped ⟨true, false, none⟩ [] 5 (thrMod b) = .ok (out, st) := by
  cases b <;> exact ⟨_, _, rfl⟩

/-- What is inside a silent rule depends on whether the rule has parameters and on where it is: in the tree of `t` there is a token for `i`, which is in the argument of the silent rule `f`; in
that of `s` there is none, as the silent rule `h` has no parameters; and in that of `t` in the imported module, which is written in the same way, there is none either. -/
theorem C82_inside : ∃ m out st, generateTyped ⟨true, false, none⟩ [] 5 m = .ok (out, st) ∧ (∃ m', modAt m [['m']] = some m' ∧ m'.rules = m.rules) ∧ m.rules = thrRules ∧
    ∃ R env lab, Linked (unicodeOf [] fun _ _ => false) out st.wrappers R env ∧ Labelled out R env lab ∧
      (∃ n t, tryParse idealOps env n (.rule (R.num [] ['t'] [])) ⟨0, ['a']⟩ = .ok (.ok t) ∧ t.asPairTree env lab = some (.mk (.rule ['t']) 0 1 [.mk (.rule ['i']) 0 1 []])) ∧
      (∃ n t, tryParse idealOps env n (.rule (R.num [] ['s'] [])) ⟨0, ['a']⟩ = .ok (.ok t) ∧ t.asPairTree env lab = some (.mk (.rule ['s']) 0 1 [])) ∧
      ∃ n t, tryParse idealOps env n (.rule (R.num [['m']] ['t'] [])) ⟨0, ['a']⟩ = .ok (.ok t) ∧ t.asPairTree env lab = some (.mk (ruleAt [['m']] ['t']) 0 1 []) := by
  obtain ⟨out, st, hgen⟩ := thr_generate true
  have hn := thr_named (unicodeOf [] fun _ _ => false) true
  have hy := thr_hygienic [] (fun _ _ => false) true
  have hgen' := hgen
  unfold generateTyped at hgen'
  obtain ⟨m1, h1, h2⟩ := andThen_ok.mp hgen'
  obtain ⟨R, env, lab, hl, hlab⟩ := C65_exists (unicodeOf [] fun _ _ => false) h2 (fun m' h => (inline_named hn hy h1 m' h).rules)
    (inline_acyclic hn (fun _ h => thr_acyclic h) (fun r hr hx => by
      rcases thr_rules hr with rfl | rfl | rfl | rfl | rfl <;> exact absurd hx (by decide)) h1)
  have item : ∀ p, p = [] ∨ p = [['m']] → ShowsThrough (unicodeOf [] fun _ _ => false) (thrMod true) (.expr (.mk p [] (.path [['i']]))) ⟨[], ['a'], []⟩ ⟨['a'], [], []⟩
      (tokens p thrI ⟨[], ['a'], []⟩ ⟨['a'], [], []⟩ []) := by
    rintro p (rfl | rfl) <;>
      exact .rule (fun x hx => rfl) rfl rfl (.literal rfl (.literalOk (m := ['a']) rfl rfl rfl))
  refine ⟨thrMod true, out, st, hgen, ⟨_, rfl, rfl⟩, rfl, R, env, lab, hl, hlab, ?_, ?_, ?_⟩
  · exact ((C82_generated (p := []) (r := thrT) ideal_lawful hgen hn hy hl hlab rfl (by simp [thrMod, thrRules, Module.rules]) (by decide) (by decide) rfl ⟨0, ['a']⟩).2.1 rfl _).mpr
      ⟨[], _, .call (p' := []) (r := thrF) (fun x hx => rfl) rfl rfl (.param rfl (item [] (.inl rfl))), rfl⟩
  · exact ((C82_generated (p := []) (r := thrS) ideal_lawful hgen hn hy hl hlab rfl (by simp [thrMod, thrRules, Module.rules]) (by decide) (by decide) rfl ⟨0, ['a']⟩).2.1 rfl _).mpr
      ⟨[], _, .rule (p' := []) (r := thrH) (fun x hx => rfl) rfl rfl (item [] (.inl rfl)), rfl⟩
  · exact ((C82_generated (p := [['m']]) (r := thrT) ideal_lawful hgen hn hy hl hlab rfl (by simp [thrRules, Module.rules]) (by decide) (by decide) rfl ⟨0, ['a']⟩).2.1 rfl _).mpr
      ⟨[], _, .call (p' := [['m']]) (r := thrF) (fun x hx => rfl) rfl rfl (.param rfl (item [['m']] (.inr rfl))), rfl⟩

/-- The error of `t` for `b` says that `i` was expected; `f` is not mentioned. -/
example : ∃ out st, generateTyped ⟨true, false, none⟩ [] 5 (thrMod true) = .ok (out, st) ∧
    ∃ rank R env, Ranks rank ∧ Linked (unicodeOf [] fun _ _ => false) out st.wrappers R env ∧ Numbered out R env rank ∧
      (∃ fuel t, tryParse idealOps env fuel (.rule (R.num [] ['t'] [])) ⟨0, ['b']⟩ = .ok (.error t)) ∧
      ∀ fuel t, tryParse idealOps env fuel (.rule (R.num [] ['t'] [])) ⟨0, ['b']⟩ = .ok (.error t) →
        t.position.pos = 0 ∧ (none, ⟨[rank (.rule ['i'])], [], []⟩) ∈ t.attempts := by
  obtain ⟨out, st, hgen⟩ := thr_generate true
  have hn := thr_named (unicodeOf [] fun _ _ => false) true
  have hy := thr_hygienic [] (fun _ _ => false) true
  have hgen' := hgen
  unfold generateTyped at hgen'
  obtain ⟨m1, h1, h2⟩ := andThen_ok.mp hgen'
  obtain ⟨rank, hrank⟩ := C81_ranks
  obtain ⟨R, env, hl, hlab⟩ := C81_exists (unicodeOf [] fun _ _ => false) h2 (fun m' h => (inline_named hn hy h1 m' h).rules)
    (inline_acyclic hn (fun _ h => thr_acyclic h) (fun r hr hx => by
      rcases thr_rules hr with rfl | rfl | rfl | rfl | rfl <;> exact absurd hx (by decide)) h1) rank
  obtain ⟨g1, g2⟩ := C82_errors (p := []) (r := thrT) ideal_lawful hgen hn hy hl hrank hlab rfl (by simp [thrMod, thrRules, Module.rules]) (by decide) (by decide) rfl ⟨0, ['b']⟩ (fun _ => [])
  have hes : FullTriesThrough (unicodeOf [] fun _ _ => false) (thrMod true) rank [] thrT ⟨0, ['b']⟩ false
      [.rule (rank (.rule ['t'])) 0 true false [.rule (rank (.rule ['i'])) 0 true false []]] :=
    .fail (es := tried rank [] thrI true ⟨[], ['b'], []⟩ none []) (.call (p' := []) (r := thrF) (fun x hx => rfl) rfl rfl (.param rfl
      (.rule (p' := []) (r := thrI) (fun x hx => rfl) rfl rfl (.literal rfl (.literalFail rfl rfl)))))
  refine ⟨out, st, hgen, rank, R, env, hrank, hl, hlab, g1.mpr ⟨_, hes⟩, fun fuel t he => ?_⟩
  obtain ⟨h3, h4, -⟩ := g2 fuel t _ he hes
  have hpos : t.position.pos = 0 := by
    rcases h3.attained with h5 | ⟨ups', e, hw, hr, h5⟩
    · exact h5
    · rw [← h5]
      cases hw with
      | here hm => cases List.mem_singleton.mp hm; rfl
      | inner hm hw =>
        cases List.mem_singleton.mp hm
        cases hw with
        | here hm => cases List.mem_singleton.mp hm; rfl
        | inner hm hw =>
          cases List.mem_singleton.mp hm
          cases hw with
          | here h => cases h
          | inner h _ => cases h
  refine ⟨hpos, (h4.order _ _).mpr ?_⟩
  rw [hpos]
  simp [entryFor, filed, Ev.reportsList, Ev.reports, Ev.isRule, upperOf, outcome, expectedOf, unexpectedOf, specialsOf, squash]

def thrText : Text := "f(x) = _{ x }\nh = _{ i }\ni = \"a\"\nt = f(i)\ns = h".toList

private theorem thrText_file : FileText (thrRules.map .rule) thrText := by
  have gap : Gap [' '] := .blank .space .nil
  have nl : Gap ['\n'] := .blank (.line .lf) .nil
  have ident : ∀ x : Char, isAlpha x → IsIdent [x] := fun x h => .mk (.inr h) (by intro _ h; cases h)
  have ref : ∀ x : Char, isAlpha x → Note (.expr .whole (.path [[x]])) [x] := fun x h => note_whole (note_up (.path (.one (ident x h))))
  have isF : isAlpha 'f' := .inl (by decide)
  have isX : isAlpha 'x' := .inl (by decide)
  have isH : isAlpha 'h' := .inl (by decide)
  have isI : isAlpha 'i' := .inl (by decide)
  have isT : isAlpha 't' := .inl (by decide)
  have isS : isAlpha 's' := .inl (by decide)
  have r1 : RuleText thrF [] false _ := .mk .nil (.inl (ident 'f' isF)) .nil (.list (.last (ident 'x' isX) .nil .nil) gap) gap (.silentBraced .nil gap (ref 'x' isX) gap)
  have r2 : RuleText thrH [] false _ := .mk .nil (.inl (ident 'h' isH)) gap .none gap (.silentBraced .nil gap (ref 'i' isI) gap)
  have r3 : RuleText thrI [] true _ := .mk .nil (.inl (ident 'i' isI)) gap .none gap (.plain (note_whole (note_up (.str (.plain (by decide) (by decide) .nil)))) (by intro r h; cases h))
  have r4 : RuleText thrT [] true _ := .mk .nil (.inl (ident 't' isT)) gap .none gap (.plain (note_whole (note_up (.call (.one (ident 'f' isF)) .nil (.lastArg .nil (ref 'i' isI) .nil))))
    (by intro r h; cases h))
  have r5 : RuleText thrS [] true _ := .mk .nil (.inl (ident 's' isS)) gap .none gap (.plain (ref 'h' isH) (by intro r h; cases h))
  have fits : ∀ {x : Char} {t : Text}, x ≠ '~' → x ≠ '^' → Fits .expr (x :: t) := by
    rintro x t h1 h2 ⟨y, g, r, hy, _, h⟩
    injection h with h _
    subst h
    exact hy.elim h1 h2
  have file : Documented (thrRules.map .rule) [] [(['f'], []), (['h'], []), (['i'], []), (['t'], []), (['s'], [])] _ := .mk .nil .nil
    (.cons (.closedRule r1) nl (by simp) (.cons (.closedRule r2) nl (by simp) (.cons (.openRule r3) nl (by simp) (.cons (.openRule r4) nl (by simp)
      (.last (.openRule r5) (.gap .nil)) (fits (by decide) (by decide))) (fits (by decide) (by decide))) trivial) trivial) ⟨_, List.mem_cons_self⟩
  have he : ∀ {t : Text}, Documented (thrRules.map .rule) [] [(['f'], []), (['h'], []), (['i'], []), (['t'], []), (['s'], [])] t → t = thrText → FileText (thrRules.map .rule) thrText := by
    rintro _ h rfl; exact ⟨_, _, h⟩
  exact he file (by decide +kernel)

/-- A declaration with this text gives a parser whose `t` gives a tree with a token for `i`. -/
example : ∃ (env : Setting) (attrs : List Attr) (fuel : Nat) (d : Derived) (R : Layout) (e : Env) (lab : Label → RuleVal), derive env fuel attrs = .ok d ∧
    Linked (unicodeOf [] fun _ _ => false) d.code.1 d.code.2.wrappers R e ∧ Labelled d.code.1 R e lab ∧
    ∃ n t, tryParse idealOps e n (.rule (R.num [] ['t'] [])) ⟨0, ['a']⟩ = .ok (.ok t) ∧ t.asPairTree e lab = some (.mk (.rule ['t']) 0 1 [.mk (.rule ['i']) 0 1 []]) := by
  obtain ⟨w, -, hw, -⟩ := C67_world fun _ => none
  let env : Setting := ⟨none, ⟨true, []⟩, fun _ => false, fun _ => false, [], w⟩
  let attrs : List Attr := [⟨some "grammar_inline".toList, .str thrText⟩]
  have hitems : rulesIn (thrRules.map .rule) = thrRules := by rfl
  have hsc : AllScoped (unicodeOf [] fun _ _ => false) (thrMod false) :=
    (C61_accepts (cfg := ⟨true, false, none⟩) (thr_named _ false)).mp ⟨_, rfl⟩
  obtain ⟨fuel, d, R, e, lab, h, hl, hlab, h'⟩ := C82_text (env := env) (attrs := attrs) (table := fun _ _ => false) ideal_lawful hw thrText_file
    (by simp [OnlyRules, thrRules]) (by
      intro a ha
      cases List.mem_singleton.mp ha
      exact ⟨fun x _ _ => ⟨_, rfl⟩, fun x hx h => by cases h; exact absurd hx (by decide), fun h => absurd h (by show ¬ some "grammar_inline".toList = some "rules_mod".toList; decide)⟩) (by decide)
    (thr_named _ false _ .refl) (thr_hygienic [] _ false) (thr_expandable false) (hsc _ .refl) (thr_acyclic (b := false) .refl) (by
      intro r hr hx
      rcases thr_rules (b := false) hr with rfl | rfl | rfl | rfl | rfl <;> exact absurd hx (by decide))
  refine ⟨env, attrs, fuel, d, R, e, lab, h, hl, hlab, ?_⟩
  exact (h' thrT (by rw [hitems]; simp [thrRules]) (by decide) (by decide) rfl rfl ⟨0, ['a']⟩ _).mpr
    ⟨[], _, .call (p' := []) (r := thrF) (fun x hx => rfl) rfl rfl (.param rfl (.rule (p' := []) (r := thrI) (fun x hx => rfl) rfl rfl (.literal rfl (.literalOk (m := ['a']) rfl rfl rfl)))), rfl⟩

end Pest3.Props
