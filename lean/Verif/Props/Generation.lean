import Verif.LinkGen
import Verif.Props.Engine

/-!
# Property C52: the generated parser recognises what the grammar means

`Meaning` (`Verif/GrammarSpec.lean`) is the meaning of the grammar as written.  `Linked` (`Verif/Linkage.lean`) says
that `env` and `R` are what the Rust compiler makes of the generated definitions; `C52_exists` shows that there are such
for every generated grammar whose trivia rules do not use themselves.
-/

namespace Pest3.Props
open Pest3 Pest3.Gen

section
variable {cfg : Config} {names : List Name} {table : Name → Char → Bool} {m m' : Module} {out : Output} {st : GenSt}
  {R : Layout} {env : Env}

theorem compiled_of (h : generateModule cfg names m = .ok (out, st)) (hn : AllNamed (unicodeOf names table) m)
    (hl : Linked (unicodeOf names table) out st.wrappers R env) :
    Compiled (unicodeOf names table) m R env ∧
    ∀ p m' r ts, modAt m p = some m' → findRule m'.rules r.name = some r → r.name ≠ optName → r.name ≠ manName →
      ts.length = r.args.length → (env (R.num p r.name ts)).silent = r.silent ∧
      ∃ t, (env (R.num p r.name ts)).body = nodeOf (unicodeOf names table) R t ∧
        Comp (unicodeOf names table) m p (r.args.zip ts) (.one r.node t) := by
  unfold generateModule at h
  obtain ⟨⟨⟨out', sys⟩, st'⟩, h1, h⟩ := andThen_ok.mp h
  simp only [Res.ok.injEq, Prod.mk.injEq] at h
  obtain ⟨rfl, rfl⟩ := h
  exact gen_compiled (processModule_gen m _ _ _ _ h1) hn hl

/-- A generated grammar whose trivia rules do not use themselves is a program. -/
theorem C52_exists (u : Unicode) (h : generateModule cfg names m = .ok (out, st))
    (hn : ∀ m', ModIn m' m → (m'.rules.map Rule.name).Nodup) (ha : ∀ m', ModIn m' m → TriviaAcyclic m') :
    ∃ R env, Linked u out st.wrappers R env := by
  unfold generateModule at h
  obtain ⟨⟨⟨out', sys⟩, st'⟩, h1, h⟩ := andThen_ok.mp h
  simp only [Res.ok.injEq, Prod.mk.injEq] at h
  obtain ⟨rfl, rfl⟩ := h
  exact ⟨_, _, genMod_linked (processModule_gen m _ _ _ _ h1) u _ hn ha⟩

/-- The struct of a rule without parameters matches exactly what the rule's expression means, from every position
and with every stack. -/
theorem C52_rule (h : generateModule cfg names m = .ok (out, st)) (hn : AllNamed (unicodeOf names table) m)
    (hl : Linked (unicodeOf names table) out st.wrappers R env) {p : List Name} (hm : modAt m p = some m') {r : Rule}
    (hr : findRule m'.rules r.name = some r) (ho : r.name ≠ optName) (hm' : r.name ≠ manName) (ha : r.args = [])
    (c : Cfg) (res : Option Cfg) :
    Peg env (.node (.rule (R.num p r.name []))) c res ↔ Meaning (unicodeOf names table) m (.expr (.mk p [] r.node)) c res := by
  obtain ⟨hc, hrule⟩ := compiled_of h hn hl
  obtain ⟨_, t, hb, hcomp⟩ := hrule p m' r [] hm hr ho hm' (by simp [ha])
  have key := meaning_iff_peg hc (c := c) (r := res) (.clo .nil (by simpa [ha] using hcomp) :
    CRel (unicodeOf names table) m (.clo (.mk p [] r.node) t))
  rw [key, ← hb]
  exact ⟨fun h => by cases h; assumption, .rule⟩

/-- The struct of a rule with parameters at given types matches exactly what the rule's expression means, the parameters
standing for expressions the given types were generated for. -/
theorem C52_instance (h : generateModule cfg names m = .ok (out, st)) (hn : AllNamed (unicodeOf names table) m)
    (hl : Linked (unicodeOf names table) out st.wrappers R env) {p : List Name} (hm : modAt m p = some m') {r : Rule}
    (hr : findRule m'.rules r.name = some r) (ho : r.name ≠ optName) (hm' : r.name ≠ manName)
    {clos : List Clo} {ts : List CTy} (hlen : ts.length = r.args.length)
    (hts : CRel (unicodeOf names table) m (.env (r.args.zip clos) (r.args.zip ts))) (c : Cfg) (res : Option Cfg) :
    Peg env (.node (.rule (R.num p r.name ts))) c res ↔
      Meaning (unicodeOf names table) m (.expr (.mk p (r.args.zip clos) r.node)) c res := by
  obtain ⟨hc, hrule⟩ := compiled_of h hn hl
  obtain ⟨_, t, hb, hcomp⟩ := hrule p m' r ts hm hr ho hm' hlen
  rw [meaning_iff_peg hc (c := c) (r := res) (.clo hts hcomp), ← hb]
  exact ⟨fun h => by cases h; assumption, .rule⟩

/-- The trivia types of a module match exactly what the trivia rules mean. -/
theorem C52_trivia (h : generateModule cfg names m = .ok (out, st)) (hn : AllNamed (unicodeOf names table) m)
    (hl : Linked (unicodeOf names table) out st.wrappers R env) {p : List Name} (hm : modAt m p = some m') {t : Trivia}
    (ht : t = .none ∨ (triviaRule m' t).isSome) (c : Cfg) (res : Option Cfg) :
    Peg env (.node (R.triv (p, t))) c res ↔ Meaning (unicodeOf names table) m (.trivia p t) c res := by
  obtain ⟨hc, _⟩ := compiled_of h hn hl
  by_cases h0 : t = .none
  · subst h0
    rw [hc.noTrivia]
    constructor
    · intro h
      cases h.det peg_empty
      exact .triviaNone
    · intro h
      cases h with
      | triviaNone => exact peg_empty
      | triviaRule _ h _ => simp [triviaRule] at h
  · obtain ⟨r, hr⟩ := Option.isSome_iff_exists.mp (ht.resolve_left h0)
    obtain ⟨ty, h1, h2⟩ := hc.trivia p m' t r hm hr
    rw [h1, ← meaning_iff_peg hc (.clo .nil h2)]
    constructor
    · exact .triviaRule hm hr
    · intro h
      cases h with
      | triviaNone => exact absurd rfl h0
      | triviaRule h1 h2 h3 =>
        rw [hm] at h1
        injection h1 with h1
        subst h1
        rw [hr] at h2
        injection h2 with h2
        subst h2
        exact h3

/-- From source text to parsing: `try_parse` of a rule of the generated parser accepts exactly the texts that the
rule's expression matches completely, `try_parse_partial` those of which it matches a prefix. -/
theorem C52_try_parse {S : Type} {so : StackOps S} {saved : S → List (List Span)} (hls : Lawful so saved)
    (h : generateModule cfg names m = .ok (out, st)) (hn : AllNamed (unicodeOf names table) m)
    (hl : Linked (unicodeOf names table) out st.wrappers R env) {p : List Name} (hm : modAt m p = some m') {r : Rule}
    (hr : findRule m'.rules r.name = some r) (ho : r.name ≠ optName) (hm' : r.name ≠ manName) (ha : r.args = [])
    (inp : Str) :
    ((∃ fuel t, tryParse so env fuel (.rule (R.num p r.name [])) inp = .ok (.ok t)) ↔
      ∃ stk, Meaning (unicodeOf names table) m (.expr (.mk p [] r.node)) (startCfg inp) (some ⟨inp.text, [], stk⟩)) ∧
    (∀ n, (∃ fuel t, tryParsePartial so env fuel (.rule (R.num p r.name [])) inp = .ok (.ok (⟨inp, n⟩, t))) ↔
      ∃ c, utf8Len c.pre = n ∧
        Meaning (unicodeOf names table) m (.expr (.mk p [] r.node)) (startCfg inp) (some c)) := by
  have part : ∀ n, (∃ fuel t, tryParsePartial so env fuel (.rule (R.num p r.name [])) inp = .ok (.ok (⟨inp, n⟩, t))) ↔
      ∃ c, utf8Len c.pre = n ∧
        Meaning (unicodeOf names table) m (.expr (.mk p [] r.node)) (startCfg inp) (some c) := by
    intro n
    constructor
    · rintro ⟨fuel, t, h1⟩
      obtain ⟨c', ss', e, hb⟩ := (C16_try_parse_prefix hls env inp _ t _).mp ⟨fuel, h1⟩
      injection e with _ e
      exact ⟨c', e.symm, (C52_rule h hn hl hm hr ho hm' ha _ _).mp hb.peg⟩
    · rintro ⟨c, rfl, h1⟩
      have h2 := (C52_rule h hn hl hm hr ho hm' ha _ _).mpr h1
      obtain ⟨fuel, q, t, st', h3, h4, h5⟩ := (C16_recognise_iff hls env (good_start inp) (ready_init hls inp)
        (corr_start hls inp) _ c).mpr h2
      refine ⟨fuel, t, ?_⟩
      unfold tryParsePartial
      rw [h3]
      obtain ⟨qi, qp⟩ := q
      have := h5.at_.2
      simp only at h4 this
      simp only [finishRun, h4, this]
  refine ⟨?_, part⟩
  constructor
  · rintro ⟨fuel, t, h1⟩
    rw [C19_try_parse_iff hls env] at h1
    obtain ⟨c, e, h2⟩ := (part _).mp ⟨fuel, t, h1⟩
    obtain ⟨w, h3, h4⟩ := ((C52_rule h hn hl hm hr ho hm' ha _ _).mpr h2).consumes c rfl
    simp only [startCfg, List.nil_append] at h3 h4
    have : c.suf = [] := by
      rw [h4, h3] at e
      simp only [utf8Len_append] at e
      exact utf8Len_eq_zero.mp (by omega)
    obtain ⟨pre, suf, stk⟩ := c
    simp only at h3 h4 this
    subst h3 this
    rw [List.append_nil] at h4
    exact ⟨stk, by rw [h4]; exact h2⟩
  · rintro ⟨stk, h1⟩
    obtain ⟨fuel, t, h2⟩ := (part (utf8Len inp.text)).mpr ⟨_, rfl, h1⟩
    exact ⟨fuel, t, (C19_try_parse_iff hls env inp fuel _ t).mpr h2⟩

end

/-! ### Examples

`~ = " "*`, `x = "a" ~ y("b")`, `y(p) = p+ - m::z`, and `z = "c"` in the imported module `m`. -/

def genInner : Module := .mk [⟨['z'], [], .str ['c'], false⟩] []
def genOuter : Module :=
  .mk [⟨optName, [], .rep (.str [' ']), true⟩,
    ⟨['x'], [], .seq (.str ['a']) (.call [['y']] [.str ['b']]) .optional, false⟩,
    ⟨['y'], [['p']], .seq (.repOnce (.path [['p']])) (.path [['m'], ['z']]) .none, false⟩]
   [.file ['m'] genInner]

theorem genOuter_in {m' : Module} (h : ModIn m' genOuter) : m' = genOuter ∨ m' = genInner := by
  cases h with
  | refl => exact .inl rfl
  | step h1 h2 =>
    cases List.mem_singleton.mp h1
    cases h2 with
    | refl => exact .inr rfl
    | step h1 _ => simp [genInner, Module.imports] at h1

theorem genOuter_named (u : Unicode) : AllNamed u genOuter := by
  intro m' h
  rcases genOuter_in h with rfl | rfl
  · refine ⟨by decide, by decide, by decide, by simp [genOuter, Module.imports], ?_, ?_⟩
    · simp only [genOuter, Module.rules, List.mem_cons, List.not_mem_nil, or_false, forall_eq_or_imp, forall_eq]
      decide
    · simp only [genOuter, Module.rules, List.mem_cons, List.not_mem_nil, or_false, forall_eq_or_imp, forall_eq]
      refine ⟨by simp [ParamsPlain], by simp [ParamsPlain], fun x hx => ⟨fun args h => ?_, fun range h => ?_⟩⟩
      · cases h with
        | seqL h => cases h with | repOnce h => cases h
        | seqR h => cases h
      · cases h with
        | seqL h => cases h with | repOnce h => cases h
        | seqR h => cases h
  · exact ⟨by decide, by decide, by simp [genInner, Module.imports], by simp [genInner, Module.imports],
      by simp [genInner, Module.rules], by simp [genInner, Module.rules, ParamsPlain]⟩

theorem genOuter_acyclic {m' : Module} (h : ModIn m' genOuter) : TriviaAcyclic m' := by
  have no : ∀ t, ¬ UsesTrivia t (.rep (.str [' '])) := by
    rintro t (⟨l, r, h⟩ | ⟨e, h⟩) <;> cases h with | rep h => cases h
  rcases genOuter_in h with rfl | rfl
  · refine ⟨?_, ?_, .inl ?_⟩ <;>
      simp only [genOuter, Module.rules, List.mem_cons, List.not_mem_nil, or_false, forall_eq_or_imp, forall_eq, no,
        not_false_eq_true, implies_true, true_and] <;>
      exact ⟨fun h => absurd h (by decide), fun h => absurd h (by decide)⟩
  · refine ⟨?_, ?_, .inl ?_⟩ <;>
      simp only [genInner, Module.rules, List.mem_cons, List.not_mem_nil, or_false, forall_eq] <;>
      exact fun h => absurd h (by decide)

-- the example is generated, is a program, and its `x` accepts `a bbc`
example : ∃ out st, generateModule ⟨true, false, none⟩ [] genOuter = .ok (out, st) ∧
    ∃ R env, Linked (unicodeOf [] fun _ _ => false) out st.wrappers R env ∧
      Peg env (.node (.rule (R.num [] ['x'] []))) ⟨[], "a bbc".toList, []⟩ (some ⟨"a bbc".toList, [], []⟩) := by
  obtain ⟨out, st, hgen⟩ : ∃ out st, generateModule ⟨true, false, none⟩ [] genOuter = .ok (out, st) := ⟨_, _, rfl⟩
  obtain ⟨R, env, hl⟩ := C52_exists (unicodeOf [] fun _ _ => false) hgen
    (fun m' h => (genOuter_named (unicodeOf [] fun _ _ => false) m' h).rules) fun m' h => genOuter_acyclic h
  refine ⟨out, st, hgen, R, env, hl, ?_⟩
  refine (C52_rule (p := []) (r := ⟨['x'], [], .seq (.str ['a']) (.call [['y']] [.str ['b']]) .optional, false⟩) hgen
    (genOuter_named _) hl rfl rfl (by decide) (by decide) rfl _ _).mpr ?_
  refine .seq (.literalOk (m := ['a']) (rest := " bbc".toList) rfl rfl rfl) (c2 := ⟨"a ".toList, "bbc".toList, []⟩)
    (.triviaRule (m := genOuter) rfl rfl (.rep rfl ?_)) ?_
  · exact .repsMore (by decide) (.unitFirst (.literalOk (m := [' ']) (rest := "bbc".toList) rfl rfl rfl))
      (.repsStop (by decide) (.unitNext .triviaNone (.literalFail rfl rfl)) (by decide))
  · refine .call (p' := []) (r := ⟨['y'], [['p']], .seq (.repOnce (.path [['p']])) (.path [['m'], ['z']]) .none, false⟩)
      (fun x hx => rfl) rfl rfl (.seq (.rep rfl ?_) .triviaNone (c1 := ⟨"a bb".toList, "c".toList, []⟩) ?_)
    · exact .repsMore (by decide) (.unitFirst (.param rfl (.literalOk (m := ['b']) (rest := "bc".toList) rfl rfl rfl)))
        (.repsMore (by decide) (.unitNext .triviaNone (.param rfl (.literalOk (m := ['b']) (rest := "c".toList) rfl rfl rfl)))
          (.repsStop (by decide) (.unitNext .triviaNone (.param rfl (.literalFail rfl rfl))) (by decide)))
    · refine .rule (p' := [['m']]) (r := ⟨['z'], [], .str ['c'], false⟩) (fun x hx => ?_) rfl rfl
        (.literalOk (m := ['c']) (rest := []) rfl rfl rfl)
      simp at hx

/-! The hypotheses are needed. -/

/-- A grammar whose optional trivia uses `~` is generated but is not a program: the alias `__OptionalTrivia` refers to
itself. -/
theorem C52_cyclic_trivia : ∃ m out st, generateModule ⟨true, false, none⟩ [] m = .ok (out, st) ∧
    ∀ u, (∀ m', ModIn m' m → WellNamed u m') ∧ ¬ ∃ R env, Linked u out st.wrappers R env := by
  refine ⟨.mk [⟨optName, [], .seq (.str [' ']) (.str ['#']) .optional, false⟩] [], _, _, rfl, fun u => ⟨?_, ?_⟩⟩
  · intro m' h
    cases h with
    | refl =>
      exact ⟨by decide, by decide, by simp [Module.imports], by simp [Module.imports], by simp [Module.rules],
        by simp [Module.rules, ParamsPlain]⟩
    | step h1 _ => simp [Module.imports] at h1
  · rintro ⟨R, env, hl⟩
    have := hl.trivia [] _ .optional (by simp) rfl
    simp only [Output.trivia, close, closeAll, nodeOf, collectSequence, seqTail, List.map_cons, List.map_nil,
      List.zip_cons_cons, fieldsOf] at this
    have := congrArg sizeOf this
    simp at this
    omega

/-- Importing a single built-in under another name: the generated type refers to the new name, which here is
another built-in.  With `use pest::any as newline` the rule `x = newline` means any character, but the struct
matches line breaks only. -/
theorem C52_renamed_builtin : ∃ m out st, generateModule ⟨true, false, none⟩ [] m = .ok (out, st) ∧
    ∀ table R env, Linked (unicodeOf [] table) out st.wrappers R env →
      Meaning (unicodeOf [] table) m (.expr (.mk [] [] (.path [['x']]))) ⟨[], ['a'], []⟩ (some ⟨['a'], [], []⟩) ∧
      Peg env (.node (.rule (R.num [] ['x'] []))) ⟨[], ['a'], []⟩ none := by
  refine ⟨.mk [⟨['x'], [], .path ["newline".toList], false⟩] [.builtin "newline".toList ["pest".toList, "any".toList]],
    _, _, rfl, fun table R env hl => ⟨?_, ?_⟩⟩
  · refine .rule (p' := []) (fun x hx => rfl) rfl rfl ?_
    exact .builtinOk (m := ['a']) rfl (fun x hx => rfl) (full := ["pest".toList, "any".toList]) rfl rfl rfl rfl
  · have := (hl.rule [] _ _ [] rfl (List.mem_singleton.mpr rfl) rfl).1
    refine .rule ?_
    rw [this]
    exact .leafFail rfl

end Pest3.Props
