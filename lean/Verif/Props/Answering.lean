import Verif.AnswerLemmas
import Verif.Props.Moved
import Verif.Props.Rewriting

/-!
# C88: errors that say what was expected
-/

namespace Pest3.Props
open Pest3 Pest3.Gen Pest3.Load

/-- In a grammar that speaks up, an answering expression does not fail without an expected rule, at the place where it is tried or further; one that is sure does not fail. -/
theorem C88_grammar {u : Unicode} {root : Module} (hs : SpeaksUp u root) {rank : RuleVal → Label} {p : List Name} {b : Bool} {e : Expr} (he : Answering u root p [] b e) {c : Cfg}
    {es : List Ev} (h : Tries u root rank true (.expr (.mk p [] e)) c none es) :
    b = false ∧ ∀ ups, ∃ x ∈ Ev.reportsList ups es, (∃ l, x.what = .expected l) ∧ utf8Len c.pre ≤ x.pos :=
  have := h.spoken hs rfl b ⟨by simp, he⟩
  ⟨this.1, this.2.2⟩

/-- Mute expressions try nothing. -/
theorem C88_mute {u : Unicode} {root : Module} {rank : RuleVal → Label} {p : List Name} {ρ : List (Name × Clo)} {e : Expr} (he : Mute u root p (ρ.map Prod.fst) e) {f : Bool} {c : Cfg}
    {o : Option Cfg} {es : List Ev} (h : Tries u root rank f (.expr (.mk p ρ e)) c o es) : es = [] := he.quiet rfl h

section
variable {S : Type} {so : StackOps S} {saved : S → List (List Span)} (hls : Lawful so saved) {env : Setting} {attrs : List Attr} {ms : List Module}
  {table : Name → Char → Bool} {d : Derived} {R : Layout} {e : Env} {rank : RuleVal → Label} {lab : Label → RuleVal}
  (D : Derives env attrs ms table d R e rank lab)
include hls D

private theorem error_full {p : List Name} {m : Module} {r : Rule} (hp : modAt (united ms) p = some m) (hr : r ∈ m.rules)
    (ho : r.name ≠ optName) (hman : r.name ≠ manName) (ha : r.args = []) {inp : Str} {n : Nat} {t : Tracker} (h : tryParse so e n (.rule (R.num p r.name [])) inp = .ok (.error t)) :
    ∃ es, FullTries (unicodeOf env.unicodeNames table) (united ms) rank p r inp false es ∧ t = (initSt so inp).trk.after inp es ∧
      ∀ b es', FullTries (unicodeOf env.unicodeNames table) (united ms) rank p r inp b es' → es' = es := by
  obtain ⟨fuel, hd⟩ := D.derive
  obtain ⟨ms1, cfg, hm1, hg1, -⟩ := C71_result_partial _ _ _ _ hd
  cases modules_unique D.modules hm1
  have hgen := (generateTyped_none D.silent).mp ⟨_, hg1⟩
  have full := fun b es => fullTries_iff hgen D.named D.linked D.numbered D.ranks.eoi hp (findRule_eq (D.named m (modAt_in p hp)).rules hr) ho hman ha inp b es
  obtain ⟨es, k1, k2⟩ := error_trace hls h
  exact ⟨es, (full _ _).mp k1, k2, fun b es' h' => (fullTraces_det ((full _ _).mpr h') k1).2⟩

/-- If the grammar speaks up, every error names at least one rule as expected. -/
theorem C88_expected (hs : SpeaksUp (unicodeOf env.unicodeNames table) (united ms)) {p : List Name} {m : Module} {r : Rule} (hp : modAt (united ms) p = some m) (hr : r ∈ m.rules)
    (ho : r.name ≠ optName) (hman : r.name ≠ manName) (ha : r.args = []) {inp : Str} {n : Nat} {t : Tracker} (h : tryParse so e n (.rule (R.num p r.name [])) inp = .ok (.error t)) :
    ∃ k v l, (k, v) ∈ t.attempts ∧ l ∈ v.positives := by
  obtain ⟨es, k1, k2, -⟩ := error_full hls D hp hr ho hman ha h
  obtain ⟨k3, k4⟩ := k1.spoken hs hp hr ha
  rw [k2]
  exact error_names rfl rfl rfl k3 k4

end

/-! ## Parsers for examples -/

/-- Every text is read as these rules. -/
def sampleSetting (rules : List Rule) : Setting := ⟨none, ⟨true, []⟩, fun _ => false, fun _ => false, [], ⟨fun _ => none, fun _ => some (rules.map .rule)⟩⟩

/-- A grammar of rules that are not silent, given inline, has a parser. -/
theorem sample_ready {rules : List Rule} (hsil : ∀ r ∈ rules, r.silent = false) (hn : AllNamed (unicodeOf [] fun _ _ => false) (.mk rules []))
    (hg : ∃ x, generateModule ⟨true, false, none⟩ [] (.mk rules []) = .ok x) (ha : TriviaAcyclic (.mk rules [])) {rank : RuleVal → Label} (hr : Ranks rank) :
    ∃ d R e lab, Derives (sampleSetting rules) [⟨some "grammar_inline".toList, .str []⟩] [.mk rules []] (fun _ _ => false) d R e rank lab := by
  have hun : united [.mk rules []] = .mk rules [] := by simp [united, Module.rules, Module.imports]
  have all : ∀ {m'}, ModIn m' (.mk rules []) → m' = .mk rules [] := by
    intro m' h
    cases h with
    | refl => rfl
    | step h1 _ => simp [Module.imports] at h1
  have hsrc : [⟨some "grammar_inline".toList, .str []⟩].filterMap sourceOf = [.inline []] := by decide
  have hm : Modules (sampleSetting rules) ([⟨some "grammar_inline".toList, .str []⟩].filterMap sourceOf) [.mk rules []] := by
    rw [hsrc]
    refine .cons .inline (.file (l := rules.map .rule) rfl ?_) .nil
    have : ∀ (root : FPath) (l : List Rule), Loads (sampleSetting rules).world (.items root (l.map .rule) l []) := by
      intro root l
      induction l with
      | nil => exact .nil
      | cons r l ih => exact .rule ih
    exact this _ _
  have hs : ∀ x, ¬ SilentName (united [.mk rules []]) x := by
    rw [hun]
    rintro x ⟨m', h1, f, h2, h3, -⟩
    cases all h1
    simp [Rule.inlined, hsil f h2] at h3
  have hn' : AllNamed (unicodeOf [] fun _ _ => false) (united [.mk rules []]) := by rw [hun]; exact hn
  obtain ⟨fuel, d, hd⟩ : ∃ fuel d, derive (sampleSetting rules) fuel [⟨some "grammar_inline".toList, .str []⟩] = .ok d := by
    refine (C75_accepted hm hs hn').mpr ⟨?_, by rw [hsrc]; simp, ?_⟩
    · intro a ha
      cases List.mem_singleton.mp ha
      exact ⟨fun x _ _ => ⟨_, rfl⟩, fun x hx h => by cases h; exact absurd hx (by decide), fun h => absurd h (by show ¬ some "grammar_inline".toList = some "rules_mod".toList; decide)⟩
    · refine (C61_accepts (cfg := ⟨true, false, none⟩) hn').mp ?_
      rw [hun]
      exact hg
  obtain ⟨R, e, lab, D⟩ := C84_exists (table := fun _ _ => false) hd hm hs hn' (by
    rw [hun]
    intro m' h
    cases all h
    exact ha) hr
  exact ⟨d, R, e, lab, D⟩

/-! ## Errors that say nothing -/

/-- `x = "a"`, `y = x - "c"`. -/
def curtRules : List Rule := [⟨['x'], [], .str ['a'], false⟩, ⟨['y'], [], .seq (.path [['x']]) (.str ['c']) .none, false⟩]

theorem curt_ready {rank : RuleVal → Label} (hr : Ranks rank) : ∃ d R e lab,
    Derives (sampleSetting curtRules) [⟨some "grammar_inline".toList, .str []⟩] [.mk curtRules []] (fun _ _ => false) d R e rank lab := by
  refine sample_ready (by simp [curtRules]) ?_ ⟨_, rfl⟩ ?_ hr
  · intro m' h
    cases h with
    | step h1 _ => simp [Module.imports] at h1
    | refl =>
      refine ⟨by decide, by decide, by simp [Module.imports], by simp [Module.imports], ?_, ?_⟩ <;> simp [Module.rules, curtRules, ParamsPlain]
  · refine ⟨?_, ?_, .inl ?_⟩ <;>
      simp only [curtRules, Module.rules, List.mem_cons, List.not_mem_nil, or_false, forall_eq_or_imp, forall_eq] <;>
      exact ⟨fun h => absurd h (by decide), fun h => absurd h (by decide)⟩

private theorem curt_message (sh : Label → Text) {t : Tracker} (h : t.position = ⟨⟨0, ['a', 'b']⟩, 0⟩) (ha : t.attempts = []) : t.collect sh = some ⟨t.position, "^---".toList⟩ := by
  simp only [Tracker.collect, Tracker.collectToMessage, Tracker.finish, h, ha, List.map_nil, List.flatten_nil]
  decide +kernel

/-- `y = x - "c"` with `x = "a"` does not match `"ab"`, but the error says neither what was expected nor what was unexpected, and its place is the beginning of the text. -/
theorem C88_silent_witness {rank : RuleVal → Label} (hr : Ranks rank) : ∃ d R e lab,
    Derives (sampleSetting curtRules) [⟨some "grammar_inline".toList, .str []⟩] [.mk curtRules []] (fun _ _ => false) d R e rank lab ∧
    ∃ n t, tryParse idealOps e n (.rule (R.num [] ['y'] [])) ⟨0, ['a', 'b']⟩ = .ok (.error t) ∧ t.attempts = [] ∧ t.position.pos = 0 ∧
      ∀ sh, t.collect sh = some ⟨t.position, "^---".toList⟩ := by
  obtain ⟨d, R, e, lab, D⟩ := curt_ready hr
  have hp : modAt (united [.mk curtRules []]) [] = some (united [.mk curtRules []]) := rfl
  have hmem : (⟨['y'], [], .seq (.path [['x']]) (.str ['c']) .none, false⟩ : Rule) ∈ (united [.mk curtRules []]).rules := by simp [united, Module.rules, curtRules]
  have tries : Tries (unicodeOf [] fun _ _ => false) (united [.mk curtRules []]) rank true (.expr (.mk [] [] (.seq (.path [['x']]) (.str ['c']) .none))) (startCfg ⟨0, ['a', 'b']⟩) none _ :=
    .seq (.rule (p' := []) (r := ⟨['x'], [], .str ['a'], false⟩) (by simp [NotParam, lookupClo]) rfl rfl (.literal rfl (rw_lit ['a'] [] ['b'] []))) .triviaNone (.literal rfl (rw_not_lit (by decide)))
  obtain ⟨fuel, hd⟩ := D.derive
  obtain ⟨n, t, h⟩ := ((C75_parser ideal_lawful hd D.modules D.silent D.named).2 R e lab D.linked D.labelled [] _ _ hp hmem (by decide) (by decide) rfl ⟨0, ['a', 'b']⟩).2.2.1.mpr
    (.inl tries.meaning)
  obtain ⟨es, -, h1, h2⟩ := error_full ideal_lawful D hp hmem (by decide) (by decide) rfl h
  have h3 := h2 _ _ (.fail tries)
  refine ⟨d, R, e, lab, D, n, t, h, ?_⟩
  subst h3
  rw [h1]
  refine ⟨rfl, rfl, fun sh => ?_⟩
  exact curt_message sh (t := (initSt idealOps ⟨0, ['a', 'b']⟩).trk.after _ _) rfl rfl

/-! ## Example -/

/-- `num = '0'..'9'`, `open = "("`, `close = ")"`, `list = open ~ ((num | list) ~)* ~ close`, `~ = " "*`. -/
def listRules : List Rule := [
  ⟨['n'], [], .range '0' '9', false⟩,
  ⟨['o'], [], .str ['('], false⟩,
  ⟨['c'], [], .str [')'], false⟩,
  ⟨['l'], [], .seq (.seq (.path [['o']]) (.rep (.separated (.choice (.path [['n']]) (.path [['l']])) .optional)) .optional) (.path [['c']]) .optional, false⟩,
  ⟨['~'], [], .rep (.str [' ']), false⟩]

private theorem list_speaks : SpeaksUp (unicodeOf [] fun _ _ => false) (.mk listRules []) := by
  have triv : ∀ m r, modAt (.mk listRules []) [] = some m → triviaRule m .optional = some r → r.node = .rep (.str [' ']) := by
    intro m r h1 h2
    cases h1
    cases h2
    rfl
  have space : ∀ b, Answering (unicodeOf [] fun _ _ => false) (.mk listRules []) [] [] b (.rep (.str [' '])) := fun b =>
    .repMute rfl (.rep rfl (.literal rfl) (fun m r _ h => by cases h))
  have ref : ∀ x r, target (unicodeOf [] fun _ _ => false) (.mk listRules []) [] [x] = some (.rule [] r) →
      Answering (unicodeOf [] fun _ _ => false) (.mk listRules []) [] [] false (.path [x]) := fun x r h => .rule (by simp) h
  rintro (_ | ⟨x, p⟩) m hp r hr
  · cases hp
    have : r ∈ listRules := hr
    simp only [listRules, List.mem_cons, List.not_mem_nil, or_false] at this
    rcases this with rfl | rfl | rfl | rfl | rfl
    · exact .inl (.literal rfl)
    · exact .inl (.literal rfl)
    · exact .inl (.literal rfl)
    · refine .inr (.seq (.seq (ref _ _ rfl) (.rep rfl (.inl rfl) (.separated (.choice (ref _ _ rfl) (ref _ _ rfl))) ?_) ?_) (ref _ _ rfl) ?_) <;>
        exact fun m r h1 h2 => triv m r h1 h2 ▸ space _
    · exact .inr (space _)
  · simp [modAt, Module.child, Module.imports] at hp

private theorem list_acyclic : TriviaAcyclic (.mk listRules []) := by
  have no : ∀ t, ¬ UsesTrivia t (.rep (.str [' '])) := by
    rintro t (⟨l, r, h⟩ | ⟨e, h⟩) <;> cases h with | rep h => cases h
  refine ⟨?_, ?_, .inl ?_⟩ <;>
    simp only [listRules, Module.rules, List.mem_cons, List.not_mem_nil, or_false, forall_eq_or_imp, forall_eq, no,
      not_false_eq_true, implies_true, and_true] <;>
    exact ⟨fun h => absurd h (by decide), fun h => absurd h (by decide), fun h => absurd h (by decide), fun h => absurd h (by decide)⟩

/-- There is a parser for the lists; there are texts that it rejects; whenever it rejects a text, the error names a rule that was expected. -/
example {rank : RuleVal → Label} (hr : Ranks rank) : ∃ d R e lab,
    Derives (sampleSetting listRules) [⟨some "grammar_inline".toList, .str []⟩] [.mk listRules []] (fun _ _ => false) d R e rank lab ∧
    (∃ n t, tryParse idealOps e n (.rule (R.num [] ['l'] [])) ⟨0, ['x']⟩ = .ok (.error t)) ∧
    ∀ inp n t, tryParse idealOps e n (.rule (R.num [] ['l'] [])) inp = .ok (.error t) → ∃ k v l, (k, v) ∈ t.attempts ∧ l ∈ v.positives := by
  obtain ⟨d, R, e, lab, D⟩ := sample_ready (rules := listRules) (by simp [listRules]) (by
    intro m' h
    cases h with
    | step h1 _ => simp [Module.imports] at h1
    | refl =>
      refine ⟨by decide, by decide, by simp [Module.imports], by simp [Module.imports], ?_, ?_⟩ <;> simp [Module.rules, listRules, ParamsPlain]) ⟨_, rfl⟩ list_acyclic hr
  have hun : united [.mk listRules []] = .mk listRules [] := by simp [united, Module.rules, Module.imports]
  have hp : modAt (united [.mk listRules []]) [] = some (united [.mk listRules []]) := rfl
  have hmem : (⟨['l'], [], .seq (.seq (.path [['o']]) (.rep (.separated (.choice (.path [['n']]) (.path [['l']])) .optional)) .optional) (.path [['c']]) .optional, false⟩ : Rule) ∈
      (united [.mk listRules []]).rules := by simp [united, Module.rules, listRules]
  refine ⟨d, R, e, lab, D, ?_, fun inp n t h => C88_expected ideal_lawful D (by rw [hun]; exact list_speaks) hp hmem (by decide) (by decide) rfl h⟩
  obtain ⟨fuel, hd⟩ := D.derive
  refine ((C75_parser ideal_lawful hd D.modules D.silent D.named).2 R e lab D.linked D.labelled [] _ _ hp hmem (by decide) (by decide) rfl ⟨0, ['x']⟩).2.2.1.mpr (.inl ?_)
  exact .seqFail (.seqFail (.rule (p' := []) (r := ⟨['o'], [], .str ['('], false⟩) (by simp [NotParam, lookupClo]) rfl rfl (rw_not_lit (by decide))))

end Pest3.Props
