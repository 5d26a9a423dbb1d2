import Verif.JsonExample
import Verif.ScopeSpec
import Verif.LinkGen
import Verif.InlineSpec

/-!
# The JSON grammar is in order
-/

namespace Pest3.Json
open Pest3 Pest3.Gen

/-- Neither calls nor slices; all paths are in the list, all trivia too. -/
def plainExpr (paths : List (List Name)) (ts : List Trivia) : Expr → Bool
  | .str _ => true
  | .insens _ => true
  | .range _ _ => true
  | .path q => decide (q ∈ paths)
  | .call _ _ => false
  | .slice _ _ => false
  | .pos e => plainExpr paths ts e
  | .neg e => plainExpr paths ts e
  | .seq l r t => plainExpr paths ts l && plainExpr paths ts r && decide (t ∈ ts)
  | .choice l r => plainExpr paths ts l && plainExpr paths ts r
  | .opt e => plainExpr paths ts e
  | .rep e => plainExpr paths ts e
  | .repOnce e => plainExpr paths ts e
  | .repRange e _ => plainExpr paths ts e
  | .separated e t => plainExpr paths ts e && decide (t ∈ ts)

theorem plain_sub {paths : List (List Name)} {ts : List Trivia} {e e' : Expr} (h : Sub e' e) : plainExpr paths ts e = true → plainExpr paths ts e' = true := by
  induction h with
  | refl => exact id
  | arg _ _ _ => exact fun h => by cases h
  | seqL _ ih => exact fun h => by simp only [plainExpr, Bool.and_eq_true] at h; exact ih h.1.1
  | seqR _ ih => exact fun h => by simp only [plainExpr, Bool.and_eq_true] at h; exact ih h.1.2
  | choiceL _ ih => exact fun h => by simp only [plainExpr, Bool.and_eq_true] at h; exact ih h.1
  | choiceR _ ih => exact fun h => by simp only [plainExpr, Bool.and_eq_true] at h; exact ih h.2
  | separated _ ih => exact fun h => by simp only [plainExpr, Bool.and_eq_true] at h; exact ih h.1
  | pos _ ih => exact ih
  | neg _ ih => exact ih
  | opt _ ih => exact ih
  | rep _ ih => exact ih
  | repOnce _ ih => exact ih
  | repRange _ ih => exact ih

theorem plain_trivia {paths : List (List Name)} {ts : List Trivia} {e : Expr} (h : plainExpr paths ts e = true) {t : Trivia} (ht : t ∉ ts) : ¬ UsesTrivia t e := by
  rintro (⟨l, r, hs⟩ | ⟨e', hs⟩)
  · have := plain_sub hs h
    simp only [plainExpr, Bool.and_eq_true, decide_eq_true_eq] at this
    exact ht this.2
  · have := plain_sub hs h
    simp only [plainExpr, Bool.and_eq_true, decide_eq_true_eq] at this
    exact ht this.2

theorem plain_scoped {u : Unicode} {a : Module} {r : Rule} {paths : List (List Name)} {ts : List Trivia} (h : plainExpr paths ts r.node = true) (hp : ∀ q ∈ paths, Usable u a q .plain) : Scoped u a r := by
  refine ⟨fun q hs => .inr (hp q ?_), fun q args hs => ?_, fun q range hs => ?_⟩
  · have := plain_sub hs h
    simpa only [plainExpr, decide_eq_true_eq] using this
  · have := plain_sub hs h; cases this
  · have := plain_sub hs h; cases this

/-- What the rules of the imported file refer to. -/
def basePaths : List (List Name) := [["ascii_digit".toList], ["ascii_nonzero_digit".toList], ["pest".toList, "newline".toList]]

/-- What the rules of the grammar refer to. -/
def jsonPaths : List (List Name) :=
  [["pest".toList, "soi".toList], ["pest".toList, "eoi".toList], ["pest".toList, "any".toList], ["value".toList], ["pair".toList], ["string".toList], ["number".toList], ["object".toList],
   ["array".toList], ["bool".toList], ["null".toList], ["inner".toList], ["escape".toList], ["unicode".toList], ["int".toList], ["exp".toList], ["space".toList],
   [['p'], "ascii_hex_digit".toList], [['p'], "ascii_digit".toList], [['p'], "ascii_nonzero_digit".toList]]

theorem mod_cases {m' : Module} (h : ModIn m' jsonModule) : m' = jsonModule ∨ m' = baseModule := by
  cases h with
  | refl => exact .inl rfl
  | step h1 h2 =>
    simp only [jsonModule, Module.imports, List.mem_singleton, Import.file.injEq] at h1
    obtain ⟨-, rfl⟩ := h1
    cases h2 with
    | refl => exact .inr rfl
    | step h3 _ => simp [baseModule, Module.imports] at h3

section
variable {u : Unicode}

theorem usable_rule {a : Module} {q : List Name} (hq : q ∉ namespaces) {p : List Name} {r : Rule} (h : target u a [] q = some (.rule p r)) (hr : r.args = []) : Usable u a q .plain :=
  ⟨hq, .inr ⟨p, r, h, hr⟩⟩

theorem usable_leaf {a : Module} {q : List Name} (hq : q ∉ namespaces) {l : Leaf} (h : target u a [] q = some (.builtin q)) (hl : builtinLeaf u q = some l) : Usable u a q .plain :=
  ⟨hq, .inl ⟨q, l, h, hl⟩⟩

theorem base_usable : ∀ q ∈ basePaths, Usable u baseModule q .plain := by
  simp only [basePaths, List.mem_cons, List.not_mem_nil, or_false, forall_eq_or_imp, forall_eq]
  exact ⟨usable_rule (by decide) rfl rfl, usable_rule (by decide) rfl rfl, usable_leaf (by decide) rfl rfl⟩

theorem json_usable : ∀ q ∈ jsonPaths, Usable u jsonModule q .plain := by
  simp only [jsonPaths, List.mem_cons, List.not_mem_nil, or_false, forall_eq_or_imp, forall_eq]
  exact ⟨usable_leaf (by decide) rfl rfl, usable_leaf (by decide) rfl rfl, usable_leaf (by decide) rfl rfl,
    usable_rule (by decide) rfl rfl, usable_rule (by decide) rfl rfl, usable_rule (by decide) rfl rfl, usable_rule (by decide) rfl rfl, usable_rule (by decide) rfl rfl, usable_rule (by decide) rfl rfl,
    usable_rule (by decide) rfl rfl, usable_rule (by decide) rfl rfl, usable_rule (by decide) rfl rfl, usable_rule (by decide) rfl rfl, usable_rule (by decide) rfl rfl, usable_rule (by decide) rfl rfl,
    usable_rule (by decide) rfl rfl, usable_rule (by decide) rfl rfl, usable_rule (by decide) rfl rfl, usable_rule (by decide) rfl rfl, usable_rule (by decide) rfl rfl⟩

theorem base_plain : ∀ r ∈ baseRules, plainExpr basePaths [.none] r.node = true := by decide +kernel
theorem json_plain : ∀ r ∈ jsonRules, plainExpr jsonPaths [.none, .optional, .mandatory] r.node = true := by decide +kernel

theorem args_nil : (∀ r ∈ baseRules, r.args = []) ∧ ∀ r ∈ jsonRules, r.args = [] := by decide +kernel

theorem json_scoped : AllScoped u jsonModule := by
  intro a h
  rcases mod_cases h with rfl | rfl
  · refine ⟨by simp [jsonModule, Module.imports], ?_, ?_, fun r hr => plain_scoped (json_plain r hr) json_usable⟩
    · intro r hr _ _ i hi
      simp only [jsonModule, Module.imports, List.mem_singleton] at hi
      subst hi
      have : ∀ r ∈ jsonRules, r.name ≠ ['p'] := by decide +kernel
      exact fun h => this r hr h.symm
    · exact fun r _ => ⟨fun _ => ⟨⟨['~'], [], optRule, false⟩, by simp [jsonModule, Module.rules, jsonRules], rfl⟩, fun _ => ⟨⟨['^'], [], manRule, false⟩, by simp [jsonModule, Module.rules, jsonRules], rfl⟩⟩
  · refine ⟨by simp [baseModule, Module.imports], by simp [baseModule, Module.imports], ?_, fun r hr => plain_scoped (base_plain r hr) base_usable⟩
    exact fun r hr => ⟨fun h => absurd h (plain_trivia (base_plain r hr) (by decide)), fun h => absurd h (plain_trivia (base_plain r hr) (by decide))⟩

theorem json_named : AllNamed u jsonModule := by
  intro a h
  rcases mod_cases h with rfl | rfl
  · refine ⟨by decide +kernel, by decide +kernel, ?_, by simp [jsonModule, Module.imports], fun r hr _ => args_nil.2 r hr, fun r hr => ?_⟩
    · intro i hi
      simp only [jsonModule, Module.imports, List.mem_singleton] at hi
      subst hi
      show ['p'] ≠ _
      decide
    · intro x hx; rw [args_nil.2 r hr] at hx; cases hx
  · refine ⟨by decide +kernel, by decide +kernel, by simp [baseModule, Module.imports], by simp [baseModule, Module.imports], fun r hr _ => args_nil.1 r hr, fun r hr => ?_⟩
    intro x hx; rw [args_nil.1 r hr] at hx; cases hx

end

theorem json_silent (x : Name) : ¬ SilentName jsonModule x := by
  rintro ⟨a, h, f, hf, h1, -⟩
  rcases mod_cases h with rfl | rfl
  · simp [Rule.inlined, args_nil.2 f hf] at h1
  · simp [Rule.inlined, args_nil.1 f hf] at h1

theorem json_acyclic {a : Module} (h : ModIn a jsonModule) : TriviaAcyclic a := by
  rcases mod_cases h with rfl | rfl
  · have ho : ∀ r ∈ jsonRules, r.name = optName → plainExpr jsonPaths [.none] r.node = true := by decide +kernel
    have hm : ∀ r ∈ jsonRules, r.name = manName → plainExpr jsonPaths [.none] r.node = true := by decide +kernel
    exact ⟨fun r hr h => plain_trivia (ho r hr h) (by decide), fun r hr h => plain_trivia (hm r hr h) (by decide), .inl fun r hr h => plain_trivia (ho r hr h) (by decide)⟩
  · exact ⟨fun r hr _ => plain_trivia (base_plain r hr) (by decide), fun r hr _ => plain_trivia (base_plain r hr) (by decide), .inl fun r hr _ => plain_trivia (base_plain r hr) (by decide)⟩

end Pest3.Json
