import Verif.CalcExample
import Verif.JsonWell

/-!
# The calculator grammar is in order
-/

namespace Pest3.Calc
open Pest3 Pest3.Gen Pest3.Json

/-- What the rules of the grammar refer to. -/
def calcPaths : List (List Name) :=
  [["pest".toList, "soi".toList], ["pest".toList, "eoi".toList], ["expr".toList], ["prefix".toList], ["primary".toList], ["postfix".toList], ["infix".toList], ["add".toList], ["sub".toList],
   ["mul".toList], ["div".toList], ["pow".toList], ["neg".toList], ["fac".toList], [alias, "int".toList], [alias, "whitespaces".toList]]

theorem mod_cases {m' : Module} (h : ModIn m' calcModule) : m' = calcModule ∨ m' = baseModule := by
  cases h with
  | refl => exact .inl rfl
  | step h1 h2 =>
    simp only [calcModule, Module.imports, List.mem_singleton, Import.file.injEq] at h1
    obtain ⟨-, rfl⟩ := h1
    cases h2 with
    | refl => exact .inr rfl
    | step h3 _ => simp [baseModule, Module.imports] at h3

section
variable {u : Unicode}

theorem calc_usable : ∀ q ∈ calcPaths, Usable u calcModule q .plain := by
  simp only [calcPaths, List.mem_cons, List.not_mem_nil, or_false, forall_eq_or_imp, forall_eq]
  exact ⟨usable_leaf (by decide) rfl rfl, usable_leaf (by decide) rfl rfl,
    usable_rule (by decide) rfl rfl, usable_rule (by decide) rfl rfl, usable_rule (by decide) rfl rfl, usable_rule (by decide) rfl rfl, usable_rule (by decide) rfl rfl, usable_rule (by decide) rfl rfl,
    usable_rule (by decide) rfl rfl, usable_rule (by decide) rfl rfl, usable_rule (by decide) rfl rfl, usable_rule (by decide) rfl rfl, usable_rule (by decide) rfl rfl, usable_rule (by decide) rfl rfl,
    usable_rule (by decide) rfl rfl, usable_rule (by decide) rfl rfl⟩

theorem calc_plain : ∀ r ∈ calcRules, plainExpr calcPaths [.none, .optional] r.node = true := by decide +kernel

theorem calc_args : ∀ r ∈ calcRules, r.args = [] := by decide +kernel

theorem calc_scoped : AllScoped u calcModule := by
  intro a h
  rcases mod_cases h with rfl | rfl
  · refine ⟨by simp [calcModule, Module.imports], ?_, ?_, fun r hr => plain_scoped (calc_plain r hr) calc_usable⟩
    · intro r hr _ _ i hi
      simp only [calcModule, Module.imports, List.mem_singleton] at hi
      subst hi
      have : ∀ r ∈ calcRules, r.name ≠ alias := by decide +kernel
      exact fun h => this r hr h.symm
    · exact fun r hr => ⟨fun _ => ⟨⟨['~'], [], cTrivia, false⟩, by simp [calcModule, Module.rules, calcRules], rfl⟩, fun h => absurd h (plain_trivia (calc_plain r hr) (by decide))⟩
  · refine ⟨by simp [baseModule, Module.imports], by simp [baseModule, Module.imports], ?_, fun r hr => plain_scoped (base_plain r hr) base_usable⟩
    exact fun r hr => ⟨fun h => absurd h (plain_trivia (base_plain r hr) (by decide)), fun h => absurd h (plain_trivia (base_plain r hr) (by decide))⟩

theorem calc_named : AllNamed u calcModule := by
  intro a h
  rcases mod_cases h with rfl | rfl
  · refine ⟨by decide +kernel, by decide +kernel, ?_, by simp [calcModule, Module.imports], fun r hr _ => calc_args r hr, fun r hr => ?_⟩
    · intro i hi
      simp only [calcModule, Module.imports, List.mem_singleton] at hi
      subst hi
      show alias ≠ _
      decide
    · intro x hx; rw [calc_args r hr] at hx; cases hx
  · refine ⟨by decide +kernel, by decide +kernel, by simp [baseModule, Module.imports], by simp [baseModule, Module.imports], fun r hr _ => args_nil.1 r hr, fun r hr => ?_⟩
    intro x hx; rw [args_nil.1 r hr] at hx; cases hx

end

theorem calc_silent (x : Name) : ¬ SilentName calcModule x := by
  rintro ⟨a, h, f, hf, h1, -⟩
  rcases mod_cases h with rfl | rfl
  · simp [Rule.inlined, calc_args f hf] at h1
  · simp [Rule.inlined, args_nil.1 f hf] at h1

theorem calc_acyclic {a : Module} (h : ModIn a calcModule) : TriviaAcyclic a := by
  rcases mod_cases h with rfl | rfl
  · have ho : ∀ r ∈ calcRules, r.name = optName → plainExpr calcPaths [.none] r.node = true := by decide +kernel
    exact ⟨fun r hr h => plain_trivia (ho r hr h) (by decide), fun r hr _ => plain_trivia (calc_plain r hr) (by decide), .inl fun r hr h => plain_trivia (ho r hr h) (by decide)⟩
  · exact ⟨fun r hr _ => plain_trivia (base_plain r hr) (by decide), fun r hr _ => plain_trivia (base_plain r hr) (by decide), .inl fun r hr _ => plain_trivia (base_plain r hr) (by decide)⟩

end Pest3.Calc
