import Verif.CsvExample
import Verif.JsonWell

/-!
# The grammar of tables is in order
-/

namespace Pest3.Csv
open Pest3 Pest3.Gen
open Pest3.Json (plainExpr plain_sub plain_trivia usable_rule)

theorem mod_self {m' : Module} (h : ModIn m' csvModule) : m' = csvModule := by
  cases h with
  | refl => rfl
  | step h1 _ => simp [csvModule, Module.imports] at h1

theorem sub_call {q : List Name} {args : List Expr} {e : Expr} (h : Sub e (.call q args)) : e = .call q args ∨ ∃ a ∈ args, Sub e a := by
  cases h with
  | refl => exact .inl rfl
  | arg h1 h2 => exact .inr ⟨_, h1, h2⟩

/-- The parts of the rules with calls. -/
theorem sub_main {e : Expr} (h : Sub e tMain) : e = tMain ∨ e = tRow ∨ Sub e (.path [cellName]) ∨ Sub e tComma ∨ Sub e (.str ['\n']) := by
  rcases sub_call h with h | ⟨a, ha, h⟩
  · exact .inl h
  · simp only [List.mem_cons, List.not_mem_nil, or_false] at ha
    rcases ha with rfl | rfl
    · rcases sub_call h with h | ⟨a, ha, h⟩
      · exact .inr (.inl h)
      · simp only [List.mem_cons, List.not_mem_nil, or_false] at ha
        rcases ha with rfl | rfl
        · exact .inr (.inr (.inl h))
        · exact .inr (.inr (.inr (.inl h)))
    · exact .inr (.inr (.inr (.inr h)))

/-- What every part of the body of a rule is like. -/
theorem sub_rules {r : Rule} (hr : r ∈ csvRules) {e : Expr} (h : Sub e r.node) : plainExpr ([cellName] :: r.args.map fun x => [x]) [.none] e = true ∨ e = tMain ∨ e = tRow := by
  simp only [csvRules, List.mem_cons, List.not_mem_nil, or_false] at hr
  rcases hr with rfl | rfl | rfl
  · exact .inl (plain_sub h (by decide))
  · exact .inl (plain_sub h (by decide))
  · rcases sub_main h with h | h | h | h | h
    · exact .inr (.inl h)
    · exact .inr (.inr h)
    · exact .inl (plain_sub h (by decide))
    · exact .inl (plain_sub h (by decide))
    · exact .inl (plain_sub h (by decide))

section
variable {u : Unicode}

theorem usable_separated : Usable u csvModule [sepName] (.call 2) := ⟨by decide, .inr (.inr ⟨[], ⟨sepName, [['i'], ['s', 'e', 'p']], tSeparated, false⟩, rfl, rfl⟩)⟩

theorem csv_trivia {r : Rule} (hr : r ∈ csvRules) (t : Trivia) (ht : t ≠ .none) : ¬ UsesTrivia t r.node := by
  rintro (⟨a, b, hs⟩ | ⟨e', hs⟩)
  · rcases sub_rules hr hs with h | h | h
    · simp only [plainExpr, Bool.and_eq_true, decide_eq_true_eq, List.mem_singleton] at h
      exact ht h.2
    · cases h
    · cases h
  · rcases sub_rules hr hs with h | h | h
    · simp only [plainExpr, Bool.and_eq_true, decide_eq_true_eq, List.mem_singleton] at h
      exact ht h.2
    · cases h
    · cases h

theorem csv_scoped : AllScoped u csvModule := by
  intro a h
  cases mod_self h
  refine ⟨by simp [csvModule, Module.imports], by simp [csvModule, Module.imports], fun r hr => ⟨fun h => absurd h (csv_trivia hr _ (by simp)), fun h => absurd h (csv_trivia hr _ (by simp))⟩, fun r hr => ⟨?_, ?_, ?_⟩⟩
  · intro q hs
    rcases sub_rules hr hs with h | h | h
    · simp only [plainExpr, decide_eq_true_eq, List.mem_cons, List.mem_map] at h
      rcases h with rfl | ⟨x, hx, rfl⟩
      · exact .inr (usable_rule (by decide) rfl rfl)
      · exact .inl ⟨x, hx, rfl⟩
    · cases h
    · cases h
  · intro q args hs
    rcases sub_rules hr hs with h | h | h
    · cases h
    · cases h; exact usable_separated
    · cases h; exact usable_separated
  · intro q range hs
    rcases sub_rules hr hs with h | h | h <;> cases h

theorem csv_named : AllNamed u csvModule := by
  intro a h
  cases mod_self h
  refine ⟨by decide +kernel, by decide +kernel, by simp [csvModule, Module.imports], by simp [csvModule, Module.imports], ?_, fun r hr x hx => ⟨fun args hs => ?_, fun range hs => ?_⟩⟩
  · intro r hr h
    have : ∀ r ∈ csvRules, ¬ (r.name = optName ∨ r.name = manName) := by decide
    exact absurd h (this r hr)
  · rcases sub_rules hr hs with h | h | h
    · cases h
    · cases h; exact absurd hx (by have : ∀ r ∈ csvRules, sepName ∉ r.args := by decide
                                   exact this r hr)
    · cases h; exact absurd hx (by have : ∀ r ∈ csvRules, sepName ∉ r.args := by decide
                                   exact this r hr)
  · rcases sub_rules hr hs with h | h | h <;> cases h

end

theorem csv_silent (x : Name) : ¬ SilentName csvModule x := by
  rintro ⟨a, h, f, hf, h1, -⟩
  cases mod_self h
  have : ∀ f ∈ csvRules, f.silent = false := by decide
  simp [Rule.inlined, this f hf] at h1

theorem csv_acyclic {a : Module} (h : ModIn a csvModule) : TriviaAcyclic a := by
  cases mod_self h
  exact ⟨fun r hr _ => csv_trivia hr _ (by simp), fun r hr _ => csv_trivia hr _ (by simp), .inl fun r hr _ => csv_trivia hr _ (by simp)⟩

end Pest3.Csv
