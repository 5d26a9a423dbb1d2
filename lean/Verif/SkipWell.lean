import Verif.SkipExample
import Verif.JsonWell

/-!
# The grammars with comments are in order
-/

namespace Pest3.Skip
open Pest3 Pest3.Gen
open Pest3.Json (plainExpr plain_sub plain_trivia plain_scoped usable_rule usable_leaf)

/-- A grammar without imports is its only module. -/
theorem mod_self {rules : List Rule} {m' : Module} (h : ModIn m' (.mk rules [])) : m' = .mk rules [] := by
  cases h with
  | refl => rfl
  | step h1 _ => simp [Module.imports] at h1

/-- A grammar of rules without parameters and imports that defines `~`. -/
structure Plain (u : Unicode) (rules : List Rule) (paths : List (List Name)) : Prop where
  usable : ∀ q ∈ paths, Usable u (.mk rules []) q .plain
  exprs : ∀ r ∈ rules, plainExpr paths [.none, .optional] r.node = true
  args : ∀ r ∈ rules, r.args = []
  loud : ∀ r ∈ rules, r.silent = false
  trivia : ∃ r ∈ rules, r.name = ['~']
  inner : ∀ r ∈ rules, r.name = optName → plainExpr paths [.none] r.node = true

theorem Plain.scoped {u : Unicode} {rules : List Rule} {paths : List (List Name)} (h : Plain u rules paths) : AllScoped u (.mk rules []) := by
  intro a ha
  cases mod_self ha
  refine ⟨by simp [Module.imports], by simp [Module.imports], fun r hr => ⟨fun _ => h.trivia, fun k => absurd k (plain_trivia (h.exprs r hr) (by decide))⟩, fun r hr => plain_scoped (h.exprs r hr) h.usable⟩

theorem Plain.silent {u : Unicode} {rules : List Rule} {paths : List (List Name)} (h : Plain u rules paths) (x : Name) : ¬ SilentName (.mk rules []) x := by
  rintro ⟨a, ha, f, hf, h1, -⟩
  cases mod_self ha
  simp [Rule.inlined, h.loud f hf] at h1

theorem Plain.acyclic {u : Unicode} {rules : List Rule} {paths : List (List Name)} (h : Plain u rules paths) {a : Module} (ha : ModIn a (.mk rules [])) : TriviaAcyclic a := by
  cases mod_self ha
  exact ⟨fun r hr k => plain_trivia (h.inner r hr k) (by decide), fun r hr _ => plain_trivia (h.exprs r hr) (by decide), .inl fun r hr k => plain_trivia (h.inner r hr k) (by decide)⟩

/-- What the rules refer to. -/
def skipPaths : List (List Name) := [anyPath, soiPath, eoiPath, [mainName]]
def readerPaths : List (List Name) := [anyPath, [['x']]]

variable {u : Unicode}

theorem skip_plain : Plain u skipRules skipPaths where
  usable := by
    simp only [skipPaths, List.mem_cons, List.not_mem_nil, or_false, forall_eq_or_imp, forall_eq]
    exact ⟨usable_leaf (by decide) rfl rfl, usable_leaf (by decide) rfl rfl, usable_leaf (by decide) rfl rfl, usable_rule (by decide) rfl rfl⟩
  exprs := by decide +kernel
  args := by decide +kernel
  loud := by decide +kernel
  trivia := by decide +kernel
  inner := by decide +kernel

theorem reader_plain : Plain u readerRules readerPaths where
  usable := by
    simp only [readerPaths, List.mem_cons, List.not_mem_nil, or_false, forall_eq_or_imp, forall_eq]
    exact ⟨usable_leaf (by decide) rfl rfl, usable_rule (by decide) rfl rfl⟩
  exprs := by decide +kernel
  args := by decide +kernel
  loud := by decide +kernel
  trivia := by decide +kernel
  inner := by decide +kernel

theorem skip_named : AllNamed u skipModule := by
  intro a h
  cases mod_self h
  exact ⟨by decide +kernel, by decide +kernel, by simp [Module.imports], by simp [Module.imports], fun r hr _ => (skip_plain (u := u)).args r hr, fun r hr x hx => by
    rw [(skip_plain (u := u)).args r hr] at hx; cases hx⟩

theorem reader_named : AllNamed u readerModule := by
  intro a h
  cases mod_self h
  exact ⟨by decide +kernel, by decide +kernel, by simp [Module.imports], by simp [Module.imports], fun r hr _ => (reader_plain (u := u)).args r hr, fun r hr x hx => by
    rw [(reader_plain (u := u)).args r hr] at hx; cases hx⟩

end Pest3.Skip
