import Verif.ScopeLemmas
import Verif.Props.Generation

/-!
# Property C61: the generator accepts exactly the well-scoped grammars
-/

namespace Pest3.Props
open Pest3 Pest3.Gen

section
variable {cfg : Config} {names : List Name} {table : Name → Char → Bool} {m : Module}

/-- The generator comes to an end: it produces code or panics. -/
theorem C61_terminates (cfg : Config) (names : List Name) (m : Module) : generateModule cfg names m ≠ .oof := by
  intro h
  simp only [generateModule] at h
  rcases andThen_oof.mp h with h | ⟨⟨⟨out, sys⟩, st⟩, _, h⟩
  · exact processModule_ne_oof _ _ _ h
  · simp at h

/-- It produces code exactly for the grammars in which every reference names something that exists and is used with as many
arguments as it has parameters, imports of built-ins exist, imports and rules have different names, and the trivia
operators in use are defined. -/
theorem C61_accepts (hn : AllNamed (unicodeOf names table) m) :
    (∃ r, generateModule cfg names m = .ok r) ↔ AllScoped (unicodeOf names table) m := by
  constructor
  · rintro ⟨⟨out, st⟩, h⟩
    obtain ⟨⟨⟨out', sys⟩, st'⟩, h1, _⟩ := andThen_ok.mp h
    exact genMod_scoped (processModule_gen _ _ _ _ _ h1) hn
  · intro hs
    obtain ⟨⟨⟨out, sys⟩, st⟩, h⟩ := processModule_succeeds (cfg := cfg) m hn hs GenSt.new
    exact ⟨(out, st), by simp [generateModule, h, andThen]⟩

/-- All other grammars make it panic. -/
theorem C61_rejects (hn : AllNamed (unicodeOf names table) m) :
    generateModule cfg names m = .panic ↔ ¬ AllScoped (unicodeOf names table) m := by
  rw [← C61_accepts (cfg := cfg) hn]
  constructor
  · rintro h ⟨r, hr⟩
    rw [h] at hr; simp at hr
  · intro h
    cases hg : generateModule cfg names m with
    | ok r => exact absurd ⟨r, hg⟩ h
    | panic => rfl
    | oof => exact absurd hg (C61_terminates _ _ _)

end

/-! ## Examples -/

/-- `x = pest::any()` -/
def callAny : Module := .mk [⟨['x'], [], .call ["pest".toList, "any".toList] [], false⟩] []

theorem callAny_named (u : Unicode) : AllNamed u callAny := by
  intro m' h
  cases h with
  | refl =>
    refine ⟨by decide, by decide, by simp [callAny, Module.imports], by simp [callAny, Module.imports], ?_, ?_⟩
    · simp [callAny, Module.rules]
    · simp [callAny, Module.rules, ParamsPlain]
  | step h1 _ => simp [callAny, Module.imports] at h1

-- C61_rejects: a built-in is not called
example : generateModule ⟨true, false, none⟩ [] callAny = .panic := by
  refine (C61_rejects (table := fun _ _ => false) (callAny_named _)).mpr fun h => ?_
  have := ((h _ .refl).refs _ List.mem_cons_self).call _ _ .refl
  obtain ⟨_, h⟩ := this
  have ht : target (unicodeOf [] fun _ _ => false) callAny [] ["pest".toList, "any".toList] =
      some (.builtin ["pest".toList, "any".toList]) := rfl
  rcases h with ⟨h, _⟩ | ⟨_, h, _⟩ | ⟨_, _, h, _⟩ <;> rw [ht] at h <;> simp [pushPath] at h

theorem genOuter_scoped (names : List Name) (table : Name → Char → Bool) : AllScoped (unicodeOf names table) genOuter := by
  intro a ha
  have nb : ∀ q : List Name, q.head? ≠ some "pest".toList → ¬ IsBuiltin (unicodeOf names table) q := by
    intro q hq hb
    rcases hb with hb | rfl
    · unfold builtinLeaf at hb
      split at hb
      · split at hb
        · rename_i h; subst h; simp at hq
        · simp at hb
      · split at hb
        · rename_i h; obtain ⟨rfl, _⟩ := h; simp at hq
        · split at hb
          · rename_i h; obtain ⟨rfl, _⟩ := h; simp at hq
          · simp at hb
      · simp at hb
    · simp [pushPath] at hq
  have nn : ∀ q : List Name, q.head? ≠ some "pest".toList → q ∉ namespaces := by
    intro q hq h
    simp only [namespaces, List.mem_cons, List.not_mem_nil, or_false] at h
    rcases h with rfl | rfl | rfl <;> simp at hq
  rcases genOuter_in ha with rfl | rfl
  · refine ⟨by simp [genOuter, Module.imports], ?_, ?_, ?_⟩
    · simp only [genOuter, Module.rules, Module.imports, forall_eq, List.mem_cons, List.not_mem_nil, or_false,
        forall_eq_or_imp]
      decide
    · have hd : Defined genOuter.rules optName := ⟨_, List.mem_cons_self, rfl⟩
      intro r hr
      refine ⟨fun _ => hd, ?_⟩
      simp only [genOuter, Module.rules, List.mem_cons, List.not_mem_nil, or_false] at hr
      rintro (⟨l, r, h⟩ | ⟨e, h⟩)
      · rcases hr with rfl | rfl | rfl
        · cases h with | rep h => cases h
        · cases h with
          | seqL h => cases h
          | seqR h => cases h with | arg hm h => cases List.mem_singleton.mp hm; cases h
        · cases h with
          | seqL h => cases h with | repOnce h => cases h
          | seqR h => cases h
      · rcases hr with rfl | rfl | rfl
        · cases h with | rep h => cases h
        · cases h with
          | seqL h => cases h
          | seqR h => cases h with | arg hm h => cases List.mem_singleton.mp hm; cases h
        · cases h with
          | seqL h => cases h with | repOnce h => cases h
          | seqR h => cases h
    · intro r hr
      rw [scoped_iff]
      intro e' hs
      simp only [genOuter, Module.rules, List.mem_cons, List.not_mem_nil, or_false] at hr
      rcases hr with rfl | rfl | rfl
      · cases hs with
        | refl => trivial
        | rep h => cases h; trivial
      · cases hs with
        | refl => trivial
        | seqL h => cases h; trivial
        | seqR h =>
          cases h with
          | refl =>
            refine ⟨nn _ (by simp), .inr (.inr ⟨[], ⟨['y'], [['p']], .seq (.repOnce (.path [['p']])) (.path [['m'], ['z']]) .none, false⟩,
              ?_, rfl⟩)⟩
            rw [target, if_neg (nb _ (by simp))]
            rfl
          | arg hm h => cases List.mem_singleton.mp hm; cases h; trivial
      · cases hs with
        | refl => trivial
        | seqL h =>
          cases h with
          | refl => trivial
          | repOnce h => cases h; exact .inl ⟨['p'], by simp, rfl⟩
        | seqR h =>
          cases h with
          | refl =>
            refine .inr ⟨nn _ (by simp), .inr ⟨[['m']], ⟨['z'], [], .str ['c'], false⟩, ?_, rfl⟩⟩
            rw [target, if_neg (nb _ (by simp))]
            rfl
  · refine ⟨by simp [genInner, Module.imports], by simp [genInner, Module.imports], ?_, ?_⟩
    · intro r hr
      simp only [genInner, Module.rules, List.mem_singleton] at hr
      subst hr
      refine ⟨?_, ?_⟩ <;> rintro (⟨l, r, h⟩ | ⟨e, h⟩) <;> cases h
    · intro r hr
      simp only [genInner, Module.rules, List.mem_singleton] at hr
      subst hr
      rw [scoped_iff]
      intro e' hs
      cases hs; trivial

-- C61_accepts: calls, parameters, paths into an imported module, trivia; for all properties of the Unicode table
example (cfg : Config) (names : List Name) : ∃ r, generateModule cfg names genOuter = .ok r :=
  (C61_accepts (table := fun _ _ => false) (genOuter_named _)).mpr (genOuter_scoped names _)

end Pest3.Props
