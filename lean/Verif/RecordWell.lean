import Verif.RecordExample
import Verif.JsonWell
import Verif.ThroughScope

/-!
# The grammar of records is in order
-/

namespace Pest3.Records
open Pest3 Pest3.Gen
open Pest3.Json (plainExpr plain_sub plain_trivia usable_rule usable_leaf)

theorem mod_self {m' : Module} (h : ModIn m' recordModule) : m' = recordModule := by
  cases h with
  | refl => rfl
  | step h1 _ => simp [recordModule, Module.imports] at h1

/-- What the rules refer to. -/
def recordPaths : List (List Name) := [digitPath, soiPath, eoiPath, [fieldName], [recordName]]

theorem rules_cases {r : Rule} (h : r ∈ recordRules) : r = breakRule ∨ r = fieldRule ∨ r = sepRule ∨ r = commaRule ∨ r = recordRule ∨ r = fileRule := by
  simpa [recordRules] using h

theorem silent_cases {f : Rule} (h : f ∈ recordRules) (hi : f.inlined = true) : f = sepRule ∨ f = commaRule := by
  rcases rules_cases h with rfl | rfl | rfl | rfl | rfl | rfl
  · exact absurd hi (by decide)
  · exact absurd hi (by decide)
  · exact .inl rfl
  · exact .inr rfl
  · exact absurd hi (by decide)
  · exact absurd hi (by decide)

/-- What every part of the body of a rule is like. -/
theorem sub_rules {r : Rule} (hr : r ∈ recordRules) {e : Expr} (h : Sub e r.node) :
    plainExpr (recordPaths ++ r.args.map fun x => [x]) (if r.name = fileName then [.none, .mandatory] else [.none]) e = true ∨ (r = commaRule ∧ e = tComma) ∨ (r = recordRule ∧ e = tRecord) := by
  rcases rules_cases hr with rfl | rfl | rfl | rfl | rfl | rfl
  · exact .inl (plain_sub h (by decide))
  · exact .inl (plain_sub h (by decide))
  · exact .inl (plain_sub h (by decide))
  · cases (h : Sub e tComma) with
    | refl => exact .inr (.inl ⟨rfl, rfl⟩)
    | arg ha h =>
      simp only [List.mem_cons, List.not_mem_nil, or_false] at ha
      rcases ha with rfl | rfl
      · exact .inl (plain_sub h (by decide))
      · exact .inl (plain_sub h (by decide))
  · cases (h : Sub e tRecord) with
    | refl => exact .inr (.inr ⟨rfl, rfl⟩)
    | arg ha h =>
      simp only [List.mem_cons, List.not_mem_nil, or_false] at ha
      subst ha
      exact .inl (plain_sub h (by decide))
  · exact .inl (plain_sub h (by decide))

theorem calls {r : Rule} (hr : r ∈ recordRules) {q : List Name} {as : List Expr} (hs : Sub (.call q as) r.node) :
    (r = commaRule ∧ q = [sepName] ∧ as = [.path [['e']], .str [',']]) ∨ (r = recordRule ∧ q = [commaName] ∧ as = [.path [fieldName]]) := by
  rcases sub_rules hr hs with h | ⟨h, k⟩ | ⟨h, k⟩
  · cases h
  · cases k; exact .inl ⟨h, rfl, rfl⟩
  · cases k; exact .inr ⟨h, rfl, rfl⟩

/-- No trivia outside of the last rule. -/
theorem trivia_none {r : Rule} (hr : r ∈ recordRules) (t : Trivia) (ht : t ≠ .none) (hu : UsesTrivia t r.node) : r.name = fileName ∧ t = .mandatory := by
  rcases hu with ⟨a, b, hs⟩ | ⟨e', hs⟩ <;> rcases sub_rules hr hs with h | ⟨-, h⟩ | ⟨-, h⟩
  · simp only [plainExpr, Bool.and_eq_true, decide_eq_true_eq] at h
    have h := h.2
    split at h
    · rename_i k; simp only [List.mem_cons, List.not_mem_nil, or_false] at h; exact ⟨k, h.resolve_left ht⟩
    · exact absurd (List.mem_singleton.mp h) ht
  · cases h
  · cases h
  · simp only [plainExpr, Bool.and_eq_true, decide_eq_true_eq] at h
    have h := h.2
    split at h
    · rename_i k; simp only [List.mem_cons, List.not_mem_nil, or_false] at h; exact ⟨k, h.resolve_left ht⟩
    · exact absurd (List.mem_singleton.mp h) ht
  · cases h
  · cases h

section
variable {u : Unicode}

theorem paths_usable : ∀ q ∈ recordPaths, Usable u recordModule q .plain := by
  simp only [recordPaths, List.mem_cons, List.not_mem_nil, or_false, forall_eq_or_imp, forall_eq]
  exact ⟨usable_leaf (by decide) rfl rfl, usable_leaf (by decide) rfl rfl, usable_leaf (by decide) rfl rfl, usable_rule (by decide) rfl rfl, usable_rule (by decide) rfl rfl⟩

theorem record_scoped : AllScoped u recordModule := by
  intro a h
  cases mod_self h
  refine ⟨by simp [recordModule, Module.imports], by simp [recordModule, Module.imports], fun r hr => ⟨fun h => ?_, fun h => ⟨breakRule, by simp [recordModule, Module.rules, recordRules], rfl⟩⟩, fun r hr => ⟨?_, ?_, ?_⟩⟩
  · have := (trivia_none hr _ (by simp) h).2; cases this
  · intro q hs
    rcases sub_rules hr hs with h | ⟨-, h⟩ | ⟨-, h⟩
    · simp only [plainExpr, decide_eq_true_eq, List.mem_append, List.mem_map] at h
      rcases h with h | ⟨x, hx, rfl⟩
      · exact .inr (paths_usable q h)
      · exact .inl ⟨x, hx, rfl⟩
    · cases h
    · cases h
  · intro q args hs
    rcases calls hr hs with ⟨-, rfl, rfl⟩ | ⟨-, rfl, rfl⟩
    · exact ⟨by decide, .inr (.inr ⟨[], sepRule, rfl, rfl⟩)⟩
    · exact ⟨by decide, .inr (.inr ⟨[], commaRule, rfl, rfl⟩)⟩
  · intro q range hs
    rcases sub_rules hr hs with h | ⟨-, h⟩ | ⟨-, h⟩ <;> cases h

theorem record_named : AllNamed u recordModule := by
  intro a h
  cases mod_self h
  refine ⟨by decide +kernel, by decide +kernel, by simp [recordModule, Module.imports], by simp [recordModule, Module.imports], ?_, fun r hr x hx => ⟨fun args hs => ?_, fun range hs => ?_⟩⟩
  · intro r hr
    have : ∀ r ∈ recordRules, r.name = optName ∨ r.name = manName → r.args = [] := by decide
    exact this r hr
  · rcases calls hr hs with ⟨rfl, h, -⟩ | ⟨rfl, -, -⟩
    · cases h; exact absurd hx (by decide)
    · cases hx
  · rcases sub_rules hr hs with h | ⟨-, h⟩ | ⟨-, h⟩ <;> cases h

theorem record_hygienic : Hygienic u recordModule := by
  refine ⟨fun r hr q args x hs hq hx => ?_, fun f hf hi x _ => ?_, fun f hf hi x hx r hr ho => ?_, fun f hf hi r hr hk y hy => ?_, fun r hr => ⟨?_, fun q args hs a ha => ?_⟩⟩
  · rcases calls hr hs with ⟨-, rfl, -⟩ | ⟨-, rfl, -⟩
    · cases hq; exact ⟨rfl, sepRule, rfl, rfl⟩
    · cases hq; exact ⟨rfl, commaRule, rfl, rfl⟩
  · intro p pre a post hs ho b hb hb'
    rcases calls hf hs with ⟨-, -, h⟩ | ⟨rfl, -, -⟩
    · cases pre with
      | nil =>
        cases h
        cases List.mem_singleton.mp hb
        cases hb'
      | cons c pre =>
        simp only [List.cons_append, List.cons.injEq] at h
        cases pre with
        | nil => cases h.2; cases hb
        | cons d pre => simp at h
    · exact absurd hi (by decide)
  · rcases silent_cases hf hi with rfl | rfl
    · cases List.mem_singleton.mp (hx : x ∈ [['s']])
      rcases rules_cases hr with rfl | rfl | rfl | rfl | rfl | rfl
      · have := plain_sub (paths := recordPaths) (ts := [.none]) ho (by decide); exact absurd this (by decide)
      · have := plain_sub (paths := recordPaths) (ts := [.none]) ho (by decide); exact absurd this (by decide)
      · exact ⟨rfl, by decide⟩
      · rcases sub_rules hr ho with h | ⟨-, h⟩ | ⟨-, h⟩
        · exact absurd h (by decide)
        · cases h
        · cases h
      · rcases sub_rules hr ho with h | ⟨-, h⟩ | ⟨-, h⟩
        · exact absurd h (by decide)
        · cases h
        · cases h
      · have := plain_sub (paths := recordPaths) (ts := [.none, .mandatory]) ho (by decide); exact absurd this (by decide)
    · cases hx
  · have : ∀ r ∈ recordRules, r.inlined = false → r.args = [] := by decide
    rw [this r hr hk] at hy
    cases hy
  · have : ∀ r ∈ recordRules, sepTrivia r.node = .none := by decide
    exact this r hr
  · rcases calls hr hs with ⟨-, -, rfl⟩ | ⟨-, -, rfl⟩
    · simp only [List.mem_cons, List.not_mem_nil, or_false] at ha
      rcases ha with rfl | rfl <;> rfl
    · cases List.mem_singleton.mp ha; rfl

end

/-- `comma_separated` calls `separated`. -/
def height (x : Name) : Nat := if x = commaName then 1 else 0

theorem record_expandable : Expandable recordModule height := by
  refine ⟨fun f hf hi => ?_, fun r hr q as hs a ha f hf hi bs h => ?_, fun f hf hi g hg hgi as hs => ?_⟩
  · rcases silent_cases hf hi with rfl | rfl
    · exact ⟨['e'], by decide, .seqL .refl⟩
    · exact ⟨['e'], by decide, .arg (List.mem_cons_self) .refl⟩
  · rcases calls hr hs with ⟨-, -, rfl⟩ | ⟨-, -, rfl⟩
    · simp only [List.mem_cons, List.not_mem_nil, or_false] at ha
      rcases ha with rfl | rfl <;> cases h
    · cases List.mem_singleton.mp ha; cases h
  · rcases calls hf hs with ⟨rfl, h, -⟩ | ⟨rfl, -, -⟩
    · simp only [List.cons.injEq, and_true] at h
      rw [h]; decide
    · exact absurd hi (by decide)

theorem record_acyclic {a : Module} (h : ModIn a recordModule) : TriviaAcyclic a := by
  cases mod_self h
  have hn : ∀ r ∈ recordRules, r.name = optName ∨ r.name = manName → r.name ≠ fileName := by decide
  exact ⟨fun r hr h k => hn r hr (.inl h) (trivia_none hr _ (by simp) k).1, fun r hr h k => hn r hr (.inr h) (trivia_none hr _ (by simp) k).1,
    .inl fun r hr h k => hn r hr (.inl h) (trivia_none hr _ (by simp) k).1⟩

/-- The rule for line breaks has no calls. -/
theorem record_break {r : Rule} (hr : r ∈ recordRules) (h : r.name = optName ∨ r.name = manName) {q : List Name} {as : List Expr} : ¬ Sub (.call q as) r.node := by
  have hn : ∀ r ∈ recordRules, r.name = optName ∨ r.name = manName → r.name ≠ commaName ∧ r.name ≠ recordName := by decide
  intro hs
  rcases calls hr hs with ⟨k, -⟩ | ⟨k, -⟩
  · exact (hn r hr h).1 (k ▸ rfl)
  · exact (hn r hr h).2 (k ▸ rfl)

end Pest3.Records
