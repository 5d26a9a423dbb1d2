import Verif.StackExample
import Verif.SkipWell

/-!
# The rules with a stack of the tests are in order
-/

namespace Pest3.Stk
open Pest3 Pest3.Gen
open Pest3.Json (usable_rule usable_leaf)
open Pest3.Skip (mod_self)

/-- What is pushed: a literal, a range or a rule of the list. -/
def okArg (paths : List (List Name)) : Expr → Bool
  | .str _ => true
  | .range _ _ => true
  | .path q => decide (q ∈ paths)
  | _ => false

/-- The only calls are of `push`, the only slices of `peek`; all paths are in the list, all trivia too. -/
def okExpr (paths : List (List Name)) (ts : List Trivia) : Expr → Bool
  | .str _ => true
  | .insens _ => true
  | .range _ _ => true
  | .path q => decide (q ∈ paths)
  | .call q args => decide (q = pathPush) && decide (args.length = 1) && args.all (okArg paths)
  | .slice q _ => decide (q = pathPeek)
  | .pos e => okExpr paths ts e
  | .neg e => okExpr paths ts e
  | .seq l r t => okExpr paths ts l && okExpr paths ts r && decide (t ∈ ts)
  | .choice l r => okExpr paths ts l && okExpr paths ts r
  | .opt e => okExpr paths ts e
  | .rep e => okExpr paths ts e
  | .repOnce e => okExpr paths ts e
  | .repRange e _ => okExpr paths ts e
  | .separated e t => okExpr paths ts e && decide (t ∈ ts)

theorem okArg_ok {paths : List (List Name)} {ts : List Trivia} {e : Expr} (h : okArg paths e = true) : okExpr paths ts e = true := by
  unfold okArg at h
  split at h
  · rfl
  · rfl
  · exact h
  · cases h

theorem ok_sub {paths : List (List Name)} {ts : List Trivia} {e e' : Expr} (h : Sub e' e) : okExpr paths ts e = true → okExpr paths ts e' = true := by
  induction h with
  | refl => exact id
  | arg ha _ ih =>
    intro h
    simp only [okExpr, Bool.and_eq_true, List.all_eq_true] at h
    exact ih (okArg_ok (h.2 _ ha))
  | seqL _ ih => exact fun h => by simp only [okExpr, Bool.and_eq_true] at h; exact ih h.1.1
  | seqR _ ih => exact fun h => by simp only [okExpr, Bool.and_eq_true] at h; exact ih h.1.2
  | choiceL _ ih => exact fun h => by simp only [okExpr, Bool.and_eq_true] at h; exact ih h.1
  | choiceR _ ih => exact fun h => by simp only [okExpr, Bool.and_eq_true] at h; exact ih h.2
  | separated _ ih => exact fun h => by simp only [okExpr, Bool.and_eq_true] at h; exact ih h.1
  | pos _ ih => exact ih
  | neg _ ih => exact ih
  | opt _ ih => exact ih
  | rep _ ih => exact ih
  | repOnce _ ih => exact ih
  | repRange _ ih => exact ih

theorem ok_trivia {paths : List (List Name)} {ts : List Trivia} {e : Expr} (h : okExpr paths ts e = true) {t : Trivia} (ht : t ∉ ts) : ¬ UsesTrivia t e := by
  rintro (⟨l, r, hs⟩ | ⟨e', hs⟩)
  · have := ok_sub hs h
    simp only [okExpr, Bool.and_eq_true, decide_eq_true_eq] at this
    exact ht this.2
  · have := ok_sub hs h
    simp only [okExpr, Bool.and_eq_true, decide_eq_true_eq] at this
    exact ht this.2

/-- What the rules refer to. -/
def paths : List (List Name) :=
  [pathPop, pathPopAll, pathPeek, pathPeekAll, pathDrop, [['p', 'e', 's', 't'], ['e', 'o', 'i']], [['r', 'a', 'n', 'g', 'e']], [['w', 'i', 'l', 'l', '_', 'f', 'a', 'i', 'l']],
   [['r', 'e', 'p', 'e', 'a', 't', '_', 'm', 'u', 't', 'a', 't', 'e', '_', 's', 't', 'a', 'c', 'k', '_', 'p', 'o', 'p', '_', 'a', 'l', 'l']], [['p', 'e', 's', 't'], ['s', 'o', 'i']],
   [['s', 't', 'r', 'i', 'n', 'g']], [['s', 'e', 'q', 'u', 'e', 'n', 'c', 'e', '_', 'n', 'e', 's', 't', 'e', 'd']]]

section
variable {u : Unicode}

theorem usable : ∀ q ∈ paths, Usable u grammar q .plain := by
  simp only [paths, List.mem_cons, List.not_mem_nil, or_false, forall_eq_or_imp, forall_eq]
  exact ⟨usable_leaf (by decide) rfl rfl, usable_leaf (by decide) rfl rfl, usable_leaf (by decide) rfl rfl, usable_leaf (by decide) rfl rfl, usable_leaf (by decide) rfl rfl,
    usable_leaf (by decide) rfl rfl, usable_rule (by decide) rfl rfl, usable_rule (by decide) rfl rfl, usable_rule (by decide) rfl rfl,
    usable_leaf (by decide) rfl rfl, usable_rule (by decide) rfl rfl, usable_rule (by decide) rfl rfl⟩

theorem exprs_ok : ∀ r ∈ rules, okExpr paths [.none, .optional, .mandatory] r.node = true := by decide +kernel
theorem args_nil : ∀ r ∈ rules, r.args = [] := by decide +kernel
theorem loud : ∀ r ∈ rules, r.silent = false := by decide +kernel
theorem inner_ok_man : ∀ r ∈ rules, r.name = manName → okExpr paths [.none] r.node = true := by decide +kernel
theorem inner_ok : ∀ r ∈ rules, r.name = optName → okExpr paths [.none] r.node = true := by decide +kernel

theorem grammar_scoped : AllScoped u grammar := by
  intro a ha
  cases mod_self ha
  refine ⟨by simp [Module.imports], by simp [Module.imports], fun r hr => ⟨fun _ => ⟨⟨['~'], [], xOpt, false⟩, by simp [Module.rules, rules], rfl⟩,
    fun _ => ⟨⟨['^'], [], xMan, false⟩, by simp [Module.rules, rules], rfl⟩⟩, fun r hr => ⟨fun q hs => .inr (usable q ?_), fun q args hs => ?_, fun q range hs => ?_⟩⟩
  · have := ok_sub hs (exprs_ok r hr)
    simpa only [okExpr, decide_eq_true_eq] using this
  · have := ok_sub hs (exprs_ok r hr)
    simp only [okExpr, Bool.and_eq_true, decide_eq_true_eq] at this
    rw [this.1.1, this.1.2]
    exact ⟨by decide, .inl ⟨rfl, rfl⟩⟩
  · have := ok_sub hs (exprs_ok r hr)
    simp only [okExpr, decide_eq_true_eq] at this
    rw [this]
    exact ⟨by decide, rfl⟩

theorem grammar_named : AllNamed u grammar := by
  intro a h
  cases mod_self h
  exact ⟨by decide +kernel, by decide +kernel, by simp [Module.imports], by simp [Module.imports], fun r hr _ => args_nil r hr, fun r hr x hx => by
    rw [args_nil r hr] at hx; cases hx⟩

end

theorem grammar_silent (x : Name) : ¬ SilentName grammar x := by
  rintro ⟨a, ha, f, hf, h1, -⟩
  cases mod_self ha
  simp [Rule.inlined, loud f hf] at h1

theorem grammar_acyclic {a : Module} (ha : ModIn a grammar) : TriviaAcyclic a := by
  cases mod_self ha
  exact ⟨fun r hr k => ok_trivia (inner_ok r hr k) (by decide), fun r hr k => ok_trivia (inner_ok_man r hr k) (by decide), .inl fun r hr k => ok_trivia (inner_ok r hr k) (by decide)⟩

end Pest3.Stk
