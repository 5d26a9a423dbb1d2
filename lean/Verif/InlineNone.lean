import Verif.InlineLemmas
import Verif.DeriveLemmas

/-!
# Grammars without silent rules with parameters

Inlining leaves these as they are.
-/

namespace Pest3.Gen

variable {m : Module}

theorem findSilent_none (hs : ∀ x, ¬ SilentName m x) (x : Name) : findSilent (collectSilent none m) x = none := by
  cases h : findSilent (collectSilent none m) x with
  | none => rfl
  | some f => exact absurd (findSilent_name h) (hs x)

theorem inlineStep_none {sm : SilentMap} (hs : ∀ x, findSilent sm x = none) (e : Expr) : inlineStep sm e = .ok (e, false) := by
  unfold inlineStep
  split
  · split
    · rfl
    · rw [hs]
  · rfl

theorem inlineNode_same {sm : SilentMap} (hs : ∀ x, findSilent sm x = none) (fuel : Nat) :
    ∀ e, inlineNode sm fuel e = .ok e ∨ inlineNode sm fuel e = .oof := by
  induction fuel with
  | zero => exact fun _ => .inr rfl
  | succ fuel ih =>
    intro e
    simp only [inlineNode, inlineStep_none hs, andThen, Bool.false_eq_true, if_false]
    cases e with
    | seq l r t => rcases ih l with h | h <;> rcases ih r with h' | h' <;> simp [h, h']
    | choice l r => rcases ih l with h | h <;> rcases ih r with h' | h' <;> simp [h, h']
    | opt e => rcases ih e with h | h <;> simp [h]
    | rep e => rcases ih e with h | h <;> simp [h]
    | repOnce e => rcases ih e with h | h <;> simp [h]
    | separated e t => rcases ih e with h | h <;> simp [h]
    | repRange e b => rcases ih e with h | h <;> simp [h]
    | pos e => rcases ih e with h | h <;> simp [h]
    | neg e => rcases ih e with h | h <;> simp [h]
    | _ => simp

/-- How deep an expression is, arguments of calls aside. -/
def Expr.depth : Expr → Nat
  | .seq l r _ => max l.depth r.depth + 1
  | .choice l r => max l.depth r.depth + 1
  | .opt e => e.depth + 1
  | .rep e => e.depth + 1
  | .repOnce e => e.depth + 1
  | .separated e _ => e.depth + 1
  | .repRange e _ => e.depth + 1
  | .pos e => e.depth + 1
  | .neg e => e.depth + 1
  | _ => 1

theorem inlineNode_depth {sm : SilentMap} (hs : ∀ x, findSilent sm x = none) (fuel : Nat) :
    ∀ e, e.depth ≤ fuel → inlineNode sm fuel e = .ok e := by
  induction fuel with
  | zero => intro e h; cases e <;> simp [Expr.depth] at h
  | succ fuel ih =>
    intro e h
    simp only [inlineNode, inlineStep_none hs, andThen, Bool.false_eq_true, if_false]
    cases e with
    | seq l r t => simp only [Expr.depth] at h; simp [ih l (by omega), ih r (by omega)]
    | choice l r => simp only [Expr.depth] at h; simp [ih l (by omega), ih r (by omega)]
    | opt e => simp only [Expr.depth] at h; simp [ih e (by omega)]
    | rep e => simp only [Expr.depth] at h; simp [ih e (by omega)]
    | repOnce e => simp only [Expr.depth] at h; simp [ih e (by omega)]
    | separated e t => simp only [Expr.depth] at h; simp [ih e (by omega)]
    | repRange e b => simp only [Expr.depth] at h; simp [ih e (by omega)]
    | pos e => simp only [Expr.depth] at h; simp [ih e (by omega)]
    | neg e => simp only [Expr.depth] at h; simp [ih e (by omega)]
    | _ => simp

theorem inlineRules_none {sm : SilentMap} (hs : ∀ x, findSilent sm x = none) (l : List Rule) :
    (∃ N, ∀ fuel, N ≤ fuel → inlineRules sm fuel l = .ok l) ∧ ∀ fuel, inlineRules sm fuel l = .ok l ∨ inlineRules sm fuel l = .oof := by
  induction l with
  | nil => exact ⟨⟨0, fun _ _ => rfl⟩, fun _ => .inl rfl⟩
  | cons r l ih =>
    obtain ⟨⟨N, hN⟩, h2⟩ := ih
    refine ⟨⟨max N r.node.depth, fun fuel hf => ?_⟩, fun fuel => ?_⟩
    · simp [inlineRules, inlineNode_depth hs fuel r.node (by omega), hN fuel (by omega), andThen]
    · rcases inlineNode_same hs fuel r.node with h | h <;> rcases h2 fuel with h' | h' <;> simp [inlineRules, h, h', andThen]

theorem kept_all (hs : ∀ x, ¬ SilentName m x) : (m.rules.filter fun r => !r.silent || r.args.isEmpty) = m.rules := by
  refine List.filter_eq_self.mpr fun r hr => ?_
  have h : ¬ r.inlined = true := fun h => hs r.name ⟨m, .refl, r, hr, h, rfl⟩
  cases h1 : r.silent <;> cases h2 : r.args.isEmpty <;> simp_all [Rule.inlined]

/-- Inlining does nothing. -/
theorem inlineModule_none (hs : ∀ x, ¬ SilentName m x) :
    (∃ N, ∀ fuel, N ≤ fuel → inlineModule fuel m = .ok m) ∧ ∀ fuel, inlineModule fuel m = .ok m ∨ inlineModule fuel m = .oof := by
  obtain ⟨⟨N, h1⟩, h2⟩ := inlineRules_none (findSilent_none hs) m.rules
  unfold inlineModule
  rw [kept_all hs]
  refine ⟨⟨N, fun fuel hf => ?_⟩, fun fuel => ?_⟩
  · rw [h1 fuel hf]; cases m; rfl
  · rcases h2 fuel with h | h <;> rw [h]
    · left; cases m; rfl
    · right; rfl

theorem generateTyped_none (hs : ∀ x, ¬ SilentName m x) {cfg : Config} {names : List Name} {r : Output × GenSt} :
    (∃ fuel, generateTyped cfg names fuel m = .ok r) ↔ generateModule cfg names m = .ok r := by
  obtain ⟨⟨N, h1⟩, h2⟩ := inlineModule_none hs
  constructor
  · rintro ⟨fuel, h⟩
    rcases h2 fuel with h' | h' <;> rw [generateTyped, h'] at h
    · exact h
    · cases h
  · intro h
    exact ⟨N, by rw [generateTyped, h1 N (Nat.le_refl _)]; exact h⟩

end Pest3.Gen
