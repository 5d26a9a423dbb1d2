import Verif.InlineCorrect
import Verif.Compile

namespace Pest3.Gen
open Pest3

/-- The expressions of an item. -/
def CItem.exprs : CItem → List Expr
  | .one e _ => [e]
  | .tail _ e _ => [e]
  | .alts e _ => [e]
  | .args es _ => es

section
variable {u : Unicode} {m m' : Module}

theorem mentions_inv {q : List Name} {e : Expr} (h : Cites q e) : e = .path q ∨ (∃ as, e = .call q as) ∨
    ∃ e', Cites q e' ∧ match e with
      | .pos a | .neg a | .opt a | .rep a | .repOnce a | .repRange a _ | .separated a _ => e' = a
      | .seq a b _ | .choice a b => e' = a ∨ e' = b
      | .call _ as => e' ∈ as
      | _ => False := by
  have key : ∀ s, Sub s e → s = e ∨ ∃ e', Sub s e' ∧ match e with
      | .pos a | .neg a | .opt a | .rep a | .repOnce a | .repRange a _ | .separated a _ => e' = a
      | .seq a b _ | .choice a b => e' = a ∨ e' = b
      | .call _ as => e' ∈ as
      | _ => False := by
    intro s hs
    cases hs with
    | refl => exact .inl rfl
    | pos h1 | neg h1 | opt h1 | rep h1 | repOnce h1 | repRange h1 | separated h1 => exact .inr ⟨_, h1, rfl⟩
    | seqL h1 | choiceL h1 => exact .inr ⟨_, h1, .inl rfl⟩
    | seqR h1 | choiceR h1 => exact .inr ⟨_, h1, .inr rfl⟩
    | arg hm h1 => exact .inr ⟨_, h1, hm⟩
  rcases h with h | ⟨as, h⟩
  · rcases key _ h with h | ⟨e', h1, h2⟩
    · exact .inl h.symm
    · exact .inr (.inr ⟨e', .inl h1, h2⟩)
  · rcases key _ h with h | ⟨e', h1, h2⟩
    · exact .inr (.inl ⟨as, h.symm⟩)
    · exact .inr (.inr ⟨e', .inr ⟨as, h1⟩, h2⟩)

/-- What is compiled mentions only parameters and what exists. -/
theorem comp_mentions {p : List Name} {σ : List (Name × CTy)} {item} (h : Comp u m p σ item) :
    ∀ e ∈ item.exprs, ∀ q, Cites q e → (∃ x t, q = [x] ∧ lookupC x σ = some t) ∨ ∃ tg, target u m p q = some tg := by
  induction h with
  | str | insens | range =>
    intro e he q hq
    simp only [CItem.exprs, List.mem_singleton] at he; subst he
    rcases hq with hq | ⟨_, hq⟩ <;> cases hq
  | @param x t h =>
    intro e he q hq
    simp only [CItem.exprs, List.mem_singleton] at he; subst he
    rcases hq with hq | ⟨_, hq⟩ <;> cases hq
    exact .inl ⟨x, t, rfl, h⟩
  | @builtin e0 q0 full l k h1 h2 h3 =>
    intro e he q hq
    simp only [CItem.exprs, List.mem_singleton] at he; subst he
    rcases plainRef_cases h1 with rfl | rfl
    · rcases hq with hq | ⟨_, hq⟩ <;> cases hq
      exact .inr ⟨_, h3⟩
    · rcases hq with hq | ⟨_, hq⟩
      · cases hq with | arg h _ => simp at h
      · cases hq with
        | refl => exact .inr ⟨_, h3⟩
        | arg h _ => simp at h
  | slice h1 h2 =>
    intro e he q hq
    simp only [CItem.exprs, List.mem_singleton] at he; subst he
    rcases hq with hq | ⟨_, hq⟩ <;> cases hq
  | push h1 h2 _ ih =>
    intro e he q hq
    simp only [CItem.exprs, List.mem_singleton] at he; subst he
    rcases mentions_inv hq with h | ⟨_, h⟩ | ⟨e', h, he⟩
    · simp at h
    · injection h with h; subst h; exact .inr ⟨_, h2⟩
    · exact ih e' (by simpa [CItem.exprs] using he) q h
  | rule h1 h2 h3 =>
    intro e he q hq
    simp only [CItem.exprs, List.mem_singleton] at he; subst he
    rcases hq with hq | ⟨_, hq⟩ <;> cases hq
    exact .inr ⟨_, h2⟩
  | call h1 h2 h3 _ ih =>
    intro e he q hq
    simp only [CItem.exprs, List.mem_singleton] at he; subst he
    rcases mentions_inv hq with h | ⟨_, h⟩ | ⟨e', h, he⟩
    · simp at h
    · injection h with h; subst h; exact .inr ⟨_, h2⟩
    · exact ih e' he q h
  | pos _ ih | neg _ ih | opt _ ih | separated _ ih =>
    intro e he q hq
    simp only [CItem.exprs, List.mem_singleton] at he; subst he
    rcases mentions_inv hq with h | ⟨_, h⟩ | ⟨e', h, he⟩
    · simp at h
    · simp at h
    · exact ih e' (by simpa [CItem.exprs] using he) q h
  | @rep e0 e1 _ _ _ h1 _ _ ih =>
    intro e he q hq
    simp only [CItem.exprs, List.mem_singleton] at he; subst he
    refine ih e1 (by simp [CItem.exprs]) q ?_
    rcases mentions_inv hq with h | ⟨_, h⟩ | ⟨e', h, he⟩
    · subst h; simp [repetition] at h1
    · subst h; simp [repetition] at h1
    · cases e with
      | rep | repOnce | repRange =>
        simp only [repetition, Option.some.injEq, Prod.mk.injEq] at h1
        rw [← h1.1, ← he]; exact h
      | _ => simp [repetition] at h1
  | seq _ _ ih1 ih2 | tailMore _ _ _ ih1 ih2 | choice _ _ ih1 ih2 | altsMore _ _ ih1 ih2 =>
    intro e he q hq
    simp only [CItem.exprs, List.mem_singleton] at he; subst he
    rcases mentions_inv hq with h | ⟨_, h⟩ | ⟨e', h, he⟩
    · simp at h
    · simp at h
    · rcases he with rfl | rfl
      · exact ih1 _ (by simp [CItem.exprs]) q h
      · exact ih2 _ (by simp [CItem.exprs]) q h
  | tailLast _ _ _ ih | altsLast _ _ ih => exact ih
  | argsNil => intro e he; simp [CItem.exprs] at he
  | argsCons _ _ ih1 ih2 =>
    intro e he q hq
    rcases List.mem_cons.mp he with rfl | he
    · exact ih1 _ (by simp [CItem.exprs]) q hq
    · exact ih2 e he q hq

/-- Removed rules are not found any more. -/
theorem gone_missing (hn : AllNamed u m) {fuel : Nat} (h : inlineModule fuel m = .ok m') {q} (hg : Gone u m [] q) :
    target u m' [] q = none := by
  obtain ⟨hi, k1, _⟩ := inlineModule_ok (hn m .refl) h
  obtain ⟨f, ht, hf⟩ := hg
  obtain ⟨_, hb, x, rfl, _, h1, ho, hm, hr⟩ := target_root ht
  unfold target
  rw [if_neg hb]
  simp only [modAt, lookupIn, hi, h1, ne_eq, ho, hm, not_false_eq_true, and_self, if_true]
  cases hr' : findRule m'.rules x with
  | none => rfl
  | some r' =>
    obtain ⟨r, _, a1, _, a2, _⟩ := k1 x r' hr'
    rw [hr] at a1
    injection a1 with a1
    subst a1
    rw [hf] at a2; simp at a2

/-- If the types of all rules after inlining exist, no reference to a removed rule is left. -/
theorem none_left (hn : AllNamed u m) {fuel : Nat} (h : inlineModule fuel m = .ok m')
    (hc : ∀ r ∈ m'.rules, ∃ σ t, (∀ x c, lookupC x σ = some c → x ∈ r.args) ∧ Comp u m' [] σ (.one r.node t)) : NoneLeft u m m' := by
  intro r hr q hq
  obtain ⟨σ, t, h1, h2⟩ := hc r hr
  rcases comp_mentions h2 r.node (by simp [CItem.exprs]) q hq with ⟨x, c, rfl, hx⟩ | ⟨tg, ht⟩
  · exact .inl ⟨x, h1 x c hx, rfl⟩
  · refine .inr fun hg => ?_
    rw [gone_missing hn h hg] at ht; simp at ht

end

end Pest3.Gen
