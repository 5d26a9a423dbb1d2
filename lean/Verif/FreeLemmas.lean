import Verif.UnorderedLemmas

namespace Pest3.Gen
open Pest3

/-! ## Context-free grammars -/

theorem leafTexts_spec {l : Leaf} {S : Text → Prop} (hl : leafTexts l = some S) {c : Cfg} {m : Text} {stk : List Text} (h : leafSpec l c = some (m, stk)) : S m ∧ stk = c.stk := by
  have two : ∀ {o : Option Text} {s : List Text}, o.map (·, s) = some (m, stk) → stk = s := by
    intro o s h
    cases o with
    | none => cases h
    | some => cases h; rfl
  cases l with
  | str s => cases hl; exact ⟨eatText_eq (map_stk h), two h⟩
  | insens s =>
    cases hl
    simp only [leafSpec] at h
    split at h
    · rename_i hk
      cases h
      exact ⟨hk, rfl⟩
    · cases h
  | range lo hi => cases hl; obtain ⟨x, h1, rfl⟩ := eatChar_eq (map_stk h); exact ⟨⟨x, rfl, of_decide_eq_true h1⟩, two h⟩
  | prop b => cases hl; obtain ⟨x, h1, rfl⟩ := eatChar_eq (map_stk h); exact ⟨⟨x, rfl, h1⟩, two h⟩
  | any => cases hl; obtain ⟨x, h1, rfl⟩ := eatChar_eq (map_stk h); exact ⟨⟨x, rfl⟩, two h⟩
  | _ => cases hl

theorem leafTexts_here {l : Leaf} {S : Text → Prop} (hl : leafTexts l = some S) {w : Text} (h : S w) (pre suf : Text) (stk : List Text) :
    leafSpec l ⟨pre, w ++ suf, stk⟩ = some (w, stk) := by
  cases l with
  | str s => cases hl; cases (show w = s from h); simp [leafSpec, eatText]
  | insens s =>
    cases hl
    have hlen : w.length = s.length := by simpa using congrArg List.length (show w.map Char.toLower = s.map Char.toLower from h)
    have ht : (w ++ suf).take s.length = w := by rw [← hlen]; simp
    simp only [leafSpec, ht]
    rw [if_pos (show w.map Char.toLower = s.map Char.toLower from h)]
  | range lo hi => cases hl; obtain ⟨x, rfl, h1⟩ := h; simp [leafSpec, eatChar, h1]
  | prop b => cases hl; obtain ⟨x, rfl, h1⟩ := h; simp [leafSpec, eatChar, h1]
  | any => cases hl; obtain ⟨x, rfl⟩ := h; simp [leafSpec, eatChar]
  | _ => cases hl

section
variable {u : Unicode} {root : Module}

/-- What is generated may be matched, wherever it is. -/
theorem Generates.may {it : SItem} {w : Text} (h : Generates u root it w) : ∀ pre suf stk, May u root it ⟨pre, w ++ suf, stk⟩ ⟨pre ++ w, suf, stk⟩ := by
  induction h with
  | literal h1 h2 h3 => intro pre suf stk; exact .literal h1 (leafTexts_here h2 h3 pre suf stk) rfl
  | builtin h1 h2 h3 h4 h5 h6 => intro pre suf stk; exact .builtin h1 h2 h3 h4 (leafTexts_here h5 h6 pre suf stk) rfl
  | param h1 _ ih => intro pre suf stk; exact .param h1 (ih pre suf stk)
  | rule h1 h2 h3 _ ih => intro pre suf stk; exact .rule h1 h2 h3 (ih pre suf stk)
  | call h1 h2 h3 _ ih => intro pre suf stk; exact .call h1 h2 h3 (ih pre suf stk)
  | @seq p ρ l r t w1 w2 w3 _ _ _ ih1 ih2 ih3 =>
    intro pre suf stk
    have k1 := ih1 pre (w2 ++ (w3 ++ suf)) stk
    have k2 := ih2 (pre ++ w1) (w3 ++ suf) stk
    have k3 := ih3 (pre ++ w1 ++ w2) suf stk
    simp only [List.append_assoc] at k1 k2 k3 ⊢
    exact .seq k1 k2 k3
  | choiceL _ ih => intro pre suf stk; exact .choiceL (ih pre suf stk)
  | choiceR _ ih => intro pre suf stk; exact .choiceR (ih pre suf stk)
  | optSome _ ih => intro pre suf stk; exact .optSome (ih pre suf stk)
  | optNone => intro pre suf stk; rw [List.append_nil]; exact .optNone
  | rep h1 _ ih => intro pre suf stk; exact .rep h1 (ih pre suf stk)
  | separated _ ih => intro pre suf stk; exact .separated (ih pre suf stk)
  | triviaNone => intro pre suf stk; rw [List.append_nil]; exact .triviaNone
  | triviaRule h1 h2 _ ih => intro pre suf stk; exact .triviaRule h1 h2 (ih pre suf stk)
  | unitFirst _ ih => intro pre suf stk; exact .unitFirst (ih pre suf stk)
  | @unitNext e p t i w1 w2 _ _ ih1 ih2 =>
    intro pre suf stk
    have k1 := ih1 pre (w2 ++ suf) stk
    have k2 := ih2 (pre ++ w1) suf stk
    simp only [List.append_assoc] at k1 k2 ⊢
    exact .unitNext k1 k2
  | @repsMore e p t min max i w1 w2 h1 _ _ ih1 ih2 =>
    intro pre suf stk
    have k1 := ih1 pre (w2 ++ suf) stk
    have k2 := ih2 (pre ++ w1) suf stk
    simp only [List.append_assoc] at k1 k2 ⊢
    exact .repsMore h1 k1 k2
  | repsStop h1 => intro pre suf stk; rw [List.append_nil]; exact .repsStop h1

/-- Expressions of context-free grammars, with what the parameters stand for. -/
inductive FreeClo (u : Unicode) (root : Module) : Clo → Prop
  | mk {p ρ e} : Free u root p e → (∀ x a, lookupClo x ρ = some a → FreeClo u root a) → FreeClo u root (.mk p ρ e)

/-- The same for items. -/
def FreeItem (u : Unicode) (root : Module) : SItem → Prop
  | .expr a | .unit a .. | .reps a .. => FreeClo u root a
  | .trivia .. => True

theorem free_rep {p : List Name} {e e' : Expr} {min max : Nat} (he : repetition e = some (e', min, max)) (h : Free u root p e) : Free u root p e' := by
  cases e with
  | rep | repOnce | repRange =>
    cases he
    cases h with
    | literal h => cases h
    | rep h h1 => cases h; exact h1
  | _ => cases he

theorem literal_texts {e : Expr} {l : Leaf} (h : literal e = some l) : ∃ S, leafTexts l = some S := by
  cases e <;> cases h <;> exact ⟨_, rfl⟩

/-- The text between two places, the stack being the same. -/
def Passes (c c' : Cfg) (w : Text) : Prop := c.suf = w ++ c'.suf ∧ c'.pre = c.pre ++ w ∧ c'.stk = c.stk

theorem Passes.nil (c : Cfg) : Passes c c [] := ⟨rfl, by simp, rfl⟩

theorem Passes.trans {c c1 c2 : Cfg} {w1 w2 : Text} (h1 : Passes c c1 w1) (h2 : Passes c1 c2 w2) : Passes c c2 (w1 ++ w2) :=
  ⟨by rw [h1.1, h2.1, List.append_assoc], by rw [h2.2.1, h1.2.1, List.append_assoc], h2.2.2.trans h1.2.2⟩

/-- What may be matched in a context-free grammar is what it generates. -/
theorem May.generates (hG : FreeGrammar u root) {it : SItem} {c c' : Cfg} (h : May u root it c c') : FreeItem u root it → ∃ w, Passes c c' w ∧ Generates u root it w := by
  have body : ∀ {p q : List Name} {p' r}, target u root p q = some (.rule p' r) → Free u root p' r.node := by
    intro p q p' r ht
    obtain ⟨m, h1, h2, -⟩ := target_rule ht
    exact hG p' m r h1 (findRule_in h2)
  have none : ∀ (x : Name) (a : Clo), lookupClo x [] = some a → FreeClo u root a := by intro x a h; cases h
  induction h with
  | literal h1 h2 h3 =>
    intro _
    obtain ⟨S, hS⟩ := literal_texts h1
    obtain ⟨k1, k2⟩ := leafTexts_spec hS h2
    exact ⟨_, ⟨h3, rfl, k2⟩, .literal h1 hS k1⟩
  | builtin h1 h2 h3 h4 h5 h6 =>
    rintro ⟨hf, -⟩
    obtain ⟨S, hS⟩ : ∃ S, leafTexts _ = some S := by
      rcases plainRef_cases h1 with rfl | rfl
      · cases hf with
        | literal h => cases h
        | rep h => cases h
        | path h => exact h _ _ h3 h4
      · cases hf with
        | literal h => cases h
        | rep h => cases h
        | call h => exact h _ _ h3 h4
    obtain ⟨k1, k2⟩ := leafTexts_spec hS h5
    exact ⟨_, ⟨h6, rfl, k2⟩, .builtin h1 h2 h3 h4 hS k1⟩
  | slice =>
    rintro ⟨hf, -⟩
    cases hf with
    | literal h => cases h
    | rep h => cases h
  | push h1 h2 =>
    rintro ⟨hf, -⟩
    cases hf with
    | literal h => cases h
    | rep h => cases h
    | call _ h => exact (h h2).elim
  | param h1 _ ih =>
    rintro ⟨-, hp⟩
    obtain ⟨w, k1, k2⟩ := ih (hp _ _ h1)
    exact ⟨w, k1, .param h1 k2⟩
  | rule h1 h2 h3 _ ih =>
    intro _
    obtain ⟨w, k1, k2⟩ := ih (.mk (body h2) none)
    exact ⟨w, k1, .rule h1 h2 h3 k2⟩
  | @call p ρ q args p' r c c' h1 h2 h3 _ ih =>
    rintro ⟨hf, hp⟩
    have hargs : ∀ a ∈ args, Free u root p a := by
      cases hf with
      | literal h => cases h
      | rep h => cases h
      | call _ _ h => exact h
    obtain ⟨w, k1, k2⟩ := ih (.mk (body h2) fun x a ha => by
      have hz := lookupClo_mem ha
      have := (List.of_mem_zip hz).2
      obtain ⟨b, hb, rfl⟩ := List.mem_map.mp this
      exact .mk (hargs b hb) hp)
    exact ⟨w, k1, .call h1 h2 h3 k2⟩
  | pos =>
    rintro ⟨hf, -⟩
    cases hf with
    | literal h => cases h
    | rep h => cases h
  | neg =>
    rintro ⟨hf, -⟩
    cases hf with
    | literal h => cases h
    | rep h => cases h
  | seq _ _ _ ih1 ih2 ih3 =>
    rintro ⟨hf, hp⟩
    cases hf with
    | literal h => cases h
    | rep h => cases h
    | seq f1 f2 =>
      obtain ⟨w1, k1, j1⟩ := ih1 (.mk f1 hp)
      obtain ⟨w2, k2, j2⟩ := ih2 trivial
      obtain ⟨w3, k3, j3⟩ := ih3 (.mk f2 hp)
      exact ⟨_, (k1.trans k2).trans k3, .seq j1 j2 j3⟩
  | choiceL _ ih =>
    rintro ⟨hf, hp⟩
    cases hf with
    | literal h => cases h
    | rep h => cases h
    | choice f1 f2 => obtain ⟨w, k1, k2⟩ := ih (.mk f1 hp); exact ⟨w, k1, .choiceL k2⟩
  | choiceR _ ih =>
    rintro ⟨hf, hp⟩
    cases hf with
    | literal h => cases h
    | rep h => cases h
    | choice f1 f2 => obtain ⟨w, k1, k2⟩ := ih (.mk f2 hp); exact ⟨w, k1, .choiceR k2⟩
  | optSome _ ih =>
    rintro ⟨hf, hp⟩
    cases hf with
    | literal h => cases h
    | rep h => cases h
    | opt f => obtain ⟨w, k1, k2⟩ := ih (.mk f hp); exact ⟨w, k1, .optSome k2⟩
  | optNone => intro _; exact ⟨[], .nil _, .optNone⟩
  | rep h1 _ ih =>
    rintro ⟨hf, hp⟩
    obtain ⟨w, k1, k2⟩ := ih (.mk (free_rep h1 hf) hp)
    exact ⟨w, k1, .rep h1 k2⟩
  | separated _ ih =>
    rintro ⟨hf, hp⟩
    cases hf with
    | literal h => cases h
    | rep h => cases h
    | separated f => obtain ⟨w, k1, k2⟩ := ih (.mk f hp); exact ⟨w, k1, .separated k2⟩
  | triviaNone => intro _; exact ⟨[], .nil _, .triviaNone⟩
  | triviaRule h1 h2 _ ih =>
    intro _
    obtain ⟨w, k1, k2⟩ := ih (.mk (hG _ _ _ h1 (triviaRule_in h2).1) none)
    exact ⟨w, k1, .triviaRule h1 h2 k2⟩
  | unitFirst _ ih => intro hf; obtain ⟨w, k1, k2⟩ := ih hf; exact ⟨w, k1, .unitFirst k2⟩
  | unitNext _ _ ih1 ih2 =>
    intro hf
    obtain ⟨w1, k1, j1⟩ := ih1 trivial
    obtain ⟨w2, k2, j2⟩ := ih2 hf
    exact ⟨_, k1.trans k2, .unitNext j1 j2⟩
  | repsMore h1 _ _ ih1 ih2 =>
    intro hf
    obtain ⟨w1, k1, j1⟩ := ih1 hf
    obtain ⟨w2, k2, j2⟩ := ih2 hf
    exact ⟨_, k1.trans k2, .repsMore h1 j1 j2⟩
  | repsStop h1 => intro _; exact ⟨[], .nil _, .repsStop h1⟩

end
end Pest3.Gen
