import Verif.AstLemmas

/-!
# C45: replacing a parameter by an argument
-/

namespace Pest3.Props
open Pest3 Pest3.Meta Pest3.Gen

/-- C45: what is reported is whether the parameter occurs; if no call passes the parameter in two of its
arguments, the new expression is the old one with every occurrence replaced and nothing else changed.
Missing: calls with the parameter in two arguments, see `C45_call_witness`. -/
theorem C45_replace_partial (x : Name) (n e : Expr) :
    ((Expr.replace x n e).2 = true ↔ Occurs x e) ∧
    (OncePerCall x e → (Expr.replace x n e).1 = e.subst (single x n)) :=
  ⟨replace_reports x n e, replace_subst x n e⟩

/-- C45: the condition is exact: unless the parameter is replaced by itself, all occurrences are replaced only if no call passes the parameter in two of its arguments. -/
theorem C45_exactly_partial (x : Name) (n e : Expr) (hn : n ≠ .path [x]) : (Expr.replace x n e).1 = e.subst (single x n) ↔ OncePerCall x e :=
  ⟨once_of_replace hn e, replace_subst x n e⟩

/-- C45: an expression without the parameter is left alone. -/
theorem C45_untouched (x : Name) (n e : Expr) (h : ¬ Occurs x e) : Expr.replace x n e = (e, false) := by
  have h2 : (Expr.replace x n e).2 = false := by
    have := mt (replace_reports x n e).mp h
    simpa using this
  have h1 := replace_subst x n e fun p pre a post hs ho => absurd (Sub.trans (.arg (by simp) ho) hs) h
  rw [subst_single_of_not_occurs h] at h1
  exact Prod.ext h1 h2

/-- C45: after a replacement the parameter is gone, unless the argument itself contains it. -/
theorem C45_eliminated_partial (x : Name) (n e : Expr) (h : OncePerCall x e) (hn : ¬ Occurs x n) :
    ¬ Occurs x (Expr.replace x n e).1 := by
  rw [replace_subst x n e h]
  intro ho
  have key : ∀ e : Expr, ¬ Occurs x (e.subst (single x n)) := by
    intro e
    induction e using Expr.ind with
    | str | insens | range | slice => simp [Expr.subst]
    | path p =>
      match p with
      | [] => simp [Expr.subst, occurs_path]
      | [y] =>
        by_cases hy : y = x
        · subst hy; simpa [Expr.subst, single] using hn
        · simp [Expr.subst, single, hy, occurs_path]
      | _ :: _ :: _ => simp [Expr.subst, occurs_path]
    | call p args ih =>
      simp only [Expr.subst, substAll_eq_map, occurs_call, List.mem_map]
      rintro ⟨_, ⟨a, ha, rfl⟩, h⟩
      exact ih a ha h
    | pos e ih => simpa only [Expr.subst, occurs_pos] using ih
    | neg e ih => simpa only [Expr.subst, occurs_neg] using ih
    | opt e ih => simpa only [Expr.subst, occurs_opt] using ih
    | rep e ih => simpa only [Expr.subst, occurs_rep] using ih
    | repOnce e ih => simpa only [Expr.subst, occurs_repOnce] using ih
    | repRange e b ih => simpa only [Expr.subst, occurs_repRange] using ih
    | separated e t ih => simpa only [Expr.subst, occurs_separated] using ih
    | seq l r t ihl ihr => simp only [Expr.subst, occurs_seq, not_or]; exact ⟨ihl, ihr⟩
    | choice l r ihl ihr => simp only [Expr.subst, occurs_choice, not_or]; exact ⟨ihl, ihr⟩
  exact key e ho

/-- C45 fails for calls: in `f(x, x)` only the first argument is replaced. -/
theorem C45_call_witness :
    let x : Name := ['x']
    let e : Expr := .call [['f']] [.path [x], .path [x]]
    (Expr.replace x (.str ['a']) e).1 = .call [['f']] [.str ['a'], .path [x]] ∧
    e.subst (single x (.str ['a'])) = .call [['f']] [.str ['a'], .str ['a']] := by
  constructor <;> rfl

/-- A non-trivial case: `x ~ (f(x, "b") | m::x)` with `x` replaced by `"a"`. -/
example :
    let x : Name := ['x']
    let e : Expr := .seq (.path [x]) (.choice (.call [['f']] [.path [x], .str ['b']]) (.path [['m'], x])) .optional
    OncePerCall x e ∧ Expr.replace x (.str ['a']) e =
      (.seq (.str ['a']) (.choice (.call [['f']] [.str ['a'], .str ['b']]) (.path [['m'], x])) .optional, true) := by
  refine ⟨?_, rfl⟩
  intro p pre a post hs ho b hb
  have hc : pre ++ a :: post = [.path [['x']], .str ['b']] := by
    generalize pre ++ a :: post = l at hs ⊢
    cases hs with
    | seqL h => nomatch h
    | seqR h => cases h with
      | choiceL h => cases h with
        | refl => rfl
        | arg hm h =>
          rcases List.mem_cons.mp hm with rfl | hm
          · nomatch h
          · obtain rfl := List.mem_singleton.mp hm; nomatch h
      | choiceR h => nomatch h
  match pre, hc with
  | [], hc =>
    injection hc with ha hc
    subst hc
    obtain rfl := List.mem_singleton.mp hb
    simp
  | [_], hc =>
    injection hc with _ hc
    injection hc with ha hc
    subst hc
    nomatch hb
  | _ :: _ :: _, hc => 
    injection hc with _ hc
    injection hc with _ hc
    simp at hc

end Pest3.Props
