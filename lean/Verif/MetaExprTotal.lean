import Verif.MetaExprFuel

/-! # Reading expressions always ends -/

namespace Pest3.Gen
open Pest3
open Pest3.Meta (MetaRule)

theorem andThen_ends {α β : Type} {x : Res α} {k : α → Res β} (h : x ≠ .oof) (hk : ∀ a, x = .ok a → k a ≠ .oof) : andThen x k ≠ .oof := by
  cases x with
  | ok a => exact hk a rfl
  | panic => simp [andThen]
  | oof => exact absurd rfl h

theorem tryThen_ends {α β : Type} {x : Res (Option α)} {k : α → Res (Option β)} (h : x ≠ .oof) (hk : ∀ a, k a ≠ .oof) :
    tryThen x k ≠ .oof := by
  refine andThen_ends h fun a _ => ?_
  cases a with
  | none => simp
  | some a => exact hk a

theorem ofMeta_ends {α : Type} (r : Meta.Res α) : ofMeta r ≠ .oof := by
  cases r <;> simp [ofMeta]

theorem infixNode_ends (l : Option Expr) (p : PTree) (r : Option Expr) : infixNode l p r ≠ .oof := by
  unfold infixNode
  split
  · split <;> simp
  · simp

section
variable {node : PTree → Res (Option Expr)}

theorem callArgs_ends (l : List PTree) (h : ∀ t ∈ l, node t ≠ .oof) : callArgs node l ≠ .oof := by
  fun_induction callArgs node l with
  | case1 p q rest hp hq ih =>
    exact tryThen_ends (h p (by simp)) fun _ => tryThen_ends (ih fun t ht => h t (by simp [ht])) fun _ => by simp
  | case2 p q rest hp hq ih =>
    exact tryThen_ends (h p (by simp)) fun _ => tryThen_ends (ih fun t ht => h t (List.mem_cons_of_mem _ ht)) fun _ => by simp
  | case3 p q rest hp => simp
  | case4 p hp => exact tryThen_ends (h p (by simp)) fun _ => by simp
  | case5 p hp => simp
  | case6 => simp

theorem pathNames_mem (l : List PTree) : ∀ t ∈ (pathNames l).2, t ∈ l := by
  fun_induction pathNames l with
  | case1 p q rest hp hq ih => intro t ht; exact List.mem_cons_of_mem _ (List.mem_cons_of_mem _ (ih t ht))
  | case2 p q rest hp hq ih => intro t ht; exact List.mem_cons_of_mem _ (ih t ht)
  | case3 => intro t ht; exact ht
  | case4 => intro t ht; cases ht
  | case5 => intro t ht; exact ht
  | case6 => intro t ht; exact ht

theorem parsePath_ends (p : PTree) (h : ∀ a ∈ p.inner, ∀ t ∈ a.inner, node t ≠ .oof) : parsePath node p ≠ .oof := by
  unfold parsePath
  split
  · simp
  · rename_i a rest ha
    have hm := pathNames_mem p.inner a (by rw [ha]; simp)
    split
    · split
      · simp
      · rename_i x inner hi
        exact tryThen_ends (callArgs_ends _ fun t ht => h a hm t (by rw [hi]; simp [ht])) fun _ => by simp
    · exact tryThen_ends (ofMeta_ends _) fun _ => by simp
    · simp

theorem termStep_ends (p : PTree) (st : TermSt) (h1 : node p ≠ .oof) (h2 : ∀ a ∈ p.inner, ∀ t ∈ a.inner, node t ≠ .oof) :
    termStep node p st ≠ .oof := by
  unfold termStep
  split
  all_goals first
    | (simp; done)
    | exact tryThen_ends (ofMeta_ends _) fun _ => by simp
    | exact tryThen_ends h1 fun _ => by simp
    | exact tryThen_ends (parsePath_ends p h2) fun _ => by simp

theorem termLoop_ends (l : List PTree) (st : TermSt) (h1 : ∀ p ∈ l, node p ≠ .oof)
    (h2 : ∀ p ∈ l, ∀ a ∈ p.inner, ∀ t ∈ a.inner, node t ≠ .oof) : termLoop node l st ≠ .oof := by
  induction l generalizing st with
  | nil => simp [termLoop]
  | cons p l ih =>
    exact tryThen_ends (termStep_ends p st (h1 p (by simp)) (h2 p (by simp))) fun st =>
      ih st (fun q hq => h1 q (List.mem_cons_of_mem _ hq)) (fun q hq => h2 q (List.mem_cons_of_mem _ hq))

theorem foldPostfix_ends (l : List PTree) (e : Expr) : foldPostfix l e ≠ .oof := by
  induction l generalizing e with
  | nil => simp [foldPostfix]
  | cons p l ih =>
    refine tryThen_ends ?_ fun e => ih e
    unfold parsePostfix
    split
    all_goals first
      | (simp; done)
      | exact tryThen_ends (ofMeta_ends _) fun _ => by simp

theorem foldPrefix_ends (l : List PTree) (e : Expr) : foldPrefix l e ≠ .oof := by
  induction l with
  | nil => simp [foldPrefix]
  | cons p l ih =>
    refine andThen_ends ih fun e _ => ?_
    unfold parsePrefix
    split <;> simp

theorem parseTerm_ends (t : PTree) (h1 : ∀ p ∈ t.inner, node p ≠ .oof)
    (h2 : ∀ p ∈ t.inner, ∀ a ∈ p.inner, ∀ t ∈ a.inner, node t ≠ .oof) : parseTerm node t ≠ .oof := by
  refine tryThen_ends (termLoop_ends _ _ h1 h2) fun st => andThen_ends ?_ fun e _ =>
    tryThen_ends (foldPostfix_ends _ _) fun e => andThen_ends (foldPrefix_ends _ _) fun _ _ => by simp
  cases st.expression <;> simp [unwrap]

end

theorem pratt_ends {ops : Ops} {pr : PTree → Res (Option Expr)} : ∀ n,
    (∀ rbp l, (∀ p ∈ l, pr p ≠ .oof) → l.length < n → prattExpr ops pr n rbp l ≠ .oof ∧
      ∀ o rest, prattExpr ops pr n rbp l = .ok (o, rest) → rest.length < l.length ∧ ∀ p ∈ rest, p ∈ l) ∧
    ∀ rbp o l, (∀ p ∈ l, pr p ≠ .oof) → l.length < n → prattLoop ops pr n rbp o l ≠ .oof ∧
      ∀ o' rest, prattLoop ops pr n rbp o l = .ok (o', rest) → rest.length ≤ l.length ∧ ∀ p ∈ rest, p ∈ l := by
  intro n
  induction n with
  | zero => exact ⟨fun _ _ _ h => absurd h (Nat.not_lt_zero _), fun _ _ _ _ h => absurd h (Nat.not_lt_zero _)⟩
  | succ n ih =>
    obtain ⟨ih1, ih2⟩ := ih
    constructor
    · intro rbp l hl hn
      cases l with
      | nil => simp [prattExpr]
      | cons p l =>
        simp only [prattExpr]
        have hl' : ∀ q ∈ l, pr q ≠ .oof := fun q hq => hl q (List.mem_cons_of_mem _ hq)
        have hn' : l.length < n := by simpa using hn
        split
        · simp
        · cases hp : pr p with
          | oof => exact absurd hp (hl p (by simp))
          | panic => simp [andThen]
          | ok lhs =>
            obtain ⟨h1, h2⟩ := ih2 rbp lhs l hl' hn'
            refine ⟨h1, fun o rest hr => ?_⟩
            obtain ⟨a, b⟩ := h2 o rest hr
            exact ⟨by simp; omega, fun q hq => List.mem_cons_of_mem _ (b q hq)⟩
    · intro rbp o l hl hn
      cases l with
      | nil =>
        simp only [prattLoop]
        exact ⟨by simp, fun o' rest h => by cases h; exact ⟨Nat.le_refl _, fun _ h => h⟩⟩
      | cons p l =>
        simp only [prattLoop]
        have hl' : ∀ q ∈ l, pr q ≠ .oof := fun q hq => hl q (List.mem_cons_of_mem _ hq)
        have hn' : l.length < n := by simpa using hn
        split
        · simp
        · rename_i prec _
          split
          · obtain ⟨h1, h2⟩ := ih1 (prec - 1) l hl' hn'
            cases hp : prattExpr ops pr n (prec - 1) l with
            | oof => exact absurd hp h1
            | panic => simp [andThen]
            | ok r =>
              obtain ⟨e, rest⟩ := r
              obtain ⟨a, b⟩ := h2 e rest hp
              simp only [andThen]
              cases hi : infixNode o p e with
              | oof => exact absurd hi (infixNode_ends _ _ _)
              | panic => simp
              | ok e' =>
                obtain ⟨h3, h4⟩ := ih2 rbp e' rest (fun q hq => hl' q (b q hq)) (by omega)
                refine ⟨h3, fun o' rest' hr => ?_⟩
                obtain ⟨c, d⟩ := h4 o' rest' hr
                exact ⟨by simp; omega, fun q hq => List.mem_cons_of_mem _ (b q (d q hq))⟩
          · exact ⟨by simp, fun o' rest h => by cases h; exact ⟨Nat.le_refl _, fun _ h => h⟩⟩

theorem length_lt_sizeOf (l : List PTree) : l.length < sizeOf l := by
  induction l with
  | nil => simp
  | cons a l ih => simp only [List.length_cons, List.cons.sizeOf_spec]; omega

theorem sizeOf_inner {t p : PTree} (h : p ∈ t.inner) : sizeOf p + 2 ≤ sizeOf t := by
  obtain ⟨r, x, l⟩ := t
  have := List.sizeOf_lt_of_mem h
  simp only [PTree.inner] at this
  simp only [PTree.node.sizeOf_spec]
  omega

theorem skip_mem (r : MetaRule) (l : List PTree) : (skip r l).length ≤ l.length ∧ ∀ p ∈ skip r l, p ∈ l := by
  cases l with
  | nil => exact ⟨Nat.le_refl _, fun _ h => h⟩
  | cons a l =>
    simp only [skip]
    split
    · exact ⟨by simp, fun p hp => List.mem_cons_of_mem _ hp⟩
    · exact ⟨Nat.le_refl _, fun _ h => h⟩

/-- Whatever the pairs are. -/
theorem parseNode_ends (ops : Ops) (n : Nat) : ∀ t, sizeOf t ≤ n → parseNode ops n t ≠ .oof := by
  induction n with
  | zero => intro t ht; obtain ⟨r, x, l⟩ := t; simp at ht
  | succ n ih =>
    intro t ht
    have hlen : t.inner.length < n := by
      obtain ⟨r, x, l⟩ := t
      have := length_lt_sizeOf l
      simp only [PTree.node.sizeOf_spec] at ht
      simp only [PTree.inner]; omega
    obtain ⟨h1, h2⟩ := skip_mem .choiceOperator t.inner
    have hsz : ∀ p ∈ t.inner, sizeOf p ≤ n := fun p hp => by have := sizeOf_inner hp; omega
    refine andThen_ends ((pratt_ends n).1 0 _ (fun p hp => ?_) (by omega)).1 fun _ _ => by simp
    have hp := hsz p (h2 p hp)
    refine parseTerm_ends p (fun q hq => ih q ?_) (fun q hq a ha u hu => ih u ?_)
    · have := sizeOf_inner hq; omega
    · have := sizeOf_inner hq; have := sizeOf_inner ha; have := sizeOf_inner hu; omega

/-- From some fuel on the outcome is the same. -/
theorem parseNode_settles (ops : Ops) (t : PTree) : ∃ r, r ≠ .oof ∧ ∀ n, sizeOf t ≤ n → parseNode ops n t = r := by
  have h0 := parseNode_ends ops _ t (Nat.le_refl _)
  refine ⟨_, h0, fun n hn => ?_⟩
  rcases parseNode_le ops _ n hn t with h | h
  · exact absurd h h0
  · exact h.symm

end Pest3.Gen
