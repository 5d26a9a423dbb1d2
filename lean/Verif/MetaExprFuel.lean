import Verif.MetaExprRead
import Verif.Fuel

/-! # Reading expressions: more fuel never changes a result -/

namespace Pest3.Gen
open Pest3
open Pest3.Meta (MetaRange MetaRule MetaPair)

theorem andThen_le {α β : Type} {x y : Res α} {k k' : α → Res β} (h : Res.Le x y) (hk : ∀ a, Res.Le (k a) (k' a)) :
    Res.Le (andThen x k) (andThen y k') := by
  rcases h with rfl | rfl
  · exact .inl rfl
  · cases x with
    | ok a => exact hk a
    | panic => exact .inr rfl
    | oof => exact .inl rfl

theorem tryThen_le {α β : Type} {x y : Res (Option α)} {k k' : α → Res (Option β)} (h : Res.Le x y)
    (hk : ∀ a, Res.Le (k a) (k' a)) : Res.Le (tryThen x k) (tryThen y k') := by
  refine andThen_le h fun a => ?_
  cases a with
  | none => exact .inr rfl
  | some a => exact hk a

section
variable {node node' : PTree → Res (Option Expr)}

theorem callArgs_le (h : ∀ t, Res.Le (node t) (node' t)) (l : List PTree) : Res.Le (callArgs node l) (callArgs node' l) := by
  fun_induction callArgs node l with
  | case1 p q rest hp hq ih =>
    rw [callArgs, if_pos hp, if_pos hq]
    exact tryThen_le (h p) fun _ => tryThen_le ih fun _ => .refl _
  | case2 p q rest hp hq ih =>
    rw [callArgs, if_pos hp, if_neg hq]
    exact tryThen_le (h p) fun _ => tryThen_le ih fun _ => .refl _
  | case3 p q rest hp => rw [callArgs, if_neg hp]; exact .refl _
  | case4 p hp => rw [callArgs, if_pos hp]; exact tryThen_le (h p) fun _ => .refl _
  | case5 p hp => rw [callArgs, if_neg hp]; exact .refl _
  | case6 => rw [callArgs]; exact .refl _

theorem parsePath_le (h : ∀ t, Res.Le (node t) (node' t)) (p : PTree) : Res.Le (parsePath node p) (parsePath node' p) := by
  unfold parsePath
  split
  · exact .refl _
  · split
    · split
      · exact .refl _
      · exact tryThen_le (callArgs_le h _) fun _ => .refl _
    · exact .refl _
    · exact .refl _

theorem termStep_le (h : ∀ t, Res.Le (node t) (node' t)) (p : PTree) (st : TermSt) :
    Res.Le (termStep node p st) (termStep node' p st) := by
  unfold termStep
  split
  all_goals first | exact .refl _ | exact tryThen_le (h p) fun _ => .refl _ | exact tryThen_le (parsePath_le h p) fun _ => .refl _

theorem termLoop_le (h : ∀ t, Res.Le (node t) (node' t)) (l : List PTree) (st : TermSt) :
    Res.Le (termLoop node l st) (termLoop node' l st) := by
  induction l generalizing st with
  | nil => exact .refl _
  | cons p l ih => exact tryThen_le (termStep_le h p st) fun st => ih st

theorem parseTerm_le (h : ∀ t, Res.Le (node t) (node' t)) (t : PTree) : Res.Le (parseTerm node t) (parseTerm node' t) :=
  tryThen_le (termLoop_le h _ _) fun _ => .refl _

end

theorem pratt_le {ops : Ops} {pr pr' : PTree → Res (Option Expr)} (h : ∀ t, Res.Le (pr t) (pr' t)) : ∀ n m, n ≤ m →
    (∀ rbp l, Res.Le (prattExpr ops pr n rbp l) (prattExpr ops pr' m rbp l)) ∧
    ∀ rbp o l, Res.Le (prattLoop ops pr n rbp o l) (prattLoop ops pr' m rbp o l) := by
  intro n
  induction n with
  | zero => intro m _; exact ⟨fun _ _ => .inl (by simp [prattExpr]), fun _ _ _ => .inl (by simp [prattLoop])⟩
  | succ n ih =>
    intro m hm
    obtain ⟨m, rfl⟩ : ∃ k, m = k + 1 := ⟨m - 1, by omega⟩
    obtain ⟨ih1, ih2⟩ := ih m (by omega)
    constructor
    · intro rbp l
      cases l with
      | nil => simp only [prattExpr]; exact .refl _
      | cons p l =>
        simp only [prattExpr]
        split
        · exact .refl _
        · exact andThen_le (h p) fun _ => ih2 _ _ _
    · intro rbp o l
      cases l with
      | nil => simp only [prattLoop]; exact .refl _
      | cons p l =>
        simp only [prattLoop]
        split
        · exact .refl _
        · split
          · exact andThen_le (ih1 _ _) fun _ => andThen_le (.refl _) fun _ => ih2 _ _ _
          · exact .refl _

theorem parseNode_le (ops : Ops) : ∀ n m, n ≤ m → ∀ t, Res.Le (parseNode ops n t) (parseNode ops m t) := by
  intro n
  induction n with
  | zero => intro m _ t; exact .inl rfl
  | succ n ih =>
    intro m hm t
    obtain ⟨m, rfl⟩ : ∃ k, m = k + 1 := ⟨m - 1, by omega⟩
    exact andThen_le ((pratt_le (fun t => parseTerm_le (ih m (by omega)) t) n m (by omega)).1 _ _) fun _ => .refl _

theorem parseNode_agree {ops : Ops} {n m : Nat} {t : PTree} {o o' : Option Expr} (h : parseNode ops n t = .ok o)
    (h' : parseNode ops m t = .ok o') : o = o' := by
  have h1 := parseNode_le ops n (n + m) (by omega) t
  have h2 := parseNode_le ops m (n + m) (by omega) t
  rw [h] at h1
  rw [h'] at h2
  rcases h1 with h1 | h1
  · cases h1
  rcases h2 with h2 | h2
  · cases h2
  have := h1.trans h2.symm
  cases this; rfl

end Pest3.Gen
