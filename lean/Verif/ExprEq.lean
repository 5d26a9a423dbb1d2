import Verif.Loader

/-!
# Deciding whether expressions are equal, for running the model on examples
-/

namespace Pest3.Gen
open Pest3 Pest3.Meta

mutual
/-- Whether two expressions are the same. -/
def Expr.same : Expr → Expr → Bool
  | .str s, .str s' => s = s'
  | .insens s, .insens s' => s = s'
  | .range a b, .range a' b' => a = a' && b = b'
  | .path p, .path p' => p = p'
  | .call p l, .call p' l' => p = p' && Expr.sameAll l l'
  | .slice p r, .slice p' r' => p = p' && r = r'
  | .pos e, .pos e' => e.same e'
  | .neg e, .neg e' => e.same e'
  | .seq l r t, .seq l' r' t' => l.same l' && r.same r' && t = t'
  | .choice l r, .choice l' r' => l.same l' && r.same r'
  | .opt e, .opt e' => e.same e'
  | .rep e, .rep e' => e.same e'
  | .repOnce e, .repOnce e' => e.same e'
  | .repRange e r, .repRange e' r' => e.same e' && r = r'
  | .separated e t, .separated e' t' => e.same e' && t = t'
  | _, _ => false

def Expr.sameAll : List Expr → List Expr → Bool
  | [], [] => true
  | a :: l, a' :: l' => a.same a' && Expr.sameAll l l'
  | _, _ => false
end

mutual
theorem Expr.same_eq : ∀ {a b : Expr}, a.same b = true → a = b
  | .str _, b, h | .insens _, b, h | .range _ _, b, h | .path _, b, h | .slice _ _, b, h => by
    cases b <;> simp_all [Expr.same]
  | .call p l, b, h => by
    cases b <;> simp [Expr.same] at h
    rw [h.1, Expr.sameAll_eq h.2]
  | .pos e, b, h | .neg e, b, h | .opt e, b, h | .rep e, b, h | .repOnce e, b, h => by
    cases b <;> simp [Expr.same] at h
    rw [Expr.same_eq h]
  | .repRange e r, b, h | .separated e r, b, h => by
    cases b <;> simp [Expr.same] at h
    rw [Expr.same_eq h.1, h.2]
  | .seq l r t, b, h => by
    cases b <;> simp [Expr.same] at h
    rw [Expr.same_eq h.1.1, Expr.same_eq h.1.2, h.2]
  | .choice l r, b, h => by
    cases b <;> simp [Expr.same] at h
    rw [Expr.same_eq h.1, Expr.same_eq h.2]

theorem Expr.sameAll_eq : ∀ {a b : List Expr}, Expr.sameAll a b = true → a = b
  | [], b, h => by cases b <;> simp_all [Expr.sameAll]
  | a :: l, b, h => by
    cases b <;> simp [Expr.sameAll] at h
    rw [Expr.same_eq h.1, Expr.sameAll_eq h.2]
end

mutual
theorem Expr.same_refl : ∀ a : Expr, a.same a = true
  | .str _ | .insens _ | .range _ _ | .path _ | .slice _ _ => by simp [Expr.same]
  | .call p l => by simp [Expr.same, Expr.sameAll_refl l]
  | .pos e | .neg e | .opt e | .rep e | .repOnce e | .repRange e _ | .separated e _ => by simp [Expr.same, Expr.same_refl e]
  | .seq l r t => by simp [Expr.same, Expr.same_refl l, Expr.same_refl r]
  | .choice l r => by simp [Expr.same, Expr.same_refl l, Expr.same_refl r]

theorem Expr.sameAll_refl : ∀ a : List Expr, Expr.sameAll a a = true
  | [] => rfl
  | a :: l => by simp [Expr.sameAll, Expr.same_refl a, Expr.sameAll_refl l]
end

instance : DecidableEq Expr := fun a b =>
  if h : a.same b = true then isTrue (Expr.same_eq h) else isFalse fun e => h (e ▸ Expr.same_refl a)

deriving instance DecidableEq for Rule
deriving instance DecidableEq for Res

end Pest3.Gen

namespace Pest3.Load
open Pest3 Pest3.Gen

deriving instance DecidableEq for ImportStmt
deriving instance DecidableEq for FileItem

end Pest3.Load
