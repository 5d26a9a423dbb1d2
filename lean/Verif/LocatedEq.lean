import Verif.Located
import Verif.ExprEq

/-!
# Deciding whether expressions with spans are equal, for running the model on examples
-/

namespace Pest3.Gen
open Pest3 Pest3.Meta

mutual
/-- Whether two expressions are the same. -/
def SExpr.same : SExpr → SExpr → Bool
  | .str s l, .str s' l' => s = s' && l = l'
  | .insens s l, .insens s' l' => s = s' && l = l'
  | .range a b l, .range a' b' l' => a = a' && b = b' && l = l'
  | .path p l, .path p' l' => p = p' && l = l'
  | .call p es l, .call p' es' l' => p = p' && SExpr.sameAll es es' && l = l'
  | .slice p r l, .slice p' r' l' => p = p' && r = r' && l = l'
  | .pos e l, .pos e' l' => e.same e' && l = l'
  | .neg e l, .neg e' l' => e.same e' && l = l'
  | .seq x y t l, .seq x' y' t' l' => x.same x' && y.same y' && t = t' && l = l'
  | .choice x y l, .choice x' y' l' => x.same x' && y.same y' && l = l'
  | .opt e l, .opt e' l' => e.same e' && l = l'
  | .rep e l, .rep e' l' => e.same e' && l = l'
  | .repOnce e l, .repOnce e' l' => e.same e' && l = l'
  | .repRange e r l, .repRange e' r' l' => e.same e' && r = r' && l = l'
  | .separated e t l, .separated e' t' l' => e.same e' && t = t' && l = l'
  | _, _ => false

def SExpr.sameAll : List SExpr → List SExpr → Bool
  | [], [] => true
  | a :: l, a' :: l' => a.same a' && SExpr.sameAll l l'
  | _, _ => false
end

mutual
theorem SExpr.same_eq : ∀ {a b : SExpr}, a.same b = true → a = b
  | .str _ _, b, h | .insens _ _, b, h | .range _ _ _, b, h | .path _ _, b, h | .slice _ _ _, b, h => by
    cases b <;> simp_all [SExpr.same]
  | .call p l _, b, h => by
    cases b <;> simp [SExpr.same] at h
    rw [h.1.1, SExpr.sameAll_eq h.1.2, h.2]
  | .pos e _, b, h | .neg e _, b, h | .opt e _, b, h | .rep e _, b, h | .repOnce e _, b, h => by
    cases b <;> simp [SExpr.same] at h
    rw [SExpr.same_eq h.1, h.2]
  | .repRange e r _, b, h | .separated e r _, b, h => by
    cases b <;> simp [SExpr.same] at h
    rw [SExpr.same_eq h.1.1, h.1.2, h.2]
  | .seq l r t _, b, h => by
    cases b <;> simp [SExpr.same] at h
    rw [SExpr.same_eq h.1.1.1, SExpr.same_eq h.1.1.2, h.1.2, h.2]
  | .choice l r _, b, h => by
    cases b <;> simp [SExpr.same] at h
    rw [SExpr.same_eq h.1.1, SExpr.same_eq h.1.2, h.2]

theorem SExpr.sameAll_eq : ∀ {a b : List SExpr}, SExpr.sameAll a b = true → a = b
  | [], b, h => by cases b <;> simp_all [SExpr.sameAll]
  | a :: l, b, h => by
    cases b <;> simp [SExpr.sameAll] at h
    rw [SExpr.same_eq h.1, SExpr.sameAll_eq h.2]
end

mutual
theorem SExpr.same_refl : ∀ a : SExpr, a.same a = true
  | .str _ _ | .insens _ _ | .range _ _ _ | .path _ _ | .slice _ _ _ => by simp [SExpr.same]
  | .call p l _ => by simp [SExpr.same, SExpr.sameAll_refl l]
  | .pos e _ | .neg e _ | .opt e _ | .rep e _ | .repOnce e _ | .repRange e _ _ | .separated e _ _ => by simp [SExpr.same, SExpr.same_refl e]
  | .seq l r t _ => by simp [SExpr.same, SExpr.same_refl l, SExpr.same_refl r]
  | .choice l r _ => by simp [SExpr.same, SExpr.same_refl l, SExpr.same_refl r]

theorem SExpr.sameAll_refl : ∀ a : List SExpr, SExpr.sameAll a a = true
  | [] => rfl
  | a :: l => by simp [SExpr.sameAll, SExpr.same_refl a, SExpr.sameAll_refl l]
end

instance : DecidableEq SExpr := fun a b =>
  if h : a.same b = true then isTrue (SExpr.same_eq h) else isFalse fun e => h (e ▸ SExpr.same_refl a)

deriving instance DecidableEq for SRule
deriving instance DecidableEq for LErr
deriving instance DecidableEq for Load.LItem

end Pest3.Gen
